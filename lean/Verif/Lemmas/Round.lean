import Verif.SpecRound
import Mathlib.Algebra.Order.BigOperators.Group.Finset
import Mathlib.Algebra.BigOperators.Group.List.Lemmas
import Mathlib.Algebra.Order.BigOperators.Group.List
import Mathlib.Algebra.Order.Ring.Abs
import Mathlib.Tactic.Linarith
import Mathlib.Tactic.Ring
import Mathlib.Tactic.Positivity
import Mathlib.Tactic.GCongr

/-!
# Rounding errors of sums and of sums of products
-/

namespace RL

open Spec

variable {T : Type} [Zero T] [Add T] [Mul T] [Neg T]

namespace Spec.Rounding

variable (ρ : Rounding T)

theorem one_le_pow (n : Nat) : 1 ≤ (1 + ρ.u) ^ n := one_le_pow₀ (by have := ρ.u_nonneg; linarith)

/-- A sum from a given start. -/
theorem foldl_add (l : List T) (acc : T) (hf : ρ.fin (l.foldl (· + ·) acc)) :
    ρ.fin acc ∧ (∀ x ∈ l, ρ.fin x) ∧ |ρ.val (l.foldl (· + ·) acc) - (ρ.val acc + (l.map ρ.val).sum)| ≤
      ((1 + ρ.u) ^ l.length - 1) * (|ρ.val acc| + (l.map fun x => |ρ.val x|).sum) := by
  induction l generalizing acc with
  | nil => exact ⟨hf, by simp, by simp⟩
  | cons x l ih =>
    obtain ⟨h1, h2, h3⟩ := ih (acc + x) hf
    obtain ⟨ha, hx, he⟩ := ρ.add _ _ h1
    refine ⟨ha, by simpa using ⟨hx, h2⟩, ?_⟩
    simp only [List.foldl_cons, List.map_cons, List.sum_cons, List.length_cons]
    set res := ρ.val (l.foldl (· + ·) (acc + x))
    set S := (l.map ρ.val).sum
    set A := (l.map fun x => |ρ.val x|).sum
    have hA : 0 ≤ A := List.sum_nonneg (by simp)
    have hu := ρ.u_nonneg
    have hp := ρ.one_le_pow l.length
    set P := (1 + ρ.u) ^ l.length
    have t1 : |res - (ρ.val acc + (ρ.val x + S))| ≤ |res - (ρ.val (acc + x) + S)| + |ρ.val (acc + x) - (ρ.val acc + ρ.val x)| := by
      have : res - (ρ.val acc + (ρ.val x + S)) = (res - (ρ.val (acc + x) + S)) + (ρ.val (acc + x) - (ρ.val acc + ρ.val x)) := by ring
      rw [this]; exact abs_add_le _ _
    have t2 : |ρ.val acc + ρ.val x| ≤ |ρ.val acc| + |ρ.val x| := abs_add_le _ _
    have t3 : |ρ.val (acc + x)| ≤ (1 + ρ.u) * (|ρ.val acc| + |ρ.val x|) := by
      have : |ρ.val (acc + x)| ≤ |ρ.val (acc + x) - (ρ.val acc + ρ.val x)| + |ρ.val acc + ρ.val x| := by
        have := abs_add_le (ρ.val (acc + x) - (ρ.val acc + ρ.val x)) (ρ.val acc + ρ.val x)
        simpa using this
      nlinarith [abs_nonneg (ρ.val acc + ρ.val x)]
    have t4 : (P - 1) * (|ρ.val (acc + x)| + A) ≤ (P - 1) * ((1 + ρ.u) * (|ρ.val acc| + |ρ.val x|) + A) :=
      mul_le_mul_of_nonneg_left (by linarith) (by linarith)
    have t5 : ρ.u * |ρ.val acc + ρ.val x| ≤ ρ.u * (|ρ.val acc| + |ρ.val x|) := mul_le_mul_of_nonneg_left t2 hu
    have t6 : 0 ≤ P * ρ.u * A := by positivity
    rw [pow_succ]
    nlinarith

/-- A sum from 0: the first addition is exact. -/
theorem sum_error (l : List T) (hf : ρ.fin (l.foldl (· + ·) 0)) :
    (∀ x ∈ l, ρ.fin x) ∧ |ρ.val (l.foldl (· + ·) 0) - (l.map ρ.val).sum| ≤
      ((1 + ρ.u) ^ (l.length - 1) - 1) * (l.map fun x => |ρ.val x|).sum := by
  cases l with
  | nil => simp [ρ.val_zero]
  | cons x l =>
    obtain ⟨h1, h2, h3⟩ := ρ.foldl_add l (0 + x) hf
    obtain ⟨_, hx, _⟩ := ρ.add _ _ h1
    rw [ρ.zero_add _ h1] at h3
    exact ⟨by simpa using ⟨hx, h2⟩, by simpa using h3⟩

/-- A sum of products from 0. -/
theorem dot_error {ι : Type} (l : List ι) (a b : ι → T) (hf : ρ.fin ((l.map fun i => a i * b i).foldl (· + ·) 0)) :
    (∀ i ∈ l, ρ.fin (a i) ∧ ρ.fin (b i)) ∧
    |ρ.val ((l.map fun i => a i * b i).foldl (· + ·) 0) - (l.map fun i => ρ.val (a i) * ρ.val (b i)).sum| ≤
      ρ.dotError l.length (l.map fun i => |ρ.val (a i) * ρ.val (b i)|).sum := by
  unfold dotError
  obtain ⟨h1, h2⟩ := ρ.sum_error _ hf
  have hm : ∀ i ∈ l, ρ.fin (a i * b i) := fun i hi => h1 _ (List.mem_map.2 ⟨i, hi, rfl⟩)
  refine ⟨fun i hi => ⟨(ρ.mul _ _ (hm i hi)).1, (ρ.mul _ _ (hm i hi)).2.1⟩, ?_⟩
  have hu := ρ.u_nonneg
  -- the sum of the rounded products
  have e1 : |((l.map fun i => a i * b i).map ρ.val).sum - (l.map fun i => ρ.val (a i) * ρ.val (b i)).sum| ≤
      ρ.u * (l.map fun i => |ρ.val (a i) * ρ.val (b i)|).sum + l.length * ρ.eta := by
    clear hf h1 h2
    induction l with
    | nil => simp
    | cons i l ih =>
      have := ih fun j hj => hm j (by simp [hj])
      obtain ⟨_, _, he⟩ := ρ.mul _ _ (hm i (by simp))
      simp only [List.map_cons, List.sum_cons, List.length_cons, Nat.cast_add, Nat.cast_one]
      set X := ((l.map fun i => a i * b i).map ρ.val).sum
      set Y := (l.map fun i => ρ.val (a i) * ρ.val (b i)).sum
      have : |ρ.val (a i * b i) + X - (ρ.val (a i) * ρ.val (b i) + Y)| ≤ |ρ.val (a i * b i) - ρ.val (a i) * ρ.val (b i)| + |X - Y| := by
        have e : ρ.val (a i * b i) + X - (ρ.val (a i) * ρ.val (b i) + Y) = (ρ.val (a i * b i) - ρ.val (a i) * ρ.val (b i)) + (X - Y) := by
          ring
        rw [e]; exact abs_add_le _ _
      linarith
  have e2 : ((l.map fun i => a i * b i).map fun x => |ρ.val x|).sum ≤
      (1 + ρ.u) * (l.map fun i => |ρ.val (a i) * ρ.val (b i)|).sum + l.length * ρ.eta := by
    clear hf h1 h2 e1
    induction l with
    | nil => simp
    | cons i l ih =>
      have := ih fun j hj => hm j (by simp [hj])
      obtain ⟨_, _, he⟩ := ρ.mul _ _ (hm i (by simp))
      simp only [List.map_cons, List.sum_cons, List.length_cons, Nat.cast_add, Nat.cast_one]
      have : |ρ.val (a i * b i)| ≤ |ρ.val (a i * b i) - ρ.val (a i) * ρ.val (b i)| + |ρ.val (a i) * ρ.val (b i)| := by
        simpa using abs_add_le (ρ.val (a i * b i) - ρ.val (a i) * ρ.val (b i)) (ρ.val (a i) * ρ.val (b i))
      linarith
  rw [List.length_map] at h2
  set n := l.length
  set V := ρ.val ((l.map fun i => a i * b i).foldl (· + ·) 0)
  set X := ((l.map fun i => a i * b i).map ρ.val).sum
  set Y := (l.map fun i => ρ.val (a i) * ρ.val (b i)).sum
  set A := (l.map fun i => |ρ.val (a i) * ρ.val (b i)|).sum
  have t1 : |V - Y| ≤ |V - X| + |X - Y| := by
    have e : V - Y = (V - X) + (X - Y) := by ring
    rw [e]; exact abs_add_le _ _
  have hp := ρ.one_le_pow (n - 1)
  rcases Nat.eq_zero_or_pos n with hn | hn
  · have : l = [] := List.length_eq_zero_iff.1 hn
    subst this
    simp only [n, A, List.length_nil, List.map_nil, List.sum_nil] at *
    simpa [V, Y] using ρ.val_zero
  · have hs : (1 + ρ.u) ^ n = (1 + ρ.u) ^ (n - 1) * (1 + ρ.u) := by rw [← pow_succ, Nat.sub_add_cancel hn]
    rw [hs]
    set P := (1 + ρ.u) ^ (n - 1)
    have t2 := mul_le_mul_of_nonneg_left e2 (show 0 ≤ P - 1 by linarith)
    nlinarith

theorem sum_range (k : Nat) (f : Nat → ℝ) : ((List.range k).map f).sum = ∑ i ∈ Finset.range k, f i := by
  induction k with
  | zero => rfl
  | succ k ih => rw [List.range_succ, Finset.sum_range_succ, List.map_append, List.sum_append, ih]; simp

/-- A sum of products over indices in any order. -/
theorem order_error (n : Nat) (a b : Nat → T) (order : List Nat) (ho : order.Perm (List.range n))
    (hf : ρ.fin (order.foldl (fun acc i => acc + a i * b i) 0)) :
    (∀ i < n, ρ.fin (a i) ∧ ρ.fin (b i)) ∧
    |ρ.val (order.foldl (fun acc i => acc + a i * b i) 0) - ∑ i ∈ Finset.range n, ρ.val (a i) * ρ.val (b i)| ≤
      ρ.dotError n (∑ i ∈ Finset.range n, |ρ.val (a i) * ρ.val (b i)|) := by
  have e : order.foldl (fun acc i => acc + a i * b i) 0 = (order.map fun i => a i * b i).foldl (· + ·) 0 := by rw [List.foldl_map]
  rw [e] at hf ⊢
  obtain ⟨h1, h2⟩ := ρ.dot_error order a b hf
  refine ⟨fun i hi => h1 i (ho.mem_iff.2 (List.mem_range.2 hi)), ?_⟩
  rw [(ho.map fun i => ρ.val (a i) * ρ.val (b i)).sum_eq, (ho.map fun i => |ρ.val (a i) * ρ.val (b i)|).sum_eq, ho.length_eq,
    List.length_range, sum_range, sum_range] at h2
  exact h2

theorem affine_error (k : Nat) (x w : Nat → Nat → T) (b : Nat → T) (i j : Nat) (hf : ρ.fin (affine k x w b i j)) :
    |ρ.val (affine k x w b i j) - (∑ kk ∈ Finset.range k, ρ.val (x i kk) * ρ.val (w kk j) + ρ.val (b j))| ≤
      ρ.affineError k x w b i j := by
  obtain ⟨h1, _, h2⟩ := ρ.add _ _ hf
  obtain ⟨_, h3⟩ := ρ.order_error k (x i) (fun kk => w kk j) _ (List.Perm.refl _) h1
  rw [show affine k x w b i j = (List.range k).foldl (fun acc kk => acc + x i kk * w kk j) 0 + b j from rfl]
  unfold affineError
  unfold dotError at h3
  set d := ρ.val ((List.range k).foldl (fun acc kk => acc + x i kk * w kk j) 0)
  set z := ρ.val ((List.range k).foldl (fun acc kk => acc + x i kk * w kk j) 0 + b j)
  set S := ∑ kk ∈ Finset.range k, ρ.val (x i kk) * ρ.val (w kk j)
  set A := ∑ kk ∈ Finset.range k, |ρ.val (x i kk) * ρ.val (w kk j)|
  set c := ρ.val (b j)
  have hu := ρ.u_nonneg
  have hS : |S| ≤ A := Finset.abs_sum_le_sum_abs _ _
  have t1 : |z - (S + c)| ≤ |z - (d + c)| + |d - S| := by
    have e : z - (S + c) = (z - (d + c)) + (d - S) := by ring
    rw [e]; exact abs_add_le _ _
  have t2 : |d + c| ≤ A + |d - S| + |c| := by
    have e : d + c = S + (d - S) + c := by ring
    have h1 := abs_add_le (S + (d - S)) c
    have h2 := abs_add_le S (d - S)
    rw [e]; linarith
  have hk : (k : ℝ) * (1 + ρ.u) ^ (k - 1) * ρ.eta * (1 + ρ.u) = k * (1 + ρ.u) ^ k * ρ.eta := by
    cases k with
    | zero => simp
    | succ k => rw [Nat.add_sub_cancel, pow_succ]; ring
  have t3 := mul_le_mul_of_nonneg_left t2 hu
  have t4 := mul_le_mul_of_nonneg_left h3 (show 0 ≤ 1 + ρ.u by linarith)
  rw [pow_succ]
  nlinarith

end Spec.Rounding

end RL
