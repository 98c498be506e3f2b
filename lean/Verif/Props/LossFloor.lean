import Verif.Lemmas.LossFloor
import Verif.Props.Order

/-!
# Property theorems: the smallest loss (C128)
-/

namespace RL

open Spec

/-- C128: the loss is at least the sum of the distances of the expected outputs from the values of the last activation, whatever the parameters and the inputs. -/
theorem C128 (h : Heap ℝ) (mlp : Mlp ℝ) (x y m k n : Nat) (f : Act) (pre : List (Nat × Act)) (a b θ : Nat → Nat → ℝ) (ht : Training h mlp x y m k (pre ++ [(n, f)]) a b θ) :
    ∃ h' l L, trainLoss mlp h x y = .ok (h', l) ∧ dataOf h' l = some ⟨[L], []⟩ ∧ ∑ i ∈ Finset.range m, ∑ j ∈ Finset.range n, floorOf f (b i j) ≤ L := by
  obtain ⟨h', l, e, d⟩ := loss_value ht
  refine ⟨h', l, _, e, d, ?_⟩
  rw [netLoss, lastWidth_append]
  refine Finset.sum_le_sum fun i _ => Finset.sum_le_sum fun j _ => ?_
  rw [value_last]
  exact floor_le f _ _

/-- C128: if the expected outputs are the same in all rows, as for a single row, then there are parameters that come as close to this bound as one likes, for all inputs. -/
theorem C128_near (m k n : Nat) (f : Act) (pre : List (Nat × Act)) (hm : 0 < m) (hk : 0 < k) (hd : ∀ d ∈ pre ++ [(n, f)], 0 < d.1) (u : Nat → ℝ) (ε : ℝ) (hε : 0 < ε) :
    ∃ θ : Nat → Nat → ℝ, (∀ a : Nat → Nat → ℝ, ∃ h mlp x y, Training h mlp x y m k (pre ++ [(n, f)]) a (fun _ j => u j) θ) ∧
      ∀ (h : Heap ℝ) (mlp : Mlp ℝ) (x y : Nat) (a : Nat → Nat → ℝ), Training h mlp x y m k (pre ++ [(n, f)]) a (fun _ j => u j) θ →
        ∃ h' l L, trainLoss mlp h x y = .ok (h', l) ∧ dataOf h' l = some ⟨[L], []⟩ ∧ L < m * (∑ j ∈ Finset.range n, floorOf f (u j)) + ε := by
  have hn : 0 < n := hd (n, f) (by simp)
  have hm' : (0 : ℝ) < m := Nat.cast_pos.2 hm
  have hn' : (0 : ℝ) < n := Nat.cast_pos.2 hn
  have hc : ∀ j, ∃ x, |f.fn x - u j| < floorOf f (u j) + ε / (m * n) := fun j => floor_near f (u j) (by positivity)
  choose c hc using hc
  refine ⟨fun q j => if q = 2 * pre.length + 1 then c j else 0, fun a => ⟨_, _, _, _, training_exists m k _ a _ _ hm hk hd⟩, fun h mlp x y a ht => ?_⟩
  obtain ⟨h', l, e, d⟩ := loss_value ht
  refine ⟨h', l, _, e, d, ?_⟩
  rw [netLoss, lastWidth_append]
  have hv : ∀ i j, netValue k (layerFns (fun q j => if q = 2 * pre.length + 1 then c j else 0) 0 (pre ++ [(n, f)])) a i j = f.fn (c j) := by
    intro i j
    rw [value_last, lastIn, affine_sum]
    simp
  simp only [hv, Finset.sum_const, Finset.card_range, nsmul_eq_mul, lastWidth]
  have h1 : ∑ j ∈ Finset.range n, |f.fn (c j) - u j| < ∑ j ∈ Finset.range n, (floorOf f (u j) + ε / (m * n)) :=
    Finset.sum_lt_sum_of_nonempty ⟨0, Finset.mem_range.2 hn⟩ fun j _ => hc j
  rw [Finset.sum_add_distrib, Finset.sum_const, Finset.card_range, nsmul_eq_mul] at h1
  have h2 := mul_lt_mul_of_pos_left h1 hm'
  have h3 : (m : ℝ) * (n * (ε / (m * n))) = ε := by field_simp
  rw [mul_add, h3] at h2
  exact h2

/-- C128, exactly when there is a smallest loss: if the expected outputs are the same in all rows, then some parameters reach the bound if and only if the outputs are not tanh or
all expected outputs are between -1 and 1, without these two. -/
theorem C128_exact (m k n : Nat) (f : Act) (pre : List (Nat × Act)) (hm : 0 < m) (hk : 0 < k) (hd : ∀ d ∈ pre ++ [(n, f)], 0 < d.1) (u : Nat → ℝ) (a : Nat → Nat → ℝ) :
    (∃ h mlp x y θ h' l, Training h mlp x y m k (pre ++ [(n, f)]) a (fun _ j => u j) θ ∧ trainLoss mlp h x y = .ok (h', l) ∧
      dataOf h' l = some ⟨[m * ∑ j ∈ Finset.range n, floorOf f (u j)], []⟩) ↔ (f = .tanh → ∀ j < n, |u j| < 1) := by
  constructor
  · rintro ⟨h, mlp, x, y, θ, h', l, ht, e, d⟩ rfl j hj
    obtain ⟨h₁, l₁, e₁, d₁⟩ := loss_value ht
    rw [e] at e₁
    cases e₁
    rw [d] at d₁
    simp only [Option.some.injEq, Raw.mk.injEq, List.cons.injEq, and_true] at d₁
    by_contra hj1
    rw [not_lt] at hj1
    refine absurd d₁ (ne_of_lt ?_)
    rw [netLoss, lastWidth_append, ← nsmul_eq_mul, ← Finset.card_range m, ← Finset.sum_const, Finset.card_range]
    refine Finset.sum_lt_sum_of_nonempty ⟨0, Finset.mem_range.2 hm⟩ fun i _ => Finset.sum_lt_sum (fun j _ => ?_) ⟨j, Finset.mem_range.2 hj, ?_⟩
    · rw [value_last]
      exact floor_le _ _ _
    · rw [value_last]
      exact floor_lt hj1 _
  · intro hu
    have hc : ∀ j, ∃ x, j < n → |f.fn x - u j| = floorOf f (u j) := fun j => by
      by_cases hj : j < n
      · obtain ⟨x, hx⟩ := floor_attained fun hf => hu hf j hj
        exact ⟨x, fun _ => hx⟩
      · exact ⟨0, fun h => absurd h hj⟩
    choose c hc using hc
    have ht := training_exists m k (pre ++ [(n, f)]) a (fun _ j => u j) (fun q j => if q = 2 * pre.length + 1 then c j else 0) hm hk hd
    obtain ⟨h', l, e, d⟩ := loss_value ht
    refine ⟨_, _, _, _, _, h', l, ht, e, ?_⟩
    rw [d, netLoss, lastWidth_append]
    have hv : ∀ i j, netValue k (layerFns (fun q j => if q = 2 * pre.length + 1 then c j else 0) 0 (pre ++ [(n, f)])) a i j = f.fn (c j) := by
      intro i j
      rw [value_last, lastIn, affine_sum]
      simp
    simp only [hv, Finset.sum_const, Finset.card_range, nsmul_eq_mul, lastWidth]
    rw [Finset.sum_congr rfl fun j hj => hc j (Finset.mem_range.1 hj)]

/-- TEST of `C128`: expected outputs 3 and 1/2 of tanh outputs; the bound is 2. -/
example : floorOf .tanh 3 + floorOf .tanh (1 / 2) = 2 := by
  norm_num [floorOf, abs_of_pos]

/-- TEST of the hypotheses of `C128`. -/
example (a b θ : Nat → Nat → ℝ) : ∃ h mlp x y, Training h mlp x y 4 40 ([(7, .relu)] ++ [(2, .tanh)]) a b θ :=
  ⟨_, _, _, _, training_exists 4 40 _ _ _ _ (by omega) (by omega) (by simp)⟩

end RL
