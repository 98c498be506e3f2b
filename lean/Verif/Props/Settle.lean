import Verif.Lemmas.Settle
import Verif.Props.Train

/-!
# Training does not settle: C91
-/

namespace RL

open Spec

/-- C91, full statement: a training step leaves the parameters of a network that computes the expected outputs as they are. -/
def C91_statement : Prop :=
  ∀ (h : Heap ℝ) (mlp : Mlp ℝ) (x y m k : Nat) (ds : List (Nat × Act)) (a b θ : Nat → Nat → ℝ) (lr : ℝ), Training h mlp x y m k ds a b θ →
    (∀ i < m, ∀ j < lastWidth k ds, netValue k (layerFns θ 0 ds) a i j = b i j) →
    ∃ h' mlp', trainStep mlp h x y lr = .ok (h', mlp') ∧ NetIs h' mlp' k ds θ

theorem last_bias_mem (k n : Nat) (pre : List (Nat × Act)) (f : Act) {j : Nat} (hj : j < n) :
    (2 * pre.length + 1, j) ∈ coords k 0 (pre ++ [(n, f)]) := by
  have : ∀ (pre : List (Nat × Act)) (k q : Nat), (q + 2 * pre.length + 1, j) ∈ coords k q (pre ++ [(n, f)]) := by
    intro pre
    induction pre with
    | nil =>
      intro k q
      simp [coords, hj]
    | cons e pre ih =>
      intro k q
      obtain ⟨n', f'⟩ := e
      simp only [List.cons_append, coords, Finset.mem_union]
      refine .inr ?_
      have := ih n' (q + 2)
      rwa [List.length_cons, show q + 2 * (pre.length + 1) + 1 = q + 2 + 2 * pre.length + 1 by ring]
  simpa using this pre k 0

theorem sum_sides (m : Nat) (p : Nat → Prop) [DecidablePred p] :
    ∑ i ∈ Finset.range m, (if p i then -1 else 1 : ℝ) = m - 2 * ((Finset.range m).filter p).card := by
  rw [Finset.sum_ite, Finset.sum_const, Finset.sum_const]
  have h := Finset.card_filter_add_card_filter_not (s := Finset.range m) p
  rw [Finset.card_range] at h
  have h' : (((Finset.range m).filter p).card : ℝ) + ((Finset.range m).filter fun a => ¬ p a).card = m := by exact_mod_cast h
  simp only [nsmul_eq_mul, mul_neg, mul_one]
  linarith

/-- C91, what happens: a training step of a network of any depth and any size whose last layer has no activation changes bias `j` of this
layer by the learning rate times the number of rows whose output `j` is at least the expected one, less the number of the others. So
it stays if and only if the outputs of exactly half of the rows are too small (an output that is right counts as too large). -/
theorem C91_identity (h : Heap ℝ) (mlp : Mlp ℝ) (x y m k n : Nat) (pre : List (Nat × Act)) (a b θ : Nat → Nat → ℝ) (lr : ℝ) (j : Nat) (hj : j < n)
    (ht : Training h mlp x y m k (pre ++ [(n, .identity)]) a b θ) :
    ∃ h' mlp' θ', trainStep mlp h x y lr = .ok (h', mlp') ∧ Training h' mlp' x y m k (pre ++ [(n, .identity)]) a b θ' ∧
      θ' (2 * pre.length + 1) j = θ (2 * pre.length + 1) j -
        lr * (m - 2 * ((Finset.range m).filter fun i => netValue k (layerFns θ 0 (pre ++ [(n, .identity)])) a i j < b i j).card) := by
  obtain ⟨h', mlp', e, t⟩ := C50_step_actual h mlp x y m k _ a b θ lr ht
  refine ⟨h', mlp', _, e, t, ?_⟩
  have := loss_last_bias (m := m) (k := k) (f := .identity) (pre := pre) (θ := θ) a b hj
  rw [shuffledDescend]
  unfold unit at this
  rw [this, ← sum_sides]
  simp [value_last, Act.slope]

/-- C91: from the exact solution every such bias moves by the learning rate times the number of rows. -/
theorem C91_fit (h : Heap ℝ) (mlp : Mlp ℝ) (x y m k n : Nat) (pre : List (Nat × Act)) (a b θ : Nat → Nat → ℝ) (lr : ℝ)
    (ht : Training h mlp x y m k (pre ++ [(n, .identity)]) a b θ)
    (hfit : ∀ i < m, ∀ j < n, netValue k (layerFns θ 0 (pre ++ [(n, .identity)])) a i j = b i j) :
    ∃ h' mlp' θ', trainStep mlp h x y lr = .ok (h', mlp') ∧ Training h' mlp' x y m k (pre ++ [(n, .identity)]) a b θ' ∧
      ∀ j < n, θ' (2 * pre.length + 1) j = θ (2 * pre.length + 1) j - lr * m := by
  obtain ⟨h', mlp', e, t⟩ := C50_step_actual h mlp x y m k _ a b θ lr ht
  refine ⟨h', mlp', _, e, t, fun j hj => ?_⟩
  obtain ⟨h2, mlp2, θ', e2, t2, hb⟩ := C91_identity h mlp x y m k n pre a b θ lr j hj ht
  rw [e] at e2
  cases e2
  rw [t.net.unique t2.net (last_bias_mem k n pre _ hj), hb, Finset.filter_false_of_mem]
  · simp
  · intro i hi
    rw [hfit i (Finset.mem_range.1 hi) j hj]
    exact lt_irrefl _

/-- C91 does not hold: one layer with one weight, which computes 0 as expected, gets the bias -1. -/
theorem C91_false : ¬ C91_statement := by
  intro H
  have ht := training_exists 1 1 [(1, .identity)] (fun _ _ => 0) (fun _ _ => 0) (fun _ _ => 0) one_pos one_pos (by simp)
  have hfit : ∀ i < 1, ∀ j < 1, netValue 1 (layerFns (fun _ _ => 0) 0 [(1, .identity)]) (fun _ _ => 0) i j = 0 := by
    intro i _ j _
    simp [layerFns, netValue, affine_sum, Act.fn]
  obtain ⟨h', mlp', e, net⟩ := H _ _ _ _ _ _ _ _ _ _ 1 ht hfit
  obtain ⟨h2, mlp2, θ', e2, t2, hb⟩ := C91_fit _ _ _ _ 1 1 1 [] _ _ _ 1 ht hfit
  rw [e] at e2
  cases e2
  have h1 := net.unique t2.net (last_bias_mem 1 1 [] .identity one_pos)
  rw [hb 0 one_pos] at h1
  norm_num at h1

/-- C91, odd numbers of rows: whatever the parameters, the data and the number of steps done before, every step moves every bias of the last
layer by at least the learning rate. -/
theorem C91_odd (h : Heap ℝ) (mlp : Mlp ℝ) (x y m k n : Nat) (pre : List (Nat × Act)) (a b θ : Nat → Nat → ℝ) (lr : ℝ) (N : Nat) (hm : Odd m)
    (ht : Training h mlp x y m k (pre ++ [(n, .identity)]) a b θ) :
    ∃ h1 mlp1 θ1 h2 mlp2 θ2, train mlp h x y lr N = .ok (h1, mlp1) ∧ NetIs h1 mlp1 k (pre ++ [(n, .identity)]) θ1 ∧
      train mlp h x y lr (N + 1) = .ok (h2, mlp2) ∧ NetIs h2 mlp2 k (pre ++ [(n, .identity)]) θ2 ∧
      ∀ j < n, |lr| ≤ |θ2 (2 * pre.length + 1) j - θ1 (2 * pre.length + 1) j| := by
  obtain ⟨h1, mlp1, e1, t1⟩ := C50_actual N h mlp x y m k _ a b θ lr ht
  obtain ⟨h2, mlp2, e2, t2⟩ := C50_actual (N + 1) h mlp x y m k _ a b θ lr ht
  refine ⟨h1, mlp1, _, h2, mlp2, _, e1, t1.net, e2, t2.net, fun j hj => ?_⟩
  rw [Function.iterate_succ_apply']
  generalize (shuffledDescend lr m k (pre ++ [(n, .identity)]) a b)^[N] θ = θ1 at t1
  obtain ⟨h3, mlp3, θ', e3, t3, hb⟩ := C91_identity h1 mlp1 x y m k n pre a b θ1 lr j hj t1
  obtain ⟨h4, mlp4, e4, t4⟩ := C50_step_actual h1 mlp1 x y m k _ a b θ1 lr t1
  rw [e3] at e4
  cases e4
  rw [t4.net.unique t3.net (last_bias_mem k n pre _ hj), hb, sub_sub_cancel_left, abs_neg, abs_mul]
  generalize ((Finset.range m).filter fun i => netValue k (layerFns θ1 0 (pre ++ [(n, .identity)])) a i j < b i j).card = c
  have hz : ((m : ℤ) - 2 * c) ≠ 0 := by
    obtain ⟨r, rfl⟩ := hm
    push_cast
    omega
  have h5 : (1 : ℝ) ≤ |(m : ℝ) - 2 * c| := by
    have := Int.one_le_abs hz
    have h6 : ((1 : ℤ) : ℝ) ≤ ((|(m : ℤ) - 2 * c| : ℤ) : ℝ) := by exact_mod_cast this
    simpa using h6
  nlinarith [abs_nonneg lr]

/-- C91, odd numbers of rows: the parameters after the steps have no limit. -/
theorem C91_unsettled (h : Heap ℝ) (mlp : Mlp ℝ) (x y m k n : Nat) (pre : List (Nat × Act)) (a b θ : Nat → Nat → ℝ) (lr : ℝ) (hm : Odd m)
    (hlr : lr ≠ 0) (ht : Training h mlp x y m k (pre ++ [(n, .identity)]) a b θ) (θs : Nat → Nat → Nat → ℝ)
    (hθ : ∀ N, ∃ h' mlp', train mlp h x y lr N = .ok (h', mlp') ∧ NetIs h' mlp' k (pre ++ [(n, .identity)]) (θs N)) (j : Nat) (hj : j < n) (z : ℝ) :
    ¬ Filter.Tendsto (fun N => θs N (2 * pre.length + 1) j) Filter.atTop (nhds z) := by
  intro H
  have h1 : Filter.Tendsto (fun N => |θs (N + 1) (2 * pre.length + 1) j - θs N (2 * pre.length + 1) j|) Filter.atTop (nhds 0) := by
    have := ((H.comp (Filter.tendsto_add_atTop_nat 1)).sub H).abs
    simpa using this
  have h2 := ge_of_tendsto' (b := |lr|) h1 fun N => by
    obtain ⟨h1, mlp1, θ1, h2, mlp2, θ2, e1, n1, e2, n2, hb⟩ := C91_odd h mlp x y m k n pre a b θ lr N hm ht
    obtain ⟨_, _, f1, k1⟩ := hθ N
    obtain ⟨_, _, f2, k2⟩ := hθ (N + 1)
    rw [e1] at f1
    cases f1
    rw [e2] at f2
    cases f2
    rw [k1.unique n1 (last_bias_mem k n pre _ hj), k2.unique n2 (last_bias_mem k n pre _ hj)]
    exact hb j hj
  exact absurd h2 (not_le.2 (abs_pos.2 hlr))

/-- C91, one row and `tanh` in the last layer (as in `main.rs`): every step moves every bias of the last layer. -/
theorem C91_tanh (h : Heap ℝ) (mlp : Mlp ℝ) (x y k n : Nat) (pre : List (Nat × Act)) (a b θ : Nat → Nat → ℝ) (lr : ℝ) (hlr : lr ≠ 0) (j : Nat) (hj : j < n)
    (ht : Training h mlp x y 1 k (pre ++ [(n, .tanh)]) a b θ) :
    ∃ h' mlp' θ', trainStep mlp h x y lr = .ok (h', mlp') ∧ Training h' mlp' x y 1 k (pre ++ [(n, .tanh)]) a b θ' ∧
      |θ' (2 * pre.length + 1) j - θ (2 * pre.length + 1) j| = |lr| * (1 - netValue k (layerFns θ 0 (pre ++ [(n, .tanh)])) a 0 j ^ 2) ∧
      θ' (2 * pre.length + 1) j ≠ θ (2 * pre.length + 1) j := by
  obtain ⟨h', mlp', e, t⟩ := C50_step_actual h mlp x y 1 k _ a b θ lr ht
  have hl := loss_last_bias (m := 1) (k := k) (f := .tanh) (pre := pre) (θ := θ) a b hj
  unfold unit at hl
  have hpos : 0 < 1 - netValue k (layerFns θ 0 (pre ++ [(n, .tanh)])) a 0 j ^ 2 := by
    rw [value_last]
    simpa [Act.fn] using Real.tanh_sq_lt_one (lastIn k n pre θ a 0 j)
  have key : |shuffledDescend lr 1 k (pre ++ [(n, .tanh)]) a b θ (2 * pre.length + 1) j - θ (2 * pre.length + 1) j| =
      |lr| * (1 - netValue k (layerFns θ 0 (pre ++ [(n, .tanh)])) a 0 j ^ 2) := by
    rw [shuffledDescend, hl, Finset.sum_range_one, sub_sub_cancel_left, abs_neg, abs_mul, abs_mul, ← abs_of_pos hpos, value_last]
    congr 1
    rw [show |(if Act.tanh.fn (lastIn k n pre θ a 0 j) < b 0 j then -1 else 1 : ℝ)| = 1 by split <;> simp, one_mul]
    rfl
  refine ⟨h', mlp', _, e, t, key, fun h0 => ?_⟩
  rw [h0, sub_self, abs_zero] at key
  exact absurd key (mul_pos (abs_pos.2 hlr) hpos).ne

/-- C91 for networks that end with `relu` if everything that goes into it is negative (then the outputs are 0): training changes no parameter,
whatever is expected. Missing: other networks that compute the expected outputs, for which it is false. -/
theorem C91_partial (h : Heap ℝ) (mlp : Mlp ℝ) (x y m k n : Nat) (pre : List (Nat × Act)) (a b θ : Nat → Nat → ℝ) (lr : ℝ) (N : Nat)
    (ht : Training h mlp x y m k (pre ++ [(n, .relu)]) a b θ)
    (hdead : ∀ i < m, ∀ j < n, affine (lastWidth k pre) (netValue k (layerFns θ 0 pre) a) (fun i j => θ (2 * pre.length) (i * n + j))
      (θ (2 * pre.length + 1)) i j < 0) :
    ∃ h' mlp', train mlp h x y lr N = .ok (h', mlp') ∧ NetIs h' mlp' k (pre ++ [(n, .relu)]) θ := by
  obtain ⟨h', mlp', e, t⟩ := C50_actual N h mlp x y m k _ a b θ lr ht
  have hfix : shuffledDescend lr m k (pre ++ [(n, .relu)]) a b θ = θ := by
    funext q c
    rw [shuffledDescend, loss_last_dead, mul_zero, sub_zero]
    intro i hi j hj
    have := hdead i hi j hj
    simp only [lastIn, Act.slope, this, if_true]
  rw [Function.iterate_fixed hfix] at t
  exact ⟨h', mlp', e, t.net⟩

/-- C91, test: the network of `main.rs` (lines 31-47, one row of data): no parameters, and no data, for which a training step with a learning
rate other than 0 changes nothing. -/
example (h : Heap ℝ) (mlp : Mlp ℝ) (x y : Nat) (a b θ : Nat → Nat → ℝ) (lr : ℝ) (hlr : lr ≠ 0)
    (ht : Training h mlp x y 1 8 [(8192, .relu), (8192, .tanh), (8, .tanh)] a b θ) :
    ∃ h' mlp' θ', trainStep mlp h x y lr = .ok (h', mlp') ∧ Training h' mlp' x y 1 8 [(8192, .relu), (8192, .tanh), (8, .tanh)] a b θ' ∧ θ' 5 0 ≠ θ 5 0 := by
  obtain ⟨h', mlp', θ', e, t, _, hne⟩ := C91_tanh h mlp x y 8 8 [(8192, .relu), (8192, .tanh)] a b θ lr hlr 0 (by omega) ht
  exact ⟨h', mlp', θ', e, t, hne⟩

/-- C91, test: such networks exist, of any size, with any parameters and data. -/
example (k n : Nat) (a b θ : Nat → Nat → ℝ) (hk : 0 < k) (hn : 0 < n) : ∃ h mlp x y, Training h mlp x y 3 k [(n, .relu), (n, .identity)] a b θ :=
  ⟨_, _, _, _, training_exists 3 k _ a b θ (by omega) hk (by simpa using hn)⟩

/-- C91, test: a network that ends with `relu` and gets only negative values there. -/
example : ∀ i < 2, ∀ j < 1, affine (lastWidth 1 []) (netValue 1 (layerFns (fun q _ => if q = 1 then -1 else 0) 0 []) fun _ _ => 5)
    (fun i j => (fun q (_ : Nat) => if q = 1 then (-1 : ℝ) else 0) 0 (i * 1 + j)) ((fun q (_ : Nat) => if q = 1 then (-1 : ℝ) else 0) 1) i j < 0 := by
  intro i _ j _
  simp [affine_sum]

end RL
