import Verif.Lemmas.Balance
import Verif.Props.Units

/-!
# What feeds a unit and what reads it (C89)

A unit with `relu` (or without activation) computes `f (s * z) = s * f z` for `s > 0`. So what feeds it can be made larger if what reads it is
made smaller, and gradient descent keeps the difference of the squares of the two up to the square of the step.
-/

namespace RL

open Spec

/-- C89, full statement: a training step changes what feeds a unit without `tanh` and what reads it by the same amount, in the sense that the
products of the parameters and their changes are the same. It is false: see `C89_false`. -/
def C89_statement : Prop :=
  ∀ (h : Heap ℝ) (mlp : Mlp ℝ) (x y m k n n' : Nat) (f f' : Act) (pre post : List (Nat × Act)) (a b θ : Nat → Nat → ℝ) (lr : ℝ) (j : Nat),
    f ≠ .tanh → Training h mlp x y m k (pre ++ (n, f) :: (n', f') :: post) a b θ → j < n →
    ∃ h' mlp' θ', trainStep mlp h x y lr = .ok (h', mlp') ∧ NetIs h' mlp' k (pre ++ (n, f) :: (n', f') :: post) θ' ∧
      inDot (lastWidth k pre) (2 * pre.length) n j θ (θ' - θ) = outDot (2 * pre.length) n' j θ (θ' - θ)

theorem balance_step {n n' j : Nat} {f f' : Act} {pre post : List (Nat × Act)} (hf : f ≠ .tanh) (hj : j < n) {m k : Nat} (a b θ : Nat → Nat → ℝ) (lr : ℝ)
    (hS : SmallNet m k (pre ++ (n, f) :: (n', f') :: post)) :
    inDot (lastWidth k pre) (2 * pre.length) n j θ (shuffledDescend lr m k (pre ++ (n, f) :: (n', f') :: post) a b θ - θ) =
      outDot (2 * pre.length) n' j θ (shuffledDescend lr m k (pre ++ (n, f) :: (n', f') :: post) a b θ - θ) := by
  have h := lossDiff_unitDir (f' := f') (n' := n') (pre := pre) (post := post) hf hj m k a b θ
  have hd : ∀ q c, (shuffledDescend lr m k (pre ++ (n, f) :: (n', f') :: post) a b θ - θ) q c =
      -lr * lossDiff m k (pre ++ (n, f) :: (n', f') :: post) a b θ (unit q c) := by
    intro q c
    simp only [Pi.sub_apply, shuffledDescend, lossTangent_small hS]
    change θ q c - lr * lossDiff m k _ a b θ (unit q c) - θ q c = _
    ring
  simp only [inDot, outDot, hd, mul_left_comm _ (-lr), ← Finset.mul_sum, ← mul_add]
  rw [h]

/-- C89 for networks whose matrices have at most 32 elements. Missing: larger ones; for these it is false. -/
theorem C89_partial (h : Heap ℝ) (mlp : Mlp ℝ) (x y m k n n' : Nat) (f f' : Act) (pre post : List (Nat × Act)) (a b θ : Nat → Nat → ℝ) (lr : ℝ) (j : Nat)
    (hf : f ≠ .tanh) (ht : Training h mlp x y m k (pre ++ (n, f) :: (n', f') :: post) a b θ) (hj : j < n)
    (hS : SmallNet m k (pre ++ (n, f) :: (n', f') :: post)) :
    ∃ h' mlp' θ', trainStep mlp h x y lr = .ok (h', mlp') ∧ NetIs h' mlp' k (pre ++ (n, f) :: (n', f') :: post) θ' ∧
      inDot (lastWidth k pre) (2 * pre.length) n j θ (θ' - θ) = outDot (2 * pre.length) n' j θ (θ' - θ) := by
  obtain ⟨h', mlp', e, t⟩ := C50_step_actual h mlp x y m k _ a b θ lr ht
  exact ⟨h', mlp', _, e, t.net, balance_step hf hj a b θ lr hS⟩

theorem balance_change {k q n n' j : Nat} {θ θ' : Nat → Nat → ℝ} (h : inDot k q n j θ (θ' - θ) = outDot q n' j θ (θ' - θ)) :
    balance k q n n' j θ' = balance k q n n' j θ + balance k q n n' j (θ' - θ) := by
  have hi : inDot k q n j θ' θ' = inDot k q n j θ θ + inDot k q n j (θ' - θ) (θ' - θ) + 2 * inDot k q n j θ (θ' - θ) := by
    simp only [inDot, mul_add, Finset.mul_sum, Pi.sub_apply]
    have : ∑ r ∈ Finset.range k, θ' q (r * n + j) * θ' q (r * n + j) = ∑ r ∈ Finset.range k, θ q (r * n + j) * θ q (r * n + j) +
        ∑ r ∈ Finset.range k, (θ' q (r * n + j) - θ q (r * n + j)) * (θ' q (r * n + j) - θ q (r * n + j)) +
        ∑ r ∈ Finset.range k, 2 * (θ q (r * n + j) * (θ' q (r * n + j) - θ q (r * n + j))) := by
      rw [← Finset.sum_add_distrib, ← Finset.sum_add_distrib]
      exact Finset.sum_congr rfl fun r _ => by ring
    rw [this]
    ring
  have ho : outDot q n' j θ' θ' = outDot q n' j θ θ + outDot q n' j (θ' - θ) (θ' - θ) + 2 * outDot q n' j θ (θ' - θ) := by
    simp only [outDot, Finset.mul_sum, Pi.sub_apply]
    rw [← Finset.sum_add_distrib, ← Finset.sum_add_distrib]
    exact Finset.sum_congr rfl fun r _ => by ring
  rw [balance, balance, balance, hi, ho, h]
  ring

/-- C89 for any number of steps (matrices of at most 32 elements): if `Θ i` are the parameters after `i` steps, then the balance of a unit
changes only by the balances of the steps, which are of second order in the learning rate. -/
theorem C89_train_partial (h : Heap ℝ) (mlp : Mlp ℝ) (x y m k n n' : Nat) (f f' : Act) (pre post : List (Nat × Act)) (a b θ : Nat → Nat → ℝ) (lr : ℝ) (j N : Nat)
    (hf : f ≠ .tanh) (ht : Training h mlp x y m k (pre ++ (n, f) :: (n', f') :: post) a b θ) (hj : j < n)
    (hS : SmallNet m k (pre ++ (n, f) :: (n', f') :: post)) :
    ∃ Θ : Nat → Nat → Nat → ℝ, Θ 0 = θ ∧
      (∀ i, ∃ h' mlp', train mlp h x y lr i = .ok (h', mlp') ∧ NetIs h' mlp' k (pre ++ (n, f) :: (n', f') :: post) (Θ i)) ∧
      balance (lastWidth k pre) (2 * pre.length) n n' j (Θ N) = balance (lastWidth k pre) (2 * pre.length) n n' j θ +
        ∑ i ∈ Finset.range N, balance (lastWidth k pre) (2 * pre.length) n n' j (Θ (i + 1) - Θ i) := by
  refine ⟨fun i => (shuffledDescend lr m k (pre ++ (n, f) :: (n', f') :: post) a b)^[i] θ, rfl, fun i => ?_, ?_⟩
  · obtain ⟨h', mlp', e, t⟩ := C50_actual i h mlp x y m k _ a b θ lr ht
    exact ⟨h', mlp', e, t.net⟩
  · clear ht
    induction N with
    | zero => simp
    | succ N ih =>
      rw [Finset.sum_range_succ, ← add_assoc, ← ih, ← balance_change]
      simp only [Function.iterate_succ_apply']
      exact balance_step hf hj a b _ lr hS

/-- C89, for all sizes: the loss stays the same if what feeds a unit without `tanh` is multiplied by `s > 0` and what reads it is divided
by `s`. -/
theorem C89_loss (h₁ h₂ : Heap ℝ) (mlp₁ mlp₂ : Mlp ℝ) (x₁ y₁ x₂ y₂ m k n n' : Nat) (f f' : Act) (pre post : List (Nat × Act))
    (a b θ : Nat → Nat → ℝ) (j : Nat) (s : ℝ) (hs : 0 < s) (hf : f ≠ .tanh)
    (ht₁ : Training h₁ mlp₁ x₁ y₁ m k (pre ++ (n, f) :: (n', f') :: post) a b θ)
    (ht₂ : Training h₂ mlp₂ x₂ y₂ m k (pre ++ (n, f) :: (n', f') :: post) a b (scaleUnit (2 * pre.length) n n' j s s⁻¹ θ)) :
    ∃ h₁' l₁ h₂' l₂ L, trainLoss mlp₁ h₁ x₁ y₁ = .ok (h₁', l₁) ∧ trainLoss mlp₂ h₂ x₂ y₂ = .ok (h₂', l₂) ∧
      dataOf h₁' l₁ = some ⟨[L], []⟩ ∧ dataOf h₂' l₂ = some ⟨[L], []⟩ := by
  obtain ⟨h₁', l₁, e₁, d₁⟩ := C54_loss _ _ _ _ _ _ _ _ _ _ ht₁
  obtain ⟨h₂', l₂, e₂, d₂⟩ := C54_loss _ _ _ _ _ _ _ _ _ _ ht₂
  rw [netLoss_scale hf hs (mul_inv_cancel₀ hs.ne')] at d₂
  exact ⟨h₁', l₁, h₂', l₂, _, e₁, e₂, d₁, d₂⟩

/-- C89: 11 inputs, 3 units with `relu`, one output. Unit 1 reads the first input, the output reads unit 0. -/
def C89_params : Nat → Nat → ℝ := fun q c => if q = 0 ∧ c = 1 ∨ q = 2 ∧ c = 0 then 1 else 0

/-- C89 is false: the output does not read unit 1, but a step changes its weight, by the slope of unit 0. -/
theorem C89_false : ¬ C89_statement := by
  intro H
  have ht := training_exists 1 11 [(3, .relu), (1, .identity)] C82_input (fun _ _ => 5) C89_params (by omega) (by omega) (by simp)
  obtain ⟨h', mlp', θ', e, net, hd⟩ := H _ _ _ _ 1 11 3 1 .relu .identity [] [] C82_input (fun _ _ => 5) C89_params 1 1 (by simp) ht (by omega)
  obtain ⟨_, _, f, t⟩ := C50_step_actual _ _ _ _ _ _ _ _ _ _ 1 ht
  rw [e] at f
  cases f
  have c := net.unique t.net (q := 0) (c := 1) (by decide)
  have h0 : shuffle 33 0 = 1 := by decide
  have h1 : shuffle 33 1 = 2 := by decide
  have h2 : shuffle 33 2 = 3 := by decide
  have h3 : ∀ r < 3, shuffle 3 r = r := by decide
  have hc : θ' 0 1 = 2 := by
    rw [c]
    simp only [List.nil_append, shuffledDescend, lossTangent, lastWidth, layerFns, netValue, netTangent, affine_sum, Act.fn, Act.slope, id,
      Finset.sum_range_succ, Finset.sum_range_zero, C89_params, C82_input, shuffledMat]
    norm_num [h0, h1, h2, h3]
  simp [inDot, outDot, lastWidth, Finset.sum_range_succ, C89_params, hc] at hd
  norm_num at hd

/-- C89, test: the hypotheses of `C89_partial` and `C89_train_partial` for any data and any parameters of a network with two inputs, two units
with `relu` and one output. -/
example (a b θ : Nat → Nat → ℝ) (lr : ℝ) : ∃ h' mlp' θ',
    trainStep ⟨startLayers 2 [(2, .relu), (1, .identity)]⟩ ((startData 3 2 [(2, .relu), (1, .identity)] a b θ).map leafNode) 0 1 lr = .ok (h', mlp') ∧
      NetIs h' mlp' 2 [(2, .relu), (1, .identity)] θ' ∧
      θ 0 1 * (θ' 0 1 - θ 0 1) + θ 0 3 * (θ' 0 3 - θ 0 3) + θ 1 1 * (θ' 1 1 - θ 1 1) = θ 2 1 * (θ' 2 1 - θ 2 1) := by
  obtain ⟨h', mlp', θ', e, net, hd⟩ := C89_partial _ _ 0 1 3 2 2 1 .relu .identity [] [] a b θ lr 1 (by simp)
    (training_exists 3 2 [(2, .relu), (1, .identity)] a b θ (by omega) (by omega) (by simp)) (by omega) (by simp [SmallNet])
  refine ⟨h', mlp', θ', e, net, ?_⟩
  simpa [inDot, outDot, lastWidth, Finset.sum_range_succ] using hd

end RL
