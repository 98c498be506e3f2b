import Verif.Lemmas.Batch
import Verif.Props.Descent

/-!
# Training on a batch (C80, C81)
-/

namespace RL

open Spec

/-! ## the order of the rows (C80) -/

/-- C80, full statement: the order of the rows of a batch does not matter for training. If two runs start with the same parameters, and the
rows of the input and of the expected output of the second are those of the first in another order, then both have the same parameters
after any number of steps. It is false: see `C80_false`. -/
def C80_statement : Prop :=
  ∀ (h₁ h₂ : Heap ℝ) (mlp₁ mlp₂ : Mlp ℝ) (x₁ y₁ x₂ y₂ m k : Nat) (ds : List (Nat × Act)) (a b θ : Nat → Nat → ℝ) (lr : ℝ) (N : Nat)
    (σ : Equiv.Perm Nat), (∀ i < m, σ i < m) → Training h₁ mlp₁ x₁ y₁ m k ds a b θ →
    Training h₂ mlp₂ x₂ y₂ m k ds (fun i => a (σ i)) (fun i => b (σ i)) θ →
    ∃ h₁' mlp₁' h₂' mlp₂' θ', train mlp₁ h₁ x₁ y₁ lr N = .ok (h₁', mlp₁') ∧ train mlp₂ h₂ x₂ y₂ lr N = .ok (h₂', mlp₂') ∧
      NetIs h₁' mlp₁' k ds θ' ∧ NetIs h₂' mlp₂' k ds θ'

/-- C80 if the outputs of all layers but the last have at most 32 elements; the weights may have any size, and for one layer there is no
condition. Missing: larger ones; for these it is false. -/
theorem C80_partial (h₁ h₂ : Heap ℝ) (mlp₁ mlp₂ : Mlp ℝ) (x₁ y₁ x₂ y₂ m k : Nat) (ds : List (Nat × Act)) (a b θ : Nat → Nat → ℝ) (lr : ℝ) (N : Nat)
    (σ : Equiv.Perm Nat) (hσ : ∀ i < m, σ i < m) (ht₁ : Training h₁ mlp₁ x₁ y₁ m k ds a b θ)
    (ht₂ : Training h₂ mlp₂ x₂ y₂ m k ds (fun i => a (σ i)) (fun i => b (σ i)) θ) (hS : ∀ d ∈ ds.dropLast, m * d.1 ≤ 32) :
    ∃ h₁' mlp₁' h₂' mlp₂' θ', train mlp₁ h₁ x₁ y₁ lr N = .ok (h₁', mlp₁') ∧ train mlp₂ h₂ x₂ y₂ lr N = .ok (h₂', mlp₂') ∧
      NetIs h₁' mlp₁' k ds θ' ∧ NetIs h₂' mlp₂' k ds θ' := by
  obtain ⟨h₁', mlp₁', e₁, t₁⟩ := C50_actual N h₁ mlp₁ x₁ y₁ m k ds a b θ lr ht₁
  obtain ⟨h₂', mlp₂', e₂, t₂⟩ := C50_actual N h₂ mlp₂ x₂ y₂ m k ds _ _ θ lr ht₂
  refine ⟨h₁', mlp₁', h₂', mlp₂', _, e₁, e₂, t₁.net, ?_⟩
  have := t₂.net
  rwa [show shuffledDescend lr m k ds (fun i => a (σ i)) (fun i => b (σ i)) = shuffledDescend lr m k ds a b from
    funext fun θ => shuffledDescend_perm hS hσ lr a b θ] at this

/-- C80, for all sizes: the order of the rows does not matter for the loss. -/
theorem C80_loss (h₁ h₂ : Heap ℝ) (mlp₁ mlp₂ : Mlp ℝ) (x₁ y₁ x₂ y₂ m k : Nat) (ds : List (Nat × Act)) (a b θ : Nat → Nat → ℝ)
    (σ : Equiv.Perm Nat) (hσ : ∀ i < m, σ i < m) (ht₁ : Training h₁ mlp₁ x₁ y₁ m k ds a b θ)
    (ht₂ : Training h₂ mlp₂ x₂ y₂ m k ds (fun i => a (σ i)) (fun i => b (σ i)) θ) :
    ∃ h₁' l₁ h₂' l₂ L, trainLoss mlp₁ h₁ x₁ y₁ = .ok (h₁', l₁) ∧ trainLoss mlp₂ h₂ x₂ y₂ = .ok (h₂', l₂) ∧
      dataOf h₁' l₁ = some ⟨[L], []⟩ ∧ dataOf h₂' l₂ = some ⟨[L], []⟩ := by
  obtain ⟨h₁', l₁, e₁, d₁⟩ := C54_loss _ _ _ _ _ _ _ _ _ _ ht₁
  obtain ⟨h₂', l₂, e₂, d₂⟩ := C54_loss _ _ _ _ _ _ _ _ _ _ ht₂
  rw [netLoss_perm m k ds hσ] at d₂
  exact ⟨h₁', l₁, h₂', l₂, _, e₁, e₂, d₁, d₂⟩

/-- C80, C81: two layers of width 1 without activation. -/
def C80_net : List (Nat × Act) := [(1, .identity), (1, .identity)]

/-- C80, C81: the first weight is 0, the second is 1, there is no bias. -/
def C80_params : Nat → Nat → ℝ := fun q _ => if q = 2 then 1 else 0

/-- C80, C81: the expected output is 1 for the first row and -1 for the other 32. -/
def C80_expected : Nat → Nat → ℝ := fun i _ => if i = 0 then 1 else -1

/-- C80, C81: what a step subtracts from the first weight, for 33 rows: the sum of the signs of the rows times the inputs of the next rows. -/
theorem C80_slope (a : Nat → Nat → ℝ) : lossTangent 33 1 C80_net a C80_expected C80_params (fun q' c' => if q' = 0 ∧ c' = 0 then 1 else 0) =
    ∑ i ∈ Finset.range 33, (if i = 0 then -1 else 1) * a (shuffle 33 i) 0 := by
  have h0 : shuffle 1 0 = 0 := by decide
  simp only [lossTangent, C80_net, lastWidth, layerFns, netValue, netTangent, affine_sum, Act.fn, Act.slope, Finset.range_one, Finset.sum_singleton, id,
    C80_params, C80_expected, shuffledMat, Nat.mul_one, Nat.add_zero, Nat.div_one, Nat.mod_one, h0]
  refine Finset.sum_congr rfl fun i _ => ?_
  by_cases hi : i = 0 <;> simp [hi] <;> norm_num

theorem C80_slope_at (r : Nat) (hr : r < 32) : lossTangent 33 1 C80_net (fun i _ => if i = r + 1 then 1 else 0) C80_expected C80_params
    (fun q' c' => if q' = 0 ∧ c' = 0 then 1 else 0) = if r = 0 then -1 else 1 := by
  rw [C80_slope, Finset.sum_eq_single r]
  · have : shuffle 33 r = r + 1 := by unfold shuffle; omega
    rw [this, if_pos rfl, mul_one]
  · intro i hi hne
    rw [Finset.mem_range] at hi
    have : shuffle 33 i ≠ r + 1 := by unfold shuffle; omega
    rw [if_neg this, mul_zero]
  · intro h
    exact absurd (Finset.mem_range.2 (by omega)) h

theorem C80_training (a b : Nat → Nat → ℝ) (m : Nat) (hm : 0 < m) : Training ((startData m 1 C80_net a b C80_params).map leafNode)
    ⟨startLayers 2 C80_net⟩ 0 1 m 1 C80_net a b C80_params :=
  training_exists m 1 C80_net a b C80_params hm (by omega) (by simp [C80_net])

/-- C80 is false: 33 rows, of which only one has an input other than 0, through two layers of width 1. If this is the second row, the first
step increases the first weight; if it is the third one, it decreases it. -/
theorem C80_false : ¬ C80_statement := by
  intro H
  have hσ : ∀ i < 33, Equiv.swap 1 2 i < 33 := by decide
  have hb : (fun i => C80_expected (Equiv.swap 1 2 i)) = C80_expected := by
    funext i j
    by_cases h1 : i = 1
    · simp [C80_expected, h1]
    by_cases h2 : i = 2
    · simp [C80_expected, h2]
    rw [Equiv.swap_apply_of_ne_of_ne h1 h2]
  have ha : (fun i => (fun i _ => if i = 0 + 1 then (1 : ℝ) else 0 : Nat → Nat → ℝ) (Equiv.swap 1 2 i)) = fun i _ => if i = 1 + 1 then 1 else 0 := by
    funext i _
    by_cases h1 : i = 1
    · simp [h1]
    by_cases h2 : i = 2
    · simp [h2]
    rw [Equiv.swap_apply_of_ne_of_ne h1 h2]
    simp [h1, h2]
  obtain ⟨h₁, mlp₁, h₂, mlp₂, θ, e₁, e₂, n₁, n₂⟩ := H _ _ _ _ _ _ _ _ 33 1 C80_net (fun i _ => if i = 0 + 1 then 1 else 0) C80_expected C80_params 1 1
    (Equiv.swap 1 2) hσ (C80_training _ _ 33 (by omega)) (C80_training _ _ 33 (by omega))
  obtain ⟨_, _, f₁, t₁⟩ := C50_actual 1 _ _ _ _ _ _ _ _ _ _ 1 (C80_training (fun i _ => if i = 0 + 1 then 1 else 0) C80_expected 33 (by omega))
  obtain ⟨_, _, f₂, t₂⟩ := C50_actual 1 _ _ _ _ _ _ _ _ _ _ 1 (C80_training (fun i => (fun i _ => if i = 0 + 1 then (1 : ℝ) else 0 : Nat → Nat → ℝ) (Equiv.swap 1 2 i))
    (fun i => C80_expected (Equiv.swap 1 2 i)) 33 (by omega))
  rw [e₁] at f₁
  rw [e₂] at f₂
  cases f₁
  cases f₂
  have c₁ := n₁.unique t₁.net (q := 0) (c := 0) (by decide)
  have c₂ := n₂.unique t₂.net (q := 0) (c := 0) (by decide)
  rw [c₁] at c₂
  simp only [Function.iterate_one, shuffledDescend] at c₂
  rw [hb, ha, C80_slope_at 0 (by omega), C80_slope_at 1 (by omega)] at c₂
  norm_num [C80_params] at c₂

/-- C80, test: the hypotheses of `C80_partial` for two rows through these layers, exchanged. -/
example (a b : Nat → Nat → ℝ) (lr : ℝ) (N : Nat) : ∃ h₁' mlp₁' h₂' mlp₂' θ',
    train ⟨startLayers 2 C80_net⟩ ((startData 2 1 C80_net a b C80_params).map leafNode) 0 1 lr N = .ok (h₁', mlp₁') ∧
    train ⟨startLayers 2 C80_net⟩ ((startData 2 1 C80_net (fun i => a (Equiv.swap 0 1 i)) (fun i => b (Equiv.swap 0 1 i)) C80_params).map leafNode) 0 1 lr N =
      .ok (h₂', mlp₂') ∧ NetIs h₁' mlp₁' 1 C80_net θ' ∧ NetIs h₂' mlp₂' 1 C80_net θ' :=
  C80_partial _ _ _ _ _ _ _ _ _ _ _ a b _ lr N (Equiv.swap 0 1) (by decide) (C80_training a b 2 (by omega)) (C80_training _ _ 2 (by omega))
    (by simp [C80_net])

/-! ## the rows one by one (C81) -/

/-- C81, full statement: what a step on a batch adds to the parameters is the sum of what steps on its rows alone add to them. It is false:
see `C81_false`. -/
def C81_statement : Prop :=
  ∀ (h : Heap ℝ) (mlp : Mlp ℝ) (x y m k : Nat) (ds : List (Nat × Act)) (a b θ : Nat → Nat → ℝ) (lr : ℝ) (H : Nat → Heap ℝ) (M : Nat → Mlp ℝ)
    (X Y : Nat → Nat), Training h mlp x y m k ds a b θ →
    (∀ i < m, Training (H i) (M i) (X i) (Y i) 1 k ds (fun _ => a i) (fun _ => b i) θ) →
    ∃ (h' : Heap ℝ) (mlp' : Mlp ℝ) (θ' : Nat → Nat → ℝ) (H' : Nat → Heap ℝ) (M' : Nat → Mlp ℝ) (Θ : Nat → Nat → Nat → ℝ), trainStep mlp h x y lr = .ok (h', mlp') ∧ NetIs h' mlp' k ds θ' ∧
      (∀ i < m, trainStep (M i) (H i) (X i) (Y i) lr = .ok (H' i, M' i) ∧ NetIs (H' i) (M' i) k ds (Θ i)) ∧
      ∀ p ∈ coords k 0 ds, θ' p.1 p.2 - θ p.1 p.2 = ∑ i ∈ Finset.range m, (Θ i p.1 p.2 - θ p.1 p.2)

/-- C81 if the outputs of all layers but the last have at most 32 elements; the weights may have any size, and for one layer there is no
condition. It also holds at kinks. Missing: larger ones; for these it is false. -/
theorem C81_partial (h : Heap ℝ) (mlp : Mlp ℝ) (x y m k : Nat) (ds : List (Nat × Act)) (a b θ : Nat → Nat → ℝ) (lr : ℝ) (H : Nat → Heap ℝ)
    (M : Nat → Mlp ℝ) (X Y : Nat → Nat) (ht : Training h mlp x y m k ds a b θ)
    (hT : ∀ i < m, Training (H i) (M i) (X i) (Y i) 1 k ds (fun _ => a i) (fun _ => b i) θ) (hS : ∀ d ∈ ds.dropLast, m * d.1 ≤ 32) :
    ∃ (h' : Heap ℝ) (mlp' : Mlp ℝ) (θ' : Nat → Nat → ℝ) (H' : Nat → Heap ℝ) (M' : Nat → Mlp ℝ) (Θ : Nat → Nat → Nat → ℝ), trainStep mlp h x y lr = .ok (h', mlp') ∧ NetIs h' mlp' k ds θ' ∧
      (∀ i < m, trainStep (M i) (H i) (X i) (Y i) lr = .ok (H' i, M' i) ∧ NetIs (H' i) (M' i) k ds (Θ i)) ∧
      ∀ p ∈ coords k 0 ds, θ' p.1 p.2 - θ p.1 p.2 = ∑ i ∈ Finset.range m, (Θ i p.1 p.2 - θ p.1 p.2) := by
  obtain ⟨h', mlp', e, t⟩ := C50_step_actual h mlp x y m k ds a b θ lr ht
  have hrow : ∀ i, ∃ h' mlp', i < m → trainStep (M i) (H i) (X i) (Y i) lr = .ok (h', mlp') ∧
      NetIs h' mlp' k ds (shuffledDescend lr 1 k ds (fun _ => a i) (fun _ => b i) θ) := by
    intro i
    by_cases hi : i < m
    · obtain ⟨h', mlp', e, t⟩ := C50_step_actual _ _ _ _ _ _ _ _ _ _ lr (hT i hi)
      exact ⟨h', mlp', fun _ => ⟨e, t.net⟩⟩
    · exact ⟨h, mlp, fun hi' => absurd hi' hi⟩
  choose H' M' hrow using hrow
  refine ⟨h', mlp', _, H', M', _, e, t.net, hrow, fun p _ => ?_⟩
  simp only [shuffledDescend]
  rw [lossTangent_rows hS (training_pos ht).1, Finset.sum_sub_distrib, Finset.sum_sub_distrib, Finset.mul_sum]
  ring

/-- C81 is false: 33 rows, of which only the second has an input other than 0, through two layers of width 1. The step on the batch
increases the first weight by 1; the step on the second row decreases it by 1, and the steps on the others leave it. -/
theorem C81_false : ¬ C81_statement := by
  intro H
  obtain ⟨h', mlp', θ', H', M', Θ, e, n, hrow, hsum⟩ := H _ _ _ _ 33 1 C80_net (fun i _ => if i = 0 + 1 then 1 else 0) C80_expected C80_params 1 _ _ _ _
    (C80_training _ _ 33 (by omega)) fun i _ => C80_training (fun _ _ => if i = 0 + 1 then 1 else 0) (fun _ => C80_expected i) 1 (by omega)
  obtain ⟨_, _, f, t⟩ := C50_step_actual _ _ _ _ _ _ _ _ _ _ 1 (C80_training (fun i _ => if i = 0 + 1 then 1 else 0) C80_expected 33 (by omega))
  rw [e] at f
  cases f
  have c := n.unique t.net (q := 0) (c := 0) (by decide)
  have hs := hsum (0, 0) (by decide)
  have hΘ : ∀ i < 33, Θ i 0 0 - C80_params 0 0 = if i = 1 then -1 else 0 := by
    intro i hi
    obtain ⟨_, _, f, t⟩ := C50_step_actual _ _ _ _ _ _ _ _ _ _ 1 (C80_training (fun _ _ => if i = 0 + 1 then 1 else 0) (fun _ => C80_expected i) 1 (by omega))
    rw [(hrow i hi).1] at f
    cases f
    have h0 : shuffle 1 0 = 0 := by decide
    rw [(hrow i hi).2.unique t.net (q := 0) (c := 0) (by decide)]
    simp only [shuffledDescend, lossTangent, C80_net, lastWidth, layerFns, netValue, netTangent, affine_sum, Act.fn, Act.slope, Finset.range_one,
      Finset.sum_singleton, id, C80_params, C80_expected, shuffledMat, Nat.mul_one, Nat.add_zero, Nat.div_one, Nat.mod_one, h0]
    by_cases h1 : i = 1
    · simp [h1]
    · simp [h1]
  rw [c, Finset.sum_congr rfl fun i hi => hΘ i (Finset.mem_range.1 hi)] at hs
  simp only [shuffledDescend] at hs
  rw [C80_slope_at 0 (by omega)] at hs
  norm_num [C80_params] at hs

/-- C81, test: the hypotheses of `C81_partial` for two rows through these layers. -/
example (a b : Nat → Nat → ℝ) (lr : ℝ) : ∃ (h' : Heap ℝ) (mlp' : Mlp ℝ) (θ' : Nat → Nat → ℝ) (H' : Nat → Heap ℝ) (M' : Nat → Mlp ℝ) (Θ : Nat → Nat → Nat → ℝ),
    trainStep ⟨startLayers 2 C80_net⟩ ((startData 2 1 C80_net a b C80_params).map leafNode) 0 1 lr = .ok (h', mlp') ∧ NetIs h' mlp' 1 C80_net θ' ∧
      (∀ i < 2, trainStep ⟨startLayers 2 C80_net⟩ ((startData 1 1 C80_net (fun _ => a i) (fun _ => b i) C80_params).map leafNode) 0 1 lr = .ok (H' i, M' i) ∧
        NetIs (H' i) (M' i) 1 C80_net (Θ i)) ∧
      ∀ p ∈ coords 1 0 C80_net, θ' p.1 p.2 - C80_params p.1 p.2 = ∑ i ∈ Finset.range 2, (Θ i p.1 p.2 - C80_params p.1 p.2) :=
  C81_partial _ _ _ _ 2 _ _ a b _ lr (fun i => (startData 1 1 C80_net (fun _ => a i) (fun _ => b i) C80_params).map leafNode) (fun _ => ⟨startLayers 2 C80_net⟩)
    (fun _ => 0) (fun _ => 1) (C80_training a b 2 (by omega)) (fun i _ => C80_training _ _ 1 (by omega)) (by simp [C80_net])

end RL
