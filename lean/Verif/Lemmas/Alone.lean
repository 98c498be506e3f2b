import Verif.Lemmas.Span

/-!
# Lemmas: the units of a single layer (C117)
-/

namespace RL

open Spec

variable {m k n : Nat} {f : Act} {θ : Nat → Nat → ℝ}

/-- what goes into the activation -/
noncomputable def unitIn (k n : Nat) (θ a : Nat → Nat → ℝ) : Nat → Nat → ℝ := affine k a (fun i j => θ 0 (i * n + j)) (θ 1)

theorem single_weight (a y θ : Nat → Nat → ℝ) {r j : Nat} (hr : r < k) (hj : j < n) :
    lossTangent m k [(n, f)] a y θ (unit 0 (shuffle (k * n) (r * n + j))) = ∑ i ∈ Finset.range m,
      (if f.fn (unitIn k n θ a i j) < y i j then -1 else 1) * (f.slope (unitIn k n θ a i j) * a i r) := by
  simp only [lossTangent, lastWidth, layerFns, netValue, netTangent, Nat.zero_add]
  refine Finset.sum_congr rfl fun i _ => ?_
  have h : ∀ j' < n, (∑ kk ∈ Finset.range k, (shuffledMat m k (fun _ _ => (0 : ℝ)) i kk * θ 0 (kk * n + j') +
      a i kk * shuffledMat k n (fun i j' => unit 0 (shuffle (k * n) (r * n + j)) 0 (i * n + j')) kk j')) + unit 0 (shuffle (k * n) (r * n + j)) 1 j' =
      if j' = j then a i r else 0 := by
    intro j' hj'
    rw [show unit 0 (shuffle (k * n) (r * n + j)) 1 j' = 0 by simp [unit], add_zero, Finset.sum_eq_single r]
    · rw [shuffledMat_unit]
      have h2 : (shuffle (k * n) (r * n + j') = shuffle (k * n) (r * n + j)) ↔ j' = j :=
        ⟨fun h => by have := segPos_inj (mul_add_lt hr hj') (mul_add_lt hr hj) h; omega, fun h => by rw [h]⟩
      simp [shuffledMat, h2]
    · intro kk hkk hne
      rw [shuffledMat_unit, if_neg]
      · simp [shuffledMat]
      · intro h
        have h2 := segPos_inj (mul_add_lt (Finset.mem_range.1 hkk) hj') (mul_add_lt hr hj) h
        have h3 := congrArg (· / n) h2
        simp only [Nat.mul_comm _ n, Nat.mul_add_div (show 0 < n by omega), Nat.div_eq_of_lt hj, Nat.div_eq_of_lt hj', Nat.add_zero] at h3
        exact hne h3
    · simp [hr]
  rw [Finset.sum_eq_single_of_mem j (Finset.mem_range.2 hj)]
  · rw [h j hj, if_pos rfl]
    rfl
  · intro j' hj' hne
    rw [h j' (Finset.mem_range.1 hj'), if_neg hne, mul_zero, mul_zero]

theorem single_bias (a y θ : Nat → Nat → ℝ) {j : Nat} (hj : j < n) : lossTangent m k [(n, f)] a y θ (unit 1 j) = ∑ i ∈ Finset.range m,
    (if f.fn (unitIn k n θ a i j) < y i j then -1 else 1) * f.slope (unitIn k n θ a i j) :=
  loss_last_bias (pre := []) a y hj

/-- the parameters of unit `j` as those of a layer with one unit -/
def alone (n j : Nat) (θ : Nat → Nat → ℝ) : Nat → Nat → ℝ := fun q c => if q = 0 then θ 0 (c * n + j) else θ 1 j

theorem unitIn_alone (a : Nat → Nat → ℝ) (i j : Nat) : unitIn k 1 (alone n j θ) a i 0 = unitIn k n θ a i j := by
  simp [unitIn, affine_sum, alone]

/-- the shuffle of the weights of a unit among all is the one of its weights alone only if all fit into one segment or there is only one unit -/
theorem alone_not (hn : 0 < n) (hk : 0 < k) (h : ¬ (k * n ≤ 32 ∨ n = 1)) : shuffle (k * n) 0 = k * n - 32 ∧ k * n - 32 ≠ shuffle k 0 * n := by
  rw [not_or] at h
  obtain ⟨h1, h2⟩ := h
  refine ⟨by unfold shuffle; omega, ?_⟩
  rcases Nat.lt_or_ge 32 k with h3 | h3
  · have e : shuffle k 0 = k - 32 := by unfold shuffle; omega
    rw [e, Nat.sub_mul]
    have : 32 * 2 ≤ 32 * n := Nat.mul_le_mul_left 32 (by omega)
    have : 32 * n ≤ k * n := Nat.mul_le_mul_right n (by omega)
    omega
  · have e : shuffle k 0 = 0 := shuffle_small h3 hk
    rw [e]
    omega

end RL
