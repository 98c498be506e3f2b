import Verif.Lemmas.Constant
import Verif.Lemmas.BalanceWide

/-!
# Lemmas: linear relations between features (C114)
-/

namespace RL

open Spec

variable {m k n : Nat} {f : Act} {rest : List (Nat × Act)} {θ : Nat → Nat → ℝ}

theorem lossTangent_add (k : Nat) (ds : List (Nat × Act)) (a y θ δ δ' : Nat → Nat → ℝ) :
    lossTangent m k ds a y θ (fun q p => δ q p + δ' q p) = lossTangent m k ds a y θ δ + lossTangent m k ds a y θ δ' := by
  simp only [lossTangent]
  rw [← Finset.sum_add_distrib]
  refine Finset.sum_congr rfl fun i _ => ?_
  rw [← Finset.sum_add_distrib]
  refine Finset.sum_congr rfl fun j _ => ?_
  rw [← mul_add, ← netTangent_add]
  congr 2
  funext i j
  simp

/-- the tangent of a sum of directions -/
theorem lossTangent_sum (k : Nat) (ds : List (Nat × Act)) (a y θ : Nat → Nat → ℝ) (u : Nat → ℝ) (δ : Nat → Nat → Nat → ℝ) : ∀ s : Nat,
    lossTangent m k ds a y θ (fun q p => ∑ r ∈ Finset.range s, u r * δ r q p) = ∑ r ∈ Finset.range s, u r * lossTangent m k ds a y θ (δ r)
  | 0 => by
    have := lossTangent_smul (m := m) (θ := θ) (δ := fun _ _ => 0) k ds a y 0
    simpa using this
  | s + 1 => by
    simp only [Finset.sum_range_succ]
    rw [lossTangent_add, lossTangent_sum k ds a y θ u δ s, lossTangent_smul]

/-- what a step takes for the weights at the shuffled positions, if the features of each row satisfy a linear relation -/
theorem lossTangent_relation {j : Nat} (hj : j < n) {c : ℝ} {u : Nat → ℝ} {a : Nat → Nat → ℝ} (ha : ∀ i < m, ∑ r ∈ Finset.range k, u r * a i r = c)
    (y θ : Nat → Nat → ℝ) : ∑ r ∈ Finset.range k, u r * lossTangent m k ((n, f) :: rest) a y θ (unit 0 (shuffle (k * n) (r * n + j))) =
      c * lossTangent m k ((n, f) :: rest) a y θ (unit 1 j) := by
  rw [← lossTangent_smul, ← lossTangent_sum]
  refine Finset.sum_congr rfl fun i hi => Finset.sum_congr rfl fun j' hj' => ?_
  congr 1
  rw [Finset.mem_range] at hi hj'
  simp only [netTangent]
  refine netTangent_congr m θ _ _ rest n 2 _ _ _ (fun p hp => ?_) (fun i hi j' hj' => ?_) i hi j' hj'
  · have := coords_ge rest _ _ p hp
    simp only [unit]
    rw [if_neg (show ¬ (p.1 = 1 ∧ p.2 = j) by omega), mul_zero]
    exact Finset.sum_eq_zero fun r _ => by rw [if_neg (by omega), mul_zero]
  · congr 1
    have h1 : unit 1 j (0 + 1) j' = if j' = j then 1 else 0 := by simp [unit]
    have h0 : ∑ r ∈ Finset.range k, u r * unit 0 (shuffle (k * n) (r * n + j)) (0 + 1) j' = 0 := Finset.sum_eq_zero fun r _ => by simp [unit]
    have h2 : ∀ kk < k, shuffledMat k n (fun i j_1 => ∑ r ∈ Finset.range k, u r * unit 0 (shuffle (k * n) (r * n + j)) 0 (i * n + j_1)) kk j' =
        if j' = j then u kk else 0 := by
      intro kk hkk
      simp only [shuffledMat, unit, true_and, Nat.div_add_mod']
      rw [Finset.sum_eq_single kk]
      · have h3 : (shuffle (k * n) (kk * n + j') = shuffle (k * n) (kk * n + j)) ↔ j' = j :=
          ⟨fun h => by have := segPos_inj (mul_add_lt hkk hj') (mul_add_lt hkk hj) h; omega, fun h => by rw [h]⟩
        simp [h3]
      · intro r hr hne
        rw [if_neg, mul_zero]
        intro h
        have h2 := segPos_inj (mul_add_lt hkk hj') (mul_add_lt (Finset.mem_range.1 hr) hj) h
        have h3 := congrArg (· / n) h2
        simp only [Nat.mul_comm _ n, Nat.mul_add_div (show 0 < n by omega), Nat.div_eq_of_lt hj, Nat.div_eq_of_lt hj', Nat.add_zero] at h3
        exact hne h3.symm
      · simp [hkk]
    rw [h0, h1, add_zero, Finset.sum_eq_zero (s := Finset.range k) (f := fun kk => shuffledMat m k (fun _ _ => (0 : ℝ)) i kk * θ 0 (kk * n + j') +
      a i kk * shuffledMat k n (fun i j_1 => c * unit 1 j 0 (i * n + j_1)) kk j'), zero_add, ← ha i hi]
    · rw [Finset.sum_congr rfl fun kk hkk => by rw [h2 kk (Finset.mem_range.1 hkk)]]
      by_cases h : j' = j
      · simp only [h, if_true, mul_one]
        exact Finset.sum_congr rfl fun kk _ => by simp [shuffledMat, mul_comm]
      · simp [h, shuffledMat]
    · intro kk _
      simp [shuffledMat, unit]

end RL
