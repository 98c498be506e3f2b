import Verif.Lemmas.Relation
import Verif.Lemmas.Settle

/-!
# Lemmas: weights move in the span of their inputs (C116)
-/

namespace RL

open Spec

variable {m k n : Nat} {f : Act} {pre post : List (Nat × Act)} {θ : Nat → Nat → ℝ}

theorem netTangent_sum (S : Nat) (u : Nat → ℝ) : ∀ (ds : List (Nat × Act)) (k q : Nat) (a : Nat → Nat → ℝ) (D : Nat → Nat → Nat → ℝ) (i j : Nat),
    netTangent m θ (fun _ _ => 0) k q ds a (fun i j => ∑ s ∈ Finset.range S, u s * D s i j) i j =
      ∑ s ∈ Finset.range S, u s * netTangent m θ (fun _ _ => 0) k q ds a (D s) i j := by
  intro ds
  induction ds with
  | nil => intros; rfl
  | cons d ds ih =>
    obtain ⟨n, f⟩ := d
    intro k q a D i j
    simp only [netTangent]
    rw [← ih]
    congr 1
    funext i j
    simp only [shuffledMat, mul_zero, add_zero]
    rw [Finset.sum_congr rfl fun kk _ => Finset.sum_mul _ _ _, Finset.sum_comm, Finset.mul_sum]
    refine Finset.sum_congr rfl fun s _ => ?_
    rw [mul_left_comm, Finset.mul_sum (a := u s)]
    congr 1
    exact Finset.sum_congr rfl fun kk _ => by ring

/-- what goes into the activation of a layer -/
noncomputable def layerIn (k n : Nat) (pre : List (Nat × Act)) (θ a : Nat → Nat → ℝ) : Nat → Nat → ℝ :=
  affine (lastWidth k pre) (netValue k (layerFns θ 0 pre) a) (fun i j => θ (2 * pre.length) (i * n + j)) (θ (2 * pre.length + 1))

/-- how the loss changes, as the program computes it, if what goes into the activation of a layer changes by `D` -/
noncomputable def behind (m k n : Nat) (f : Act) (pre post : List (Nat × Act)) (a y θ D : Nat → Nat → ℝ) : ℝ :=
  ∑ i ∈ Finset.range m, ∑ j ∈ Finset.range (lastWidth n post),
    (if netValue k (layerFns θ 0 (pre ++ (n, f) :: post)) a i j < y i j then -1 else 1) *
      netTangent m θ (fun _ _ => 0) n (2 * pre.length + 2) post (fun i j => f.fn (layerIn k n pre θ a i j)) (fun i j => f.slope (layerIn k n pre θ a i j) * D i j) i j

theorem behind_congr {a y D D' : Nat → Nat → ℝ} (h : ∀ i < m, ∀ j < n, D i j = D' i j) : behind m k n f pre post a y θ D = behind m k n f pre post a y θ D' := by
  refine Finset.sum_congr rfl fun i hi => Finset.sum_congr rfl fun j hj => ?_
  congr 1
  exact netTangent_congr m θ _ _ post n _ _ _ _ (fun _ _ => rfl) (fun i hi j hj => by rw [h i hi j hj]) i (Finset.mem_range.1 hi) j (Finset.mem_range.1 hj)

theorem behind_sum (a y : Nat → Nat → ℝ) (S : Nat) (u : Nat → ℝ) (D : Nat → Nat → Nat → ℝ) :
    behind m k n f pre post a y θ (fun i j => ∑ s ∈ Finset.range S, u s * D s i j) = ∑ s ∈ Finset.range S, u s * behind m k n f pre post a y θ (D s) := by
  simp only [behind]
  have h : (fun i j => f.slope (layerIn k n pre θ a i j) * ∑ s ∈ Finset.range S, u s * D s i j) =
      fun i j => ∑ s ∈ Finset.range S, u s * (f.slope (layerIn k n pre θ a i j) * D s i j) := by
    funext i j
    rw [Finset.mul_sum]
    exact Finset.sum_congr rfl fun s _ => by ring
  rw [h]
  simp only [netTangent_sum, Finset.mul_sum]
  rw [Finset.sum_congr rfl fun i _ => Finset.sum_comm, Finset.sum_comm]
  exact Finset.sum_congr rfl fun s _ => Finset.sum_congr rfl fun i _ => Finset.sum_congr rfl fun j _ => by ring

/-- the derivative for a direction that changes only the parameters of one layer -/
theorem lossTangent_layer (a y δ : Nat → Nat → ℝ) (hδ : ∀ p, p ≠ 2 * pre.length → p ≠ 2 * pre.length + 1 → ∀ c, δ p c = 0) :
    lossTangent m k (pre ++ (n, f) :: post) a y θ δ = behind m k n f pre post a y θ fun i j =>
      (∑ r ∈ Finset.range (lastWidth k pre), netValue k (layerFns θ 0 pre) a i r * shuffledMat (lastWidth k pre) n (fun i j => δ (2 * pre.length) (i * n + j)) r j) +
        δ (2 * pre.length + 1) j := by
  rw [lossTangent, lastWidth_append]
  refine Finset.sum_congr rfl fun i hi => Finset.sum_congr rfl fun j hj => ?_
  congr 1
  rw [tangent_before ((n, f) :: post) pre k 0 a fun p hp c => hδ p (by omega) (by omega) c]
  simp only [netTangent, Nat.zero_add]
  refine netTangent_congr m θ _ _ post n _ _ _ _ (fun p hp => ?_) (fun i hi j hj => ?_) i (Finset.mem_range.1 hi) j (Finset.mem_range.1 hj)
  · have := coords_ge post _ _ p hp
    exact hδ _ (by omega) (by omega) _
  · simp [layerIn, shuffledMat]

/-- the derivatives for the weights and the biases of a layer are made of the same numbers, one for each row and unit -/
theorem lossTangent_span (a y θ : Nat → Nat → ℝ) : ∃ g : Nat → Nat → ℝ,
    (∀ r < lastWidth k pre, ∀ j < n, lossTangent m k (pre ++ (n, f) :: post) a y θ (unit (2 * pre.length) (shuffle (lastWidth k pre * n) (r * n + j))) =
      ∑ i ∈ Finset.range m, netValue k (layerFns θ 0 pre) a i r * g i j) ∧
    ∀ j < n, lossTangent m k (pre ++ (n, f) :: post) a y θ (unit (2 * pre.length + 1) j) = ∑ i ∈ Finset.range m, g i j := by
  refine ⟨fun i j => behind m k n f pre post a y θ fun i' j' => if i' = i ∧ j' = j then 1 else 0, fun r hr j hj => ?_, fun j hj => ?_⟩
  · rw [← behind_sum, lossTangent_layer _ _ _ (fun p h1 _ c => by simp [unit, h1])]
    refine behind_congr fun i hi j' hj' => ?_
    rw [Finset.sum_eq_single r, Finset.sum_eq_single i]
    · simp only [shuffledMat, unit, Nat.div_add_mod', true_and]
      rw [if_neg (show ¬ (2 * pre.length + 1 = 2 * pre.length ∧ j' = shuffle (lastWidth k pre * n) (r * n + j)) by omega), add_zero]
      congr 1
      refine if_congr ⟨fun h => ?_, fun h => by rw [h]⟩ rfl rfl
      have := segPos_inj (mul_add_lt hr hj') (mul_add_lt hr hj) h
      omega
    · intro i' _ h
      rw [if_neg (show ¬ (i = i' ∧ j' = j) by tauto), mul_zero]
    · simp [hi]
    · intro r' hr' hne
      simp only [shuffledMat, unit, Nat.div_add_mod', true_and]
      rw [if_neg, mul_zero]
      intro h
      have h2 := segPos_inj (mul_add_lt (Finset.mem_range.1 hr') hj') (mul_add_lt hr hj) h
      have h3 := congrArg (· / n) h2
      simp only [Nat.mul_comm _ n, Nat.mul_add_div (show 0 < n by omega), Nat.div_eq_of_lt hj, Nat.div_eq_of_lt hj', Nat.add_zero] at h3
      exact hne h3
    · simp [hr]
  · have h := behind_sum (m := m) (k := k) (n := n) (f := f) (pre := pre) (post := post) (θ := θ) a y m (fun _ => 1)
      fun i i' j' => if i' = i ∧ j' = j then 1 else 0
    simp only [one_mul] at h
    rw [← h, lossTangent_layer _ _ _ (fun p _ h1 c => by simp [unit, h1])]
    refine behind_congr fun i hi j' hj' => ?_
    rw [Finset.sum_eq_zero, zero_add, Finset.sum_eq_single i]
    · simp [unit]
    · intro i' _ h
      rw [if_neg (show ¬ (i = i' ∧ j' = j) by tauto)]
    · simp [hi]
    · intro r _
      simp [shuffledMat, unit]

end RL
