import Verif.Lemmas.Order
import Verif.Lemmas.Constant

/-!
# Lemmas: the unit of the inputs (C123)
-/

namespace RL

open Spec

variable {m k n : Nat} {f : Act} {rest : List (Nat × Act)} {s : ℝ}

/-- the weights of the first layer multiplied by `s` -/
def scaleFirst (s : ℝ) (θ : Nat → Nat → ℝ) : Nat → Nat → ℝ := fun q c => if q = 0 then s * θ 0 c else θ q c

/-- a training step with `rate` times the learning rate for the weights of the first layer -/
noncomputable def descendFirst (rate lr : ℝ) (m k : Nat) (ds : List (Nat × Act)) (a y θ : Nat → Nat → ℝ) : Nat → Nat → ℝ := fun q c =>
  θ q c - (if q = 0 then rate else 1) * lr * lossTangent m k ds a y θ fun q' c' => if q' = q ∧ c' = c then 1 else 0

theorem affine_units (hs : s ≠ 0) (a θ : Nat → Nat → ℝ) (i j : Nat) :
    affine k (fun i r => s * a i r) (fun i j => scaleFirst s⁻¹ θ 0 (i * n + j)) (scaleFirst s⁻¹ θ 1) i j = affine k a (fun i j => θ 0 (i * n + j)) (θ 1) i j := by
  simp only [affine_sum, scaleFirst, if_true, Nat.one_ne_zero, if_false]
  congr 1
  refine Finset.sum_congr rfl fun r _ => ?_
  field_simp

theorem scaleFirst_after (s : ℝ) (θ : Nat → Nat → ℝ) (rest : List (Nat × Act)) (n : Nat) : ∀ p ∈ coords n 2 rest, scaleFirst s θ p.1 p.2 = θ p.1 p.2 := fun p hp => by
  have := coords_ge rest _ _ p hp
  exact if_neg (by omega)

theorem value_units (hs : s ≠ 0) (a θ : Nat → Nat → ℝ) (i : Nat) {j : Nat} (hj : j < lastWidth n rest) :
    netValue k (layerFns (scaleFirst s⁻¹ θ) 0 ((n, f) :: rest)) (fun i r => s * a i r) i j = netValue k (layerFns θ 0 ((n, f) :: rest)) a i j := by
  simp only [layerFns, netValue]
  exact netValue_congr rest n 2 _ _ i (scaleFirst_after _ θ rest n) (fun j _ => congrArg f.fn (affine_units hs a θ i j)) j hj

theorem lossTangent_units (hs : s ≠ 0) (a y θ δ : Nat → Nat → ℝ) :
    lossTangent m k ((n, f) :: rest) (fun i r => s * a i r) y (scaleFirst s⁻¹ θ) δ = lossTangent m k ((n, f) :: rest) a y θ (scaleFirst s δ) := by
  refine Finset.sum_congr rfl fun i hi => Finset.sum_congr rfl fun j hj => ?_
  rw [Finset.mem_range] at hi hj
  rw [value_units (n := n) hs a θ i hj]
  congr 1
  simp only [netTangent]
  refine netTangent_ext rest n 2 _ _ _ _ (scaleFirst_after _ θ rest n) (fun p hp => (scaleFirst_after s δ rest n p hp).symm) (fun i _ j _ => ?_) (fun i _ j _ => ?_) i hi j hj
  · rw [affine_units hs a θ i j]
  · rw [affine_units hs a θ i j]
    congr 1
    have h1 : scaleFirst s δ (0 + 1) j = δ (0 + 1) j := rfl
    rw [h1]
    congr 1
    refine Finset.sum_congr rfl fun r _ => ?_
    simp only [shuffledMat, zero_mul, zero_add, scaleFirst, if_true]
    ring

theorem descend_units (hs : s ≠ 0) (lr : ℝ) (a y θ : Nat → Nat → ℝ) :
    shuffledDescend lr m k ((n, f) :: rest) (fun i r => s * a i r) y (scaleFirst s⁻¹ θ) = scaleFirst s⁻¹ (descendFirst (s ^ 2) lr m k ((n, f) :: rest) a y θ) := by
  funext q c
  rw [shuffledDescend, lossTangent_units hs]
  by_cases hq : q = 0
  · subst hq
    have h1 : scaleFirst s (fun q' c' => if q' = 0 ∧ c' = c then 1 else 0) = fun q' c' => s * if q' = 0 ∧ c' = c then 1 else 0 := by
      funext q' c'
      by_cases h : q' = 0 <;> simp [scaleFirst, h]
    rw [h1, lossTangent_smul]
    simp only [scaleFirst, descendFirst, if_true]
    field_simp
  · have h1 : scaleFirst s (fun q' c' => if q' = q ∧ c' = c then 1 else 0) = fun q' c' => if q' = q ∧ c' = c then 1 else 0 := by
      funext q' c'
      by_cases h : q' = 0
      · subst h
        simp [scaleFirst, Ne.symm hq]
      · simp [scaleFirst, h]
    rw [h1]
    simp only [scaleFirst, descendFirst, hq, if_false, one_mul]

/-- some data and parameters give some weight of the first layer a gradient -/
theorem first_ne (hm : 0 < m) (hk : 0 < k) (hd : ∀ d ∈ (n, f) :: rest, 0 < d.1) : ∃ a y θ : Nat → Nat → ℝ, ∃ c < k * n,
    lossTangent m k ((n, f) :: rest) a y θ (unit 0 c) ≠ 0 := by
  have hn : 0 < n := hd _ List.mem_cons_self
  have hkn : 0 < k * n := Nat.mul_pos hk hn
  obtain ⟨E, hE⟩ : ∃ E : Nat → Nat → ℝ, E = fun i j => (∑ kk ∈ Finset.range k, 1 * shuffledMat k n (fun i j => unit 0 (shuffle (k * n) (0 * n + 0)) 0 (i * n + j)) kk j) +
      unit 0 (shuffle (k * n) (0 * n + 0)) 1 j := ⟨_, rfl⟩
  obtain ⟨θ, h1, h2, i, hi, j, hj, hne⟩ := tangent_ne (m := m) (n := n) rest (fun d h => hd d (List.mem_cons_of_mem _ h)) hn E ⟨0, hm, 0, hn, by
    rw [hE]
    simp only [shuffledMat_unit, one_mul]
    have h3 : (0 : ℝ) ≤ unit 0 (shuffle (k * n) (0 * n + 0)) 1 0 := by simp [unit]
    have h4 : (0 : ℝ) < ∑ kk ∈ Finset.range k, if shuffle (k * n) (kk * n + 0) = shuffle (k * n) (0 * n + 0) then (1 : ℝ) else 0 :=
      Finset.sum_pos' (fun kk _ => by split <;> norm_num) ⟨0, Finset.mem_range.2 hk, by simp⟩
    linarith⟩
  obtain ⟨T, hT⟩ : ∃ T, T = netTangent m θ (fun _ _ => 0) n 2 rest (fun _ _ => 0) E := ⟨_, rfl⟩
  rw [← hT] at hne
  refine ⟨fun _ _ => 1, fun i j => if T i j < 0 then 1 else 0, θ, shuffle (k * n) (0 * n + 0), shuffle_lt (by omega), ?_⟩
  have hδ : ∀ p, 2 ≤ p → ∀ c, unit 0 (shuffle (k * n) (0 * n + 0)) p c = 0 := fun p hp c => if_neg (by omega)
  rw [lossTangent_first h1 h2 _ _ _ hδ, ← hE, ← hT]
  have habs : ∀ i j, (if (0 : ℝ) < (if T i j < 0 then 1 else 0) then (-1 : ℝ) else 1) * T i j = |T i j| := by
    intro i j
    by_cases h : T i j < 0
    · simp [h, abs_of_neg h]
    · simp [h, abs_of_nonneg (not_lt.1 h)]
  simp only [habs]
  refine ne_of_gt (Finset.sum_pos' (fun i _ => Finset.sum_nonneg fun j _ => abs_nonneg _) ⟨i, Finset.mem_range.2 hi, ?_⟩)
  exact Finset.sum_pos' (fun j _ => abs_nonneg _) ⟨j, Finset.mem_range.2 hj, abs_pos.2 hne⟩

end RL
