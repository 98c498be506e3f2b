import Verif.Lemmas.RepeatExact
import Verif.Lemmas.Mirror

/-!
# Lemmas: a feature that is the same in all rows (C113)
-/

namespace RL

open Spec

variable {m k n : Nat} {f : Act} {rest : List (Nat × Act)} {θ : Nat → Nat → ℝ}

/-- what a step takes for the weight that is read for a feature with the same value in all rows -/
theorem lossTangent_constant {r j : Nat} (hr : r < k) (hj : j < n) {c : ℝ} {a : Nat → Nat → ℝ} (ha : ∀ i < m, a i r = c) (y θ : Nat → Nat → ℝ) :
    lossTangent m k ((n, f) :: rest) a y θ (unit 0 (shuffle (k * n) (r * n + j))) = c * lossTangent m k ((n, f) :: rest) a y θ (unit 1 j) := by
  rw [← lossTangent_smul]
  refine Finset.sum_congr rfl fun i hi => Finset.sum_congr rfl fun j' hj' => ?_
  congr 1
  rw [Finset.mem_range] at hi hj'
  simp only [netTangent]
  refine netTangent_congr m θ _ _ rest n 2 _ _ _ (fun p hp => ?_) (fun i hi j' hj' => ?_) i hi j' hj'
  · have := coords_ge rest _ _ p hp
    simp only [unit]
    rw [if_neg (by omega), if_neg (by omega), mul_zero]
  · congr 1
    have h0 : unit 0 (shuffle (k * n) (r * n + j)) (0 + 1) j' = 0 := by simp [unit]
    have h1 : unit 1 j (0 + 1) j' = if j' = j then 1 else 0 := by simp [unit]
    rw [h0, h1, Finset.sum_eq_single r, shuffledMat_unit, add_zero, Finset.sum_eq_zero, zero_add]
    · have h2 : (shuffle (k * n) (r * n + j') = shuffle (k * n) (r * n + j)) ↔ j' = j :=
        ⟨fun h => by have := segPos_inj (mul_add_lt hr hj') (mul_add_lt hr hj) h; omega, fun h => by rw [h]⟩
      simp [shuffledMat, ha i hi, h2]
    · intro kk _
      simp [shuffledMat, unit]
    · intro kk hkk hne
      rw [shuffledMat_unit, if_neg]
      · simp [shuffledMat]
      · intro h
        have h2 := segPos_inj (mul_add_lt (Finset.mem_range.1 hkk) hj') (mul_add_lt hr hj) h
        have h3 := congrArg (· / n) h2
        simp only [Nat.mul_comm _ n, Nat.mul_add_div (show 0 < n by omega), Nat.div_eq_of_lt hj, Nat.div_eq_of_lt hj', Nat.add_zero] at h3
        exact hne h3
    · simp [hr]

/-- behind a first layer without weights all values are 0 -/
theorem lossTangent_first (hw : ∀ c, θ 0 c = 0) (hb : ∀ p, p % 2 = 1 → ∀ c, θ p c = 0) (a y δ : Nat → Nat → ℝ) (hδ : ∀ p, 2 ≤ p → ∀ c, δ p c = 0) :
    lossTangent m k ((n, f) :: rest) a y θ δ = ∑ i ∈ Finset.range m, ∑ j ∈ Finset.range (lastWidth n rest), (if 0 < y i j then -1 else 1) *
      netTangent m θ (fun _ _ => 0) n 2 rest (fun _ _ => 0)
        (fun i j => (∑ kk ∈ Finset.range k, a i kk * shuffledMat k n (fun i j => δ 0 (i * n + j)) kk j) + δ 1 j) i j := by
  have hz : ∀ i j, affine k a (fun i j => θ 0 (i * n + j)) (θ 1) i j = 0 := by
    intro i j
    rw [affine_sum, hb 1 (by omega), add_zero]
    exact Finset.sum_eq_zero fun kk _ => by rw [hw, mul_zero]
  have hV : ∀ i j, netValue k (layerFns θ 0 ((n, f) :: rest)) a i j = 0 := by
    intro i j
    simp only [layerFns, netValue, Nat.zero_add, hz, f.fn_zero]
    exact netValue_dead rest n _ (by omega) (fun p _ => hb p) i j
  refine Finset.sum_congr rfl fun i hi => Finset.sum_congr rfl fun j hj => ?_
  rw [hV]
  congr 1
  simp only [netTangent, Nat.zero_add, hz, f.fn_zero, f.slope_zero, one_mul]
  refine netTangent_congr m θ _ _ rest n 2 _ _ _ (fun p hp => ?_) (fun i hi j hj => ?_) i (Finset.mem_range.1 hi) j (Finset.mem_range.1 hj)
  · exact hδ _ (coords_ge rest _ _ p hp) _
  · congr 1
    refine Finset.sum_congr rfl fun kk _ => ?_
    rw [hw, mul_zero, zero_add]

/-- for suitable weights a tangent that is not 0 gets through all layers -/
theorem tangent_ne (rest : List (Nat × Act)) (hd : ∀ d ∈ rest, 0 < d.1) (hn : 0 < n) (e : Nat → Nat → ℝ) (he : ∃ i < m, ∃ c < n, e i c ≠ 0) :
    ∃ θ : Nat → Nat → ℝ, (∀ c, θ 0 c = 0) ∧ (∀ p, p % 2 = 1 → ∀ c, θ p c = 0) ∧
      ∃ i < m, ∃ j < lastWidth n rest, netTangent m θ (fun _ _ => 0) n 2 rest (fun _ _ => 0) e i j ≠ 0 := by
  obtain ⟨i, hi, c, hc, hne⟩ := he
  cases rest with
  | nil => exact ⟨fun _ _ => 0, fun _ => rfl, fun _ _ _ => rfl, i, hi, c, hc, hne⟩
  | cons d rest =>
    obtain ⟨n', g⟩ := d
    obtain ⟨p, hp, ep⟩ := shuffle_surj (len := m * n) (c := i * n + c) (mul_add_lt hi hc)
    obtain ⟨θ', h1, h2⟩ := through_ne (m := m) rest n n' 2 (shuffledMat m n e) (by omega) (hd _ List.mem_cons_self) (fun d h => hd d (List.mem_cons_of_mem _ h))
      ⟨p / n, (Nat.div_lt_iff_lt_mul hn).2 hp, p % n, Nat.mod_lt _ hn, by
        rw [shuffledMat, Nat.div_add_mod', ep, Nat.mul_comm i n, Nat.mul_add_div hn, Nat.div_eq_of_lt hc, Nat.add_zero, Nat.mul_add_mod, Nat.mod_eq_of_lt hc]
        exact hne⟩
    obtain ⟨i', hi', j', hj', hX⟩ := h2 (fun _ _ => 0) fun _ _ _ => rfl
    refine ⟨fun p c => if p = 0 then 0 else θ' p c, fun c => if_pos rfl, fun p hp c => ?_, i', hi', j', hj', ?_⟩
    · simp only
      rw [h1 p hp, ite_self]
    · rw [← netTangent_dead (f := g) rest (fun _ _ _ => rfl) (h1 3 (by omega))] at hX
      refine fun h => hX (Eq.trans ?_ h)
      refine netTangent_ext ((n', g) :: rest) n 2 _ _ _ _ (fun p hp => ?_) (fun _ _ => rfl) (fun _ _ _ _ => rfl) (fun _ _ _ _ => rfl) i' hi' j' hj'
      have := coords_ge ((n', g) :: rest) _ _ p hp
      rw [if_neg (by omega)]

/-- if the shuffle moves the weight of a unit, there is a network that does not treat the feature like a bias -/
theorem constant_differs {r j : Nat} (hm : 0 < m) (hd : ∀ d ∈ (n, f) :: rest, 0 < d.1) (hr : r < k) (hj : j < n)
    (hs : shuffle (k * n) (r * n + j) ≠ r * n + j) : ∃ a y θ : Nat → Nat → ℝ, (∀ i, a i r = 1) ∧
      lossTangent m k ((n, f) :: rest) a y θ (unit 0 (r * n + j)) ≠ lossTangent m k ((n, f) :: rest) a y θ (unit 1 j) := by
  have hn : 0 < n := hd _ List.mem_cons_self
  obtain ⟨p, hp, ep⟩ := shuffle_surj (len := k * n) (c := r * n + j) (mul_add_lt hr hj)
  have hpk : p / n < k := (Nat.div_lt_iff_lt_mul hn).2 hp
  obtain ⟨a, ha⟩ : ∃ a : Nat → Nat → ℝ, a = fun _ q => if q = r then 1 else 0 := ⟨_, rfl⟩
  obtain ⟨W, hW⟩ : ∃ W : Nat → Nat → ℝ, W = fun _ q => if p / n = r ∧ q = p % n then 1 else 0 := ⟨_, rfl⟩
  obtain ⟨B, hB⟩ : ∃ B : Nat → Nat → ℝ, B = fun _ q => if q = j then 1 else 0 := ⟨_, rfl⟩
  have he : W 0 j - 1 * B 0 j ≠ 0 := by
    rw [hW, hB]
    simp only
    rw [if_neg]
    · norm_num
    · rintro ⟨h1, h2⟩
      have : p = r * n + j := by rw [← h1, h2, Nat.div_add_mod']
      exact hs (by rw [← this, ep, this])
  obtain ⟨θ, hw, hb, i₀, hi₀, j₀, hj₀, hX⟩ := tangent_ne (m := m) rest (fun d h => hd d (List.mem_cons_of_mem _ h)) hn (fun i q => W i q - 1 * B i q) ⟨0, hm, j, hj, he⟩
  have key : ∀ y : Nat → Nat → ℝ, lossTangent m k ((n, f) :: rest) a y θ (unit 0 (r * n + j)) - lossTangent m k ((n, f) :: rest) a y θ (unit 1 j) =
      ∑ i ∈ Finset.range m, ∑ q ∈ Finset.range (lastWidth n rest), (if 0 < y i q then -1 else 1) *
        netTangent m θ (fun _ _ => 0) n 2 rest (fun _ _ => 0) (fun i q => W i q - 1 * B i q) i q := by
    intro y
    rw [lossTangent_first hw hb a y (unit 0 (r * n + j)) (fun p hp c => by simp only [unit]; rw [if_neg (by omega)]),
      lossTangent_first hw hb a y (unit 1 j) (fun p hp c => by simp only [unit]; rw [if_neg (by omega)]), ← Finset.sum_sub_distrib]
    refine Finset.sum_congr rfl fun i hi => ?_
    rw [← Finset.sum_sub_distrib]
    refine Finset.sum_congr rfl fun q hq => ?_
    rw [Finset.mem_range] at hi hq
    rw [netTangent_linear 1 rest n 2 _ _ (by omega) (fun _ _ _ => rfl) (fun p _ => hb p), ← mul_sub, one_mul]
    congr 2
    · refine netTangent_congr m θ _ _ rest n 2 _ _ _ (fun _ _ => rfl) (fun i hi q hq => ?_) i hi q hq
      rw [Finset.sum_eq_single r]
      · simp only [ha, hW, unit, shuffledMat, Nat.div_add_mod', if_true, true_and, one_mul]
        rw [if_neg (show ¬ (1 = 0 ∧ q = r * n + j) by omega), add_zero]
        refine if_congr ?_ rfl rfl
        rw [← ep]
        constructor
        · intro h
          have h2 := segPos_inj (mul_add_lt hr hq) hp h
          rw [← h2, Nat.mul_comm, Nat.mul_add_div hn, Nat.div_eq_of_lt hq, Nat.mul_add_mod, Nat.mod_eq_of_lt hq]
          exact ⟨rfl, rfl⟩
        · rintro ⟨h1, rfl⟩
          rw [← h1, Nat.div_add_mod']
      · intro kk _ hkk
        simp [ha, hkk]
      · simp [hr]
    · refine netTangent_congr m θ _ _ rest n 2 _ _ _ (fun _ _ => rfl) (fun i hi q hq => ?_) i hi q hq
      simp [hB, unit, shuffledMat]
  by_contra hall
  push Not at hall
  have zero : ∀ y : Nat → Nat → ℝ, 0 = ∑ i ∈ Finset.range m, ∑ q ∈ Finset.range (lastWidth n rest), (if 0 < y i q then -1 else 1) *
      netTangent m θ (fun _ _ => 0) n 2 rest (fun _ _ => 0) (fun i q => W i q - 1 * B i q) i q := by
    intro y
    rw [← key y, hall a y θ (by simp [ha]), sub_self]
  exact hX (flip_zero zero hi₀ hj₀)

end RL
