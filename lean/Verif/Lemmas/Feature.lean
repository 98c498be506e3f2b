import Verif.Lemmas.Settle
import Verif.Lemmas.Units

/-!
# Features that are 0 in all rows: lemmas
-/

namespace RL

open Spec

variable {m k n : Nat} {f : Act} {ds : List (Nat × Act)} {a y θ : Nat → Nat → ℝ}

theorem shuffledMat_unit {c r j : Nat} : shuffledMat k n (fun i j => unit 0 c 0 (i * n + j)) r j = if shuffle (k * n) (r * n + j) = c then 1 else 0 := by
  simp only [shuffledMat, unit, true_and]
  rw [Nat.div_add_mod']

/-- weights to which no input that is not 0 contributes -/
theorem lossTangent_feature {c : Nat} (hc : ∀ r < k, ∀ j < n, shuffle (k * n) (r * n + j) = c → ∀ i < m, a i r = 0) :
    lossTangent m k ((n, f) :: ds) a y θ (unit 0 c) = 0 := by
  refine Finset.sum_eq_zero fun i hi => Finset.sum_eq_zero fun j hj => ?_
  rw [Finset.mem_range] at hi hj
  simp only [netTangent]
  rw [netTangent_congr m θ _ (fun _ _ => 0) ds n (0 + 2) _ _ (fun _ _ => 0) (fun p hp => ?_) (fun i hi j' hj' => ?_) i hi j hj, netTangent_zero, mul_zero]
  · have := coords_ge ds _ _ p hp
    simp only [unit]
    rw [if_neg (by omega)]
  · rw [Finset.sum_eq_zero, show unit 0 c (0 + 1) j' = 0 by simp [unit], add_zero, mul_zero]
    intro r hr
    rw [shuffledMat_unit]
    split
    · next h => rw [hc r (Finset.mem_range.1 hr) j' hj' h i hi]; simp [shuffledMat]
    · simp [shuffledMat]

theorem shuffle_surj {len c : Nat} (hc : c < len) : ∃ i < len, shuffle len i = c := by
  have h := Finset.surjOn_of_injOn_of_card_le (s := Finset.range len) (t := Finset.range len) (shuffle len)
    (fun i hi => by simpa using shuffle_lt (by simpa using hi))
    (fun i hi j hj e => segPos_inj (by simpa using hi) (by simpa using hj) e) le_rfl
  obtain ⟨i, hi, e⟩ := h (show c ∈ ((Finset.range len : Finset Nat) : Set Nat) by simpa using hc)
  exact ⟨i, by simpa using hi, e⟩

/-- in a network with positive weights and without negative biases everything that comes in contributes to what comes out -/
theorem tangent_pos (hw : ∀ q c, q % 2 = 0 → 0 < θ q c) (hb : ∀ q c, 2 ≤ q → q % 2 = 1 → θ q c = 0) :
    ∀ (ds : List (Nat × Act)) (k q : Nat) (a da : Nat → Nat → ℝ), 2 ≤ q → q % 2 = 0 → (∀ d ∈ ds, 0 < d.1) → 0 < k →
    (∀ i < m, ∀ j < k, 0 ≤ a i j) → (∀ i < m, ∃ j < k, 0 < a i j) → (∀ i < m, ∀ j < k, 0 ≤ da i j) → (∃ i < m, ∃ j < k, 0 < da i j) →
    (∀ i < m, ∀ j < lastWidth k ds, 0 ≤ netValue k (layerFns θ q ds) a i j) ∧
    (∀ i < m, ∀ j < lastWidth k ds, 0 ≤ netTangent m θ (fun _ _ => 0) k q ds a da i j) ∧
    ∃ i < m, ∃ j < lastWidth k ds, 0 < netTangent m θ (fun _ _ => 0) k q ds a da i j := by
  intro ds
  induction ds with
  | nil => exact fun k q a da _ _ _ _ h1 _ h2 h3 => ⟨h1, h2, h3⟩
  | cons d ds ih =>
    obtain ⟨n, f⟩ := d
    intro k q a da hq2 hq hd hk h1 h1' h2 h3
    have hn := hd _ List.mem_cons_self
    have hz : ∀ i < m, ∀ j, 0 < affine k a (fun i j => θ q (i * n + j)) (θ (q + 1)) i j := by
      intro i hi j
      rw [affine_sum, hb (q + 1) _ (by omega) (by omega), add_zero]
      obtain ⟨r, hr, hpos⟩ := h1' i hi
      exact Finset.sum_pos' (fun r hr => mul_nonneg (h1 i hi r (Finset.mem_range.1 hr)) (hw _ _ hq).le)
        ⟨r, Finset.mem_range.2 hr, mul_pos hpos (hw _ _ hq)⟩
    have hr : ∀ i < m, ∀ r < k, 0 ≤ shuffledMat m k da i r := by
      intro i hi r hr
      have hlt : i * k + r < m * k := by nlinarith
      exact h2 _ ((Nat.div_lt_iff_lt_mul hk).2 (shuffle_lt hlt)) _ (Nat.mod_lt _ hk)
    have key : ∀ i j, (∑ r ∈ Finset.range k, (shuffledMat m k da i r * θ q (r * n + j) + a i r * shuffledMat k n (fun _ _ => 0) r j)) + 0 =
        ∑ r ∈ Finset.range k, shuffledMat m k da i r * θ q (r * n + j) := by
      intro i j
      simp [shuffledMat]
    simp only [layerFns, netValue, lastWidth, netTangent]
    refine ih n (q + 2) _ _ (by omega) (by omega) (fun d h => hd d (List.mem_cons_of_mem _ h)) hn (fun i hi j _ => (f.fn_pos (hz i hi j)).le)
      (fun i hi => ⟨0, hn, f.fn_pos (hz i hi 0)⟩) ?_ ?_
    · intro i hi j hj
      rw [key]
      exact mul_nonneg (f.slope_pos (hz i hi j)).le (Finset.sum_nonneg fun r h => mul_nonneg (hr i hi r (Finset.mem_range.1 h)) (hw _ _ hq).le)
    · obtain ⟨i, hi, j, hj, hpos⟩ := h3
      obtain ⟨p, hp, e⟩ := shuffle_surj (show i * k + j < m * k by nlinarith)
      have hp1 : p / k < m := (Nat.div_lt_iff_lt_mul hk).2 hp
      refine ⟨p / k, hp1, 0, hn, ?_⟩
      rw [key]
      refine mul_pos (f.slope_pos (hz _ hp1 0)) (Finset.sum_pos' (fun r h => mul_nonneg (hr _ hp1 r (Finset.mem_range.1 h)) (hw _ _ hq).le) ?_)
      refine ⟨p % k, Finset.mem_range.2 (Nat.mod_lt _ hk), mul_pos ?_ (hw _ _ hq)⟩
      rw [shuffledMat, Nat.div_add_mod', e, Nat.mul_comm i k, Nat.mul_add_div hk, Nat.div_eq_of_lt hj, Nat.mul_add_mod, Nat.mod_eq_of_lt hj, Nat.add_zero]
      exact hpos

/-- all weights 1, no bias -/
def ones : Nat → Nat → ℝ := fun q _ => if q % 2 = 0 then 1 else 0

/-- all weights 1, no bias except -2 for unit `j` of the first layer -/
def oneDead (j : Nat) : Nat → Nat → ℝ := fun q c => if q % 2 = 0 then 1 else if q = 1 ∧ c = j then -2 else 0

theorem lossTangent_pos {θ : Nat → Nat → ℝ} (hm : 0 < m) (hk : 0 < k) (hd : ∀ d ∈ (n, f) :: ds, 0 < d.1) {j : Nat} (hj : j < n)
    (hw : ∀ q c, q % 2 = 0 → θ q c = 1) (hb : ∀ q c, 2 ≤ q → q % 2 = 1 → θ q c = 0) (hj0 : θ 1 j = 0)
    (hfn : ∀ j' < n, 0 ≤ f.fn (1 + θ 1 j')) :
    0 < lossTangent m k ((n, f) :: ds) (onPath fun _ => 1) (fun _ _ => 0) θ (unit 0 (shuffle (k * n) j)) := by
  have hn := hd _ List.mem_cons_self
  have hz : ∀ i j, affine k (onPath fun _ => 1) (fun i j => θ 0 (i * n + j)) (θ (0 + 1)) i j = 1 + θ 1 j := by
    intro i j
    rw [affine_sum, Finset.sum_eq_single 0]
    · simp [onPath, hw 0 _ rfl]
    · intro r _ hr
      simp [onPath, hr]
    · simp [hk]
  have hu : ∀ i j', (∑ kk ∈ Finset.range k, (shuffledMat m k (fun _ _ => (0 : ℝ)) i kk * θ 0 (kk * n + j') +
      onPath (fun _ => 1) i kk * shuffledMat k n (fun i j' => unit 0 (shuffle (k * n) j) 0 (i * n + j')) kk j')) +
      unit 0 (shuffle (k * n) j) (0 + 1) j' = if shuffle (k * n) j' = shuffle (k * n) j then 1 else 0 := by
    intro i j'
    rw [Finset.sum_eq_single 0, shuffledMat_unit]
    · simp [onPath, shuffledMat, unit]
    · intro r _ hr
      simp [onPath, hr, shuffledMat]
    · simp [hk]
  have hsl : ∀ j' < n, f.slope (1 + θ 1 j') * (if shuffle (k * n) j' = shuffle (k * n) j then 1 else 0) =
      f.slope 1 * if shuffle (k * n) j' = shuffle (k * n) j then 1 else 0 := by
    intro j' hj'
    split
    · next h =>
      have hkn : n ≤ k * n := Nat.le_mul_of_pos_left _ hk
      rw [segPos_inj (show j' < k * n by omega) (show j < k * n by omega) h, hj0, add_zero]
    · rw [mul_zero, mul_zero]
  obtain ⟨h1, h2, i, hi, j', hj', h3⟩ := tangent_pos (m := m) (θ := θ) (fun q c h => by rw [hw q c h]; norm_num) hb ds n (0 + 2)
    (fun _ j' => f.fn (1 + θ 1 j')) (fun _ j' => f.slope 1 * if shuffle (k * n) j' = shuffle (k * n) j then 1 else 0) (by omega) rfl
    (fun d h => hd d (List.mem_cons_of_mem _ h)) hn (fun _ _ j' hj' => hfn j' hj')
    (fun _ _ => ⟨j, hj, by rw [hj0, add_zero]; exact f.fn_pos one_pos⟩)
    (fun _ _ _ _ => mul_nonneg (f.slope_pos one_pos).le (by split <;> norm_num))
    ⟨0, hm, j, hj, by rw [if_pos rfl, mul_one]; exact f.slope_pos one_pos⟩
  have hT : ∀ i < m, ∀ j' < lastWidth n ds, netTangent m θ (unit 0 (shuffle (k * n) j)) k 0 ((n, f) :: ds) (onPath fun _ => 1) (fun _ _ => 0) i j' =
      netTangent m θ (fun _ _ => 0) n (0 + 2) ds (fun _ j' => f.fn (1 + θ 1 j'))
        (fun _ j' => f.slope 1 * if shuffle (k * n) j' = shuffle (k * n) j then 1 else 0) i j' := by
    intro i hi j' hj'
    simp only [netTangent, hz, hu]
    refine netTangent_congr m θ _ _ ds n (0 + 2) _ _ _ (fun p hp => ?_) (fun _ _ j' hj' => hsl j' hj') i hi j' hj'
    have := coords_ge ds _ _ p hp
    simp only [unit]
    rw [if_neg (by omega)]
  have hS : ∀ i < m, ∀ j' < lastWidth n ds, (if netValue k (layerFns θ 0 ((n, f) :: ds)) (onPath fun _ => 1) i j' < 0 then -1 else 1 : ℝ) = 1 := by
    intro i hi j' hj'
    simp only [layerFns, netValue, hz]
    exact if_neg (h1 i hi j' hj').not_gt
  unfold lossTangent
  refine Finset.sum_pos' (fun i hi => Finset.sum_nonneg fun j' hj' => ?_) ⟨i, Finset.mem_range.2 hi, Finset.sum_pos' (fun j' hj' => ?_) ⟨j', Finset.mem_range.2 hj', ?_⟩⟩
  · rw [hS i (Finset.mem_range.1 hi) j' (Finset.mem_range.1 hj'), hT i (Finset.mem_range.1 hi) j' (Finset.mem_range.1 hj'), one_mul]
    exact h2 i (Finset.mem_range.1 hi) j' (Finset.mem_range.1 hj')
  · rw [hS i hi j' (Finset.mem_range.1 hj'), hT i hi j' (Finset.mem_range.1 hj'), one_mul]
    exact h2 i hi j' (Finset.mem_range.1 hj')
  · rw [hS i hi j' hj', hT i hi j' hj', one_mul]
    exact h3

theorem lossTangent_used (hm : 0 < m) (hk : 0 < k) (hd : ∀ d ∈ (n, f) :: ds, 0 < d.1) {j : Nat} (hj : j < n) :
    0 < lossTangent m k ((n, f) :: ds) (onPath fun _ => 1) (fun _ _ => 0) ones (unit 0 (shuffle (k * n) j)) :=
  lossTangent_pos hm hk hd hj (fun q c h => by simp [ones, h]) (fun q c _ h => by simp [ones, h]) (by simp [ones])
    fun j' _ => by simpa [ones] using (f.fn_pos one_pos).le

end RL
