import Verif.Lemmas.Feature
import Verif.Lemmas.Batch
import Verif.Lemmas.Mirror

/-!
# The order of the features: lemmas
-/

namespace RL

open Spec

variable {m k n : Nat} {f : Act} {ds : List (Nat × Act)} {a y θ : Nat → Nat → ℝ} {σ : Equiv.Perm Nat}

/-- the place of the element that place `c` of a matrix of width `n` gets if the rows are renamed -/
def moveRow (n : Nat) (σ : Nat → Nat) (c : Nat) : Nat := σ (c / n) * n + c % n

theorem moveRow_at {r j : Nat} (σ : Nat → Nat) (hj : j < n) : moveRow n σ (r * n + j) = σ r * n + j := by
  have h1 : (r * n + j) / n = r := by
    rw [Nat.mul_comm, Nat.mul_add_div (by omega), Nat.div_eq_of_lt hj, Nat.add_zero]
  have h2 : (r * n + j) % n = j := by
    rw [Nat.mul_comm, Nat.mul_add_mod, Nat.mod_eq_of_lt hj]
  rw [moveRow, h1, h2]

theorem moveRow_inj (hn : 0 < n) {c c' : Nat} (h : moveRow n σ c = moveRow n σ c') : c = c' := by
  have hc := Nat.mod_lt c hn
  have hc' := Nat.mod_lt c' hn
  unfold moveRow at h
  have h1 := congrArg (· / n) h
  have h2 := congrArg (· % n) h
  simp only [Nat.mul_comm _ n, Nat.mul_add_div hn, Nat.div_eq_of_lt hc, Nat.div_eq_of_lt hc', Nat.add_zero, Nat.mul_add_mod, Nat.mod_mod] at h1 h2
  rw [← Nat.div_add_mod c n, ← Nat.div_add_mod c' n, σ.injective h1, h2]

theorem shuffle_swap {n c : Nat} (h : n ≤ 32 ∨ 32 ∣ n) (hS : 32 < 2 * n) (hc : c < n) :
    shuffle (2 * n) (n + c) = (if shuffle (2 * n) c < n then n + shuffle (2 * n) c else shuffle (2 * n) c - n) := by
  unfold shuffle
  rcases h with h | ⟨q, rfl⟩
  · split <;> omega
  · split <;> omega

theorem moveRow_two {n c : Nat} (hσ : ∀ r < 2, σ r < 2) (hc : c < 2 * n) :
    moveRow n σ c = if σ 0 = 0 then c else if c < n then n + c else c - n := by
  have h0 := hσ 0 (by omega)
  have h1 := hσ 1 (by omega)
  have h01 : σ 0 ≠ σ 1 := fun h => absurd (σ.injective h) (by omega)
  have hn : 0 < n := by omega
  unfold moveRow
  by_cases hcn : c < n
  · rw [Nat.div_eq_of_lt hcn, Nat.mod_eq_of_lt hcn, if_pos hcn]
    split
    · next h => rw [h]; omega
    · rw [show σ 0 = 1 by omega]; omega
  · have h2 : c / n = 1 := by
      rw [Nat.div_eq_iff hn]
      omega
    have h3 : c % n = c - n := by
      rw [Nat.mod_eq_sub_mod (by omega), Nat.mod_eq_of_lt (by omega)]
    rw [h2, h3, if_neg hcn]
    split
    · rw [show σ 1 = 1 by omega]; omega
    · rw [show σ 1 = 0 by omega]; omega

/-- in these matrices shuffling commutes with renaming rows -/
theorem shuffle_moveRow (h : RowsAlike k n) (hσ : ∀ r < k, σ r < k) {c : Nat} (hc : c < k * n) :
    shuffle (k * n) (moveRow n σ c) = moveRow n σ (shuffle (k * n) c) := by
  have hn : 0 < n := by
    rcases Nat.eq_zero_or_pos n with rfl | h
    · simp at hc
    · exact h
  have hlt : ∀ c < k * n, moveRow n σ c < k * n := by
    intro c hc
    have h1 := hσ (c / n) ((Nat.div_lt_iff_lt_mul hn).2 hc)
    have h2 := Nat.mod_lt c hn
    unfold moveRow
    nlinarith
  by_cases hS : k * n ≤ 32
  · rw [shuffle_small hS hc, shuffle_small hS (hlt c hc)]
  rcases h with h | rfl | ⟨rfl, h⟩
  · omega
  · have h0 : σ 0 = 0 := by
      have := hσ 0 (by omega)
      omega
    have : ∀ c < 1 * n, moveRow n σ c = c := by
      intro c hc
      rw [moveRow, Nat.div_eq_of_lt (by omega), h0, Nat.mod_eq_of_lt (by omega)]
      omega
    rw [this c hc, this _ (shuffle_lt hc)]
  · rw [moveRow_two hσ hc, moveRow_two hσ (shuffle_lt hc)]
    split
    · rfl
    · by_cases hcn : c < n
      · rw [if_pos hcn, shuffle_swap h (by omega) hcn]
      · rw [if_neg hcn]
        have h1 := shuffle_swap h (show 32 < 2 * n by omega) (show c - n < n by omega)
        rw [show n + (c - n) = c by omega] at h1
        have h2 := shuffle_lt (show c - n < 2 * n by omega)
        rw [h1]
        split <;> split <;> omega

/-- in all other matrices renaming rows can bring a place to which gradients of the first row go to one to which gradients of a row go
that is not renamed to the first one -/
theorem shuffle_moveRow_ne (hk : 0 < k) (hn : 0 < n) (h : ¬ RowsAlike k n) : ∃ s < k, ∃ t < k, ∃ p < n, ∃ p' < k * n,
    moveRow n (Equiv.swap s t) (shuffle (k * n) p) = shuffle (k * n) p' ∧ Equiv.swap s t (p' / n) ≠ 0 := by
  simp only [RowsAlike, not_or, not_and, not_le] at h
  obtain ⟨hS, h1, h2⟩ := h
  by_cases hk2 : k = 2
  · subst hk2
    obtain ⟨h3, h4⟩ := h2 rfl
    have hp1 : shuffle (2 * n) (n % 32) = 2 * n - 32 + n % 32 := by unfold shuffle; omega
    have hp2 : shuffle (2 * n) (32 * (n / 32)) = 2 * n - 32 + n % 32 - n := by unfold shuffle; omega
    have hmod : 0 < n % 32 := Nat.pos_of_ne_zero fun h => h4 (Nat.dvd_of_mod_eq_zero h)
    have hσ : ∀ r < 2, Equiv.swap 0 1 r < 2 := by decide
    refine ⟨0, by omega, 1, by omega, n % 32, by omega, 32 * (n / 32), by omega, ?_, ?_⟩
    · rw [moveRow_two hσ (shuffle_lt (by omega)), hp1, hp2, if_neg (by simp), if_neg (by omega)]
    · rw [Nat.div_eq_of_lt (by omega)]
      simp
  · have h3 : 3 * n ≤ k * n := Nat.mul_le_mul_right n (by omega)
    suffices H : ∃ p < n, n ≤ shuffle (k * n) p ∧ ∃ t < k, 0 < t ∧ ∀ p' < n, shuffle (k * n) p' ≠ t * n + shuffle (k * n) p % n by
      obtain ⟨p, hp, hge, t, ht, ht0, H⟩ := H
      have hlt := shuffle_lt (show p < k * n by omega)
      have hs : shuffle (k * n) p / n < k := (Nat.div_lt_iff_lt_mul hn).2 hlt
      have hs0 : shuffle (k * n) p / n ≠ 0 := by
        rw [Nat.div_ne_zero_iff]
        omega
      have hmv : moveRow n (Equiv.swap (shuffle (k * n) p / n) t) (shuffle (k * n) p) = t * n + shuffle (k * n) p % n := by
        rw [moveRow, Equiv.swap_apply_left]
      obtain ⟨p', hp', e⟩ := shuffle_surj (show t * n + shuffle (k * n) p % n < k * n by
        have := Nat.mod_lt (shuffle (k * n) p) hn
        nlinarith)
      refine ⟨_, hs, t, ht, p, hp, p', hp', by rw [hmv, e], ?_⟩
      have hr : p' / n ≠ 0 := by
        rw [Nat.div_ne_zero_iff]
        exact ⟨by omega, Nat.le_of_not_lt fun h => H p' h e⟩
      rw [Equiv.swap_apply_def]
      split
      · omega
      · split
        · exact hs0
        · exact hr
    by_cases hn32 : n < 32
    · have hsh : ∀ p < n, shuffle (k * n) p = k * n - 32 + p := by
        intro p hp
        unfold shuffle
        omega
      refine ⟨n - 1, by omega, by rw [hsh _ (by omega)]; omega, ?_⟩
      have hdm := Nat.div_add_mod' (shuffle (k * n) (n - 1)) n
      rw [hsh _ (by omega)] at hdm ⊢
      have : ∃ t < k, 0 < t ∧ t ≠ (k * n - 32 + (n - 1)) / n := by
        by_cases h : (k * n - 32 + (n - 1)) / n = 1
        · exact ⟨2, by omega, by omega, by omega⟩
        · exact ⟨1, by omega, by omega, fun h' => h h'.symm⟩
      obtain ⟨t, ht, ht0, hne⟩ := this
      refine ⟨t, ht, ht0, fun p' hp' e => ?_⟩
      rw [hsh p' hp'] at e
      generalize (k * n - 32 + (n - 1)) / n = u at *
      generalize (k * n - 32 + (n - 1)) % n = v at *
      rcases Nat.lt_or_gt_of_ne hne with h | h
      · have := Nat.mul_le_mul_right n h
        rw [Nat.succ_mul] at this
        omega
      · have := Nat.mul_le_mul_right n h
        rw [Nat.succ_mul] at this
        omega
    · have hp0 : shuffle (k * n) 0 = k * n - 32 := by unfold shuffle; omega
      have hm : (k * n - 32) % n = n - 32 := by
        have : k * n - 32 = n * (k - 1) + (n - 32) := by
          have : k * n = n * (k - 1) + n := by
            obtain ⟨k, rfl⟩ := Nat.exists_eq_succ_of_ne_zero hk.ne'
            rw [Nat.succ_mul, Nat.succ_sub_one, Nat.mul_comm]
          omega
        rw [this, Nat.mul_add_mod, Nat.mod_eq_of_lt (by omega)]
      refine ⟨0, hn, by rw [hp0]; omega, 1, by omega, by omega, fun p' hp' e => ?_⟩
      rw [hp0, hm] at e
      have h4 : k * n = 3 * n ∨ 4 * n ≤ k * n := by
        by_cases h : k = 3
        · left; rw [h]
        · right; exact Nat.mul_le_mul_right n (by omega)
      unfold shuffle at e
      omega

/-- only the coordinates and the rows and columns of the matrices matter -/
theorem netTangent_ext {θ' δ δ' : Nat → Nat → ℝ} : ∀ (ds : List (Nat × Act)) (k q : Nat) (a a' da da' : Nat → Nat → ℝ),
    (∀ p ∈ coords k q ds, θ p.1 p.2 = θ' p.1 p.2) → (∀ p ∈ coords k q ds, δ p.1 p.2 = δ' p.1 p.2) → (∀ i < m, ∀ j < k, a i j = a' i j) →
    (∀ i < m, ∀ j < k, da i j = da' i j) → ∀ i < m, ∀ j < lastWidth k ds,
    netTangent m θ δ k q ds a da i j = netTangent m θ' δ' k q ds a' da' i j := by
  intro ds
  induction ds with
  | nil => exact fun k q a a' da da' _ _ _ h => h
  | cons d ds ih =>
    obtain ⟨n, f⟩ := d
    intro k q a a' da da' hθ hδ ha hda i hi j hj
    simp only [netTangent]
    have hz : ∀ i < m, ∀ j < n, affine k a (fun i j => θ q (i * n + j)) (θ (q + 1)) i j = affine k a' (fun i j => θ' q (i * n + j)) (θ' (q + 1)) i j := by
      intro i hi j hj
      exact affine_congr (fun r hr => ha i hi r hr) (fun r hr => hθ _ (mem_weights hr hj)) (hθ _ (mem_bias hj))
    refine ih n (q + 2) _ _ _ _ (fun p hp => hθ p (mem_rest hp)) (fun p hp => hδ p (mem_rest hp)) (fun i hi j hj => by rw [hz i hi j hj]) ?_ i hi j hj
    intro i hi j hj
    have hb : δ (q + 1) j = δ' (q + 1) j := hδ (q + 1, j) (mem_bias hj)
    rw [hz i hi j hj, hb]
    congr 2
    refine Finset.sum_congr rfl fun kk hkk => ?_
    rw [Finset.mem_range] at hkk
    have h1 := shuffle_lt (mul_add_lt hi hkk)
    have h2 := shuffle_lt (mul_add_lt hkk hj)
    have h3 : shuffledMat m k da i kk = shuffledMat m k da' i kk :=
      hda _ (Nat.div_lt_of_lt_mul (h1.trans_eq (Nat.mul_comm m k))) _ (Nat.mod_lt _ (by omega))
    have h4 : shuffledMat k n (fun i j => δ q (i * n + j)) kk j = shuffledMat k n (fun i j => δ' q (i * n + j)) kk j := by
      simp only [shuffledMat]
      exact hδ (q, _) (mem_weights (Nat.div_lt_of_lt_mul (h2.trans_eq (Nat.mul_comm k n))) (Nat.mod_lt _ (by omega)))
    have h5 : θ q (kk * n + j) = θ' q (kk * n + j) := hθ _ (mem_weights hkk hj)
    rw [h3, h4, h5, ha i hi kk hkk]

theorem affine_features (hσ : ∀ r < k, σ r < k) (a θ : Nat → Nat → ℝ) (i : Nat) {j : Nat} (hj : j < n) :
    affine k (fun i r => a i (σ r)) (fun i j => renameFeatures n σ θ 0 (i * n + j)) (renameFeatures n σ θ (0 + 1)) i j =
      affine k a (fun i j => θ 0 (i * n + j)) (θ (0 + 1)) i j := by
  rw [affine_sum, affine_sum, ← perm_sum hσ fun r => a i r * θ 0 (r * n + j)]
  congr 1
  refine Finset.sum_congr rfl fun r _ => ?_
  rw [show renameFeatures n σ θ 0 (r * n + j) = θ 0 (moveRow n σ (r * n + j)) from rfl, moveRow_at _ hj]

theorem netValue_features (hσ : ∀ r < k, σ r < k) (a θ : Nat → Nat → ℝ) (i j : Nat) (hj : j < lastWidth n ds) :
    netValue k (layerFns (renameFeatures n σ θ) 0 ((n, f) :: ds)) (fun i r => a i (σ r)) i j = netValue k (layerFns θ 0 ((n, f) :: ds)) a i j := by
  simp only [layerFns, netValue]
  refine netValue_congr ds n (0 + 2) _ _ i (fun p hp => ?_) (fun j hj => ?_) j hj
  · have := coords_ge ds _ _ p hp
    simp only [renameFeatures]
    rw [if_neg (by omega)]
  · rw [affine_features hσ a θ i hj]

theorem netLoss_features (hσ : ∀ r < k, σ r < k) (a y θ : Nat → Nat → ℝ) :
    netLoss m k ((n, f) :: ds) (fun i r => a i (σ r)) y (renameFeatures n σ θ) = netLoss m k ((n, f) :: ds) a y θ := by
  refine Finset.sum_congr rfl fun i _ => Finset.sum_congr rfl fun j hj => ?_
  rw [netValue_features (n := n) (f := f) (ds := ds) hσ a θ i j (Finset.mem_range.1 hj)]

/-- directions of which the first is the second with its features renamed -/
theorem lossTangent_features (hσ : ∀ r < k, σ r < k) {δ δ' : Nat → Nat → ℝ} (h1 : ∀ p, 0 < p → δ' p = δ p)
    (h0 : ∀ r < k, ∀ j < n, shuffledMat k n (fun i j => δ' 0 (i * n + j)) r j = shuffledMat k n (fun i j => δ 0 (i * n + j)) (σ r) j) :
    lossTangent m k ((n, f) :: ds) (fun i r => a i (σ r)) y (renameFeatures n σ θ) δ' = lossTangent m k ((n, f) :: ds) a y θ δ := by
  refine Finset.sum_congr rfl fun i hi => Finset.sum_congr rfl fun j hj => ?_
  rw [Finset.mem_range] at hi hj
  rw [netValue_features (n := n) (f := f) (ds := ds) hσ a θ i j hj]
  congr 1
  simp only [netTangent]
  refine netTangent_ext ds n (0 + 2) _ _ _ _ (fun p hp => ?_) (fun p hp => ?_) (fun i _ j hj => by rw [affine_features hσ a θ i hj])
    (fun i _ j hj => ?_) i hi j hj
  · have := coords_ge ds _ _ p hp
    simp only [renameFeatures]
    rw [if_neg (by omega)]
  · have := coords_ge ds _ _ p hp
    rw [h1 _ (by omega)]
  · rw [affine_features hσ a θ i hj, h1 (0 + 1) (by omega)]
    congr 2
    rw [← perm_sum hσ fun kk => shuffledMat m k (fun _ _ => 0) i kk * θ 0 (kk * n + j) + a i kk * shuffledMat k n (fun i j => δ 0 (i * n + j)) kk j]
    refine Finset.sum_congr rfl fun r hr => ?_
    rw [h0 r (Finset.mem_range.1 hr) j hj]
    simp [shuffledMat]

theorem shuffledDescend_features (hn : 0 < n) (hσ : ∀ r < k, σ r < k) (h : RowsAlike k n) (lr : ℝ) :
    shuffledDescend lr m k ((n, f) :: ds) (fun i r => a i (σ r)) y (renameFeatures n σ θ) =
      renameFeatures n σ (shuffledDescend lr m k ((n, f) :: ds) a y θ) := by
  funext q c
  simp only [shuffledDescend]
  by_cases hq : q = 0
  · subst hq
    simp only [renameFeatures, if_true]
    congr 2
    refine lossTangent_features hσ (fun p hp => ?_) fun r hr j hj => ?_
    · funext c'
      rw [if_neg (by omega), if_neg (by omega)]
    · have hlt : r * n + j < k * n := mul_add_lt hr hj
      have e := shuffle_moveRow h hσ hlt
      rw [moveRow_at _ hj] at e
      simp only [shuffledMat, true_and, Nat.div_add_mod', e]
      by_cases hc : shuffle (k * n) (r * n + j) = c
      · rw [if_pos hc, if_pos (by rw [hc]; rfl)]
      · rw [if_neg hc]
        exact (if_neg fun h => hc (moveRow_inj (σ := σ) hn h)).symm
  · simp only [renameFeatures, hq, if_false]
    congr 2
    refine lossTangent_features hσ (fun _ _ => rfl) fun r hr j hj => ?_
    simp [shuffledMat, Ne.symm hq]

end RL
