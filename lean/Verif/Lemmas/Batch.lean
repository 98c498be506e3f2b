import Verif.Lemmas.Converge
import Verif.Lemmas.TrainStart
import Verif.Props.Algebra

/-!
# Training on a batch: lemmas
-/

namespace RL

open Spec

theorem outWidth_layerFns (θ : Nat → Nat → ℝ) : ∀ (ds : List (Nat × Act)) (k q : Nat), outWidth k (layerFns θ q ds) = lastWidth k ds := by
  intro ds
  induction ds with
  | nil => intros; rfl
  | cons d ds ih => exact fun k q => ih d.1 (q + 2)

theorem netValue_rows (θ : Nat → Nat → ℝ) (ds : List (Nat × Act)) (k : Nat) {a a' : Nat → Nat → ℝ} {i i' : Nat} (h : ∀ j < k, a i j = a' i' j)
    {j : Nat} (hj : j < lastWidth k ds) : netValue k (layerFns θ 0 ds) a i j = netValue k (layerFns θ 0 ds) a' i' j :=
  netValue_row _ k a a' i i' h j (by rw [outWidth_layerFns]; exact hj)

theorem affine_row {k : Nat} {a a' : Nat → Nat → ℝ} {i i' : Nat} (h : ∀ j < k, a i j = a' i' j) (w : Nat → Nat → ℝ) (b : Nat → ℝ) (j : Nat) :
    affine k a w b i j = affine k a' w b i' j := by
  simp only [affine_sum]
  congr 1
  exact Finset.sum_congr rfl fun r hr => by rw [h r (Finset.mem_range.1 hr)]

/-- while the outputs of the hidden layers have at most 32 elements, the derivative of an output only depends on its own row -/
theorem netTangent_row (m m' : Nat) (θ δ : Nat → Nat → ℝ) : ∀ (ds : List (Nat × Act)) (k q : Nat) (a a' da da' : Nat → Nat → ℝ) (i i' : Nat),
    (∀ d ∈ ds.dropLast, m * d.1 ≤ 32 ∧ m' * d.1 ≤ 32) → (da = (fun _ _ => 0) ∧ da' = (fun _ _ => 0) ∨ ds = [] ∨ m * k ≤ 32 ∧ m' * k ≤ 32) →
    i < m → i' < m' → (∀ j < k, a i j = a' i' j) → (∀ j < k, da i j = da' i' j) → ∀ j < lastWidth k ds,
    netTangent m θ δ k q ds a da i j = netTangent m' θ δ k q ds a' da' i' j := by
  intro ds
  induction ds with
  | nil => exact fun k q a a' da da' i i' _ _ _ _ _ h j hj => h j hj
  | cons d ds ih =>
    obtain ⟨n, f⟩ := d
    intro k q a a' da da' i i' hS hz hi hi' ha hda j hj
    simp only [netTangent]
    have hsh : ∀ kk < k, shuffledMat m k da i kk = shuffledMat m' k da' i' kk := by
      intro kk hkk
      rcases hz with ⟨rfl, rfl⟩ | h | ⟨h1, h2⟩
      · rfl
      · simp at h
      · rw [shuffledMat_small h1 da hi hkk, shuffledMat_small h2 da' hi' hkk, hda kk hkk]
    refine ih n (q + 2) _ _ _ _ i i' (fun d hd => hS d ?_) ?_ hi hi' (fun j _ => ?_) (fun j _ => ?_) j hj
    · cases ds with
      | nil => simp at hd
      | cons e ds => exact List.mem_cons_of_mem _ hd
    · cases ds with
      | nil => exact Or.inr (Or.inl rfl)
      | cons e ds => exact Or.inr (Or.inr (hS (n, f) (by simp [List.dropLast])))
    · rw [affine_row ha]
    · rw [affine_row ha]
      congr 2
      refine Finset.sum_congr rfl fun kk hkk => ?_
      rw [hsh kk (Finset.mem_range.1 hkk), ha kk (Finset.mem_range.1 hkk)]

/-- for these networks the derivative of the loss is the sum of those for the rows -/
theorem lossTangent_rows {m k : Nat} {ds : List (Nat × Act)} (hS : ∀ d ∈ ds.dropLast, m * d.1 ≤ 32) (hm : 0 < m) (a y θ δ : Nat → Nat → ℝ) :
    lossTangent m k ds a y θ δ = ∑ i ∈ Finset.range m, lossTangent 1 k ds (fun _ => a i) (fun _ => y i) θ δ := by
  refine Finset.sum_congr rfl fun i hi => ?_
  rw [lossTangent, Finset.sum_range_one]
  refine Finset.sum_congr rfl fun j hj => ?_
  rw [Finset.mem_range] at hi hj
  rw [netValue_rows θ ds k (a := a) (a' := fun _ => a i) (i := i) (i' := 0) (fun _ _ => rfl) hj,
    netTangent_row m 1 θ δ ds k 0 a (fun _ => a i) _ (fun _ _ => 0) i 0 (fun d hd => ⟨hS d hd, ?_⟩) (Or.inl ⟨rfl, rfl⟩) hi (by omega) (fun _ _ => rfl)
      (fun _ _ => rfl) j hj]
  have := hS d hd
  nlinarith

theorem perm_sum {m : Nat} {σ : Equiv.Perm Nat} (hσ : ∀ i < m, σ i < m) (f : Nat → ℝ) : ∑ i ∈ Finset.range m, f (σ i) = ∑ i ∈ Finset.range m, f i := by
  refine Finset.sum_nbij σ (fun i hi => by simpa using hσ i (by simpa using hi)) σ.injective.injOn ?_ fun _ _ => rfl
  intro i hi
  have hsub : (Finset.range m).image σ ⊆ Finset.range m := by
    intro i hi
    obtain ⟨j, hj, rfl⟩ := Finset.mem_image.1 hi
    simpa using hσ j (by simpa using hj)
  have heq := Finset.eq_of_subset_of_card_le hsub (by rw [Finset.card_image_of_injective _ σ.injective])
  rw [← heq] at hi
  simpa using hi

theorem shuffledDescend_perm {m k : Nat} {ds : List (Nat × Act)} (hS : ∀ d ∈ ds.dropLast, m * d.1 ≤ 32) {σ : Equiv.Perm Nat} (hσ : ∀ i < m, σ i < m)
    (lr : ℝ) (a y θ : Nat → Nat → ℝ) :
    shuffledDescend lr m k ds (fun i => a (σ i)) (fun i => y (σ i)) θ = shuffledDescend lr m k ds a y θ := by
  rcases Nat.eq_zero_or_pos m with rfl | hm
  · rfl
  · funext q c
    simp only [shuffledDescend]
    rw [lossTangent_rows hS hm, lossTangent_rows hS hm, perm_sum hσ fun i => lossTangent 1 k ds (fun _ => a i) (fun _ => y i) θ _]

/-- the loss does not depend on the order of the rows -/
theorem netLoss_perm (m k : Nat) (ds : List (Nat × Act)) {σ : Equiv.Perm Nat} (hσ : ∀ i < m, σ i < m) (a y θ : Nat → Nat → ℝ) :
    netLoss m k ds (fun i => a (σ i)) (fun i => y (σ i)) θ = netLoss m k ds a y θ := by
  rw [netLoss, netLoss, ← perm_sum hσ fun i => ∑ j ∈ Finset.range (lastWidth k ds), |netValue k (layerFns θ 0 ds) a i j - y i j|]
  refine Finset.sum_congr rfl fun i _ => Finset.sum_congr rfl fun j hj => ?_
  rw [netValue_rows θ ds k (a := fun i => a (σ i)) (a' := a) (i := i) (i' := σ i) (fun _ _ => rfl) (Finset.mem_range.1 hj)]

theorem layersAre_unique {h : Heap ℝ} {θ θ' : Nat → Nat → ℝ} : ∀ (ds : List (Nat × Act)) (ls : List (Linear ℝ)) (k q : Nat),
    LayersAre h k ls (layerFns θ q ds) → LayersAre h k ls (layerFns θ' q ds) → ∀ p ∈ coords k q ds, θ p.1 p.2 = θ' p.1 p.2 := by
  intro ds
  induction ds with
  | nil => intro ls k q _ _ p hp; simp [coords] at hp
  | cons d ds ih =>
    obtain ⟨n, f⟩ := d
    intro ls k q h1 h2 p hp
    cases ls with
    | nil => exact h1.elim
    | cons l ls =>
      obtain ⟨⟨hn, _, w, b, hw, hb, mw, rb⟩, r1⟩ := h1
      obtain ⟨⟨_, _, w', b', hw', hb', mw', rb'⟩, r2⟩ := h2
      rw [hw] at hw'
      rw [hb] at hb'
      cases hw'
      cases hb'
      simp only [coords, Finset.mem_union, Finset.mem_image, Finset.mem_range] at hp
      rcases hp with (⟨c, hc, rfl⟩ | ⟨c, hc, rfl⟩) | hp
      · have hn' : 0 < n := hn
        have e1 := mw.2.2 (c / n) (Nat.div_lt_of_lt_mul (by rw [Nat.mul_comm]; exact hc)) (c % n) (Nat.mod_lt _ hn')
        have e2 := mw'.2.2 (c / n) (Nat.div_lt_of_lt_mul (by rw [Nat.mul_comm]; exact hc)) (c % n) (Nat.mod_lt _ hn')
        rw [e1] at e2
        simpa [Nat.div_add_mod'] using Option.some.inj e2
      · have e1 := rb.2.2 c hc
        have e2 := rb'.2.2 c hc
        rw [e1] at e2
        exact Option.some.inj e2
      · exact ih ls n (q + 2) r1 r2 p hp

/-- the parameters of a network are determined -/
theorem Spec.NetIs.unique {h : Heap ℝ} {mlp : Mlp ℝ} {k : Nat} {ds : List (Nat × Act)} {θ θ' : Nat → Nat → ℝ} (h1 : NetIs h mlp k ds θ)
    (h2 : NetIs h mlp k ds θ') {q c : Nat} (hp : (q, c) ∈ coords k 0 ds) : θ q c = θ' q c :=
  layersAre_unique ds mlp.layers k 0 h1.layers h2.layers _ hp

end RL
