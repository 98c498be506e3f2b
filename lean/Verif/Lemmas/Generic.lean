import Verif.SpecGeneric
import Verif.Lemmas.GenericSteps
import Verif.Lemmas.Kink
import Verif.Lemmas.Converge
import Mathlib.Analysis.SpecialFunctions.Artanh

/-!
# Training from almost all parameters: lemmas
-/

namespace RL

open Spec MeasureTheory

/-- a measurable set that meets every line parallel to one of the axes in countably many points has measure zero -/
theorem null_of_axis {ι : Type} [Fintype ι] [DecidableEq ι] (j : ι) {B : Set (ι → ℝ)} (hB : MeasurableSet B)
    (hc : ∀ u, {z | Function.update u j z ∈ B}.Countable) : volume B = 0 := by
  let e : Fin (Fintype.card ι) ≃ ι := (Fintype.equivFin ι).symm
  have hp := volume_measurePreserving_piCongrLeft (fun _ : ι => ℝ) e
  rw [← hp.measure_preimage hB.nullMeasurableSet]
  have hev : ∀ (v : Fin (Fintype.card ι) → ℝ) (i : ι), MeasurableEquiv.piCongrLeft (fun _ => ℝ) e v i = v (e.symm i) := by
    intro v i
    obtain ⟨i, rfl⟩ := e.surjective i
    rw [MeasurableEquiv.piCongrLeft_apply_apply, Equiv.symm_apply_apply]
  refine null_of_lines (e.symm j) ((MeasurableEquiv.measurable _) hB) fun v => ?_
  refine (hc fun i => v (e.symm i)).mono ?_
  intro z hz
  have h1 : MeasurableEquiv.piCongrLeft (fun _ => ℝ) e (Function.update v (e.symm j) z) = Function.update (fun i => v (e.symm i)) j z := by
    funext i
    rw [hev]
    by_cases hi : i = j
    · subst hi
      simp
    · rw [Function.update_of_ne (fun h => hi (e.symm.injective h)), Function.update_of_ne hi]
  simpa only [Set.mem_preimage, Set.mem_setOf_eq, h1] using hz

/-- a continuous function with slope 1 along an axis has almost everywhere no given value -/
theorem ae_ne {ι : Type} [Fintype ι] [DecidableEq ι] (j : ι) {g : (ι → ℝ) → ℝ} (hg : Continuous g)
    (hs : ∀ u z, g (Function.update u j z) = g (Function.update u j 0) + z) (c : ℝ) : ∀ᵐ u, g u ≠ c := by
  rw [ae_iff]
  refine null_of_axis j ?_ fun u => ?_
  · simp only [not_not]
    exact measurableSet_eq_fun hg.measurable measurable_const
  · refine (Set.countable_singleton (c - g (Function.update u j 0))).mono ?_
    intro z hz
    simp only [Set.mem_setOf_eq, not_not] at hz
    rw [hs] at hz
    rw [Set.mem_singleton_iff]
    linarith

/-! smoothness of networks -/

theorem contDiff_tanh {n : WithTop ℕ∞} : ContDiff ℝ n Real.tanh := by
  have h : Real.tanh = fun x => Real.sinh x / Real.cosh x := by
    funext x
    exact Real.tanh_eq_sinh_div_cosh x
  rw [h]
  exact Real.contDiff_sinh.div Real.contDiff_cosh fun x => (Real.cosh_pos x).ne'

theorem Spec.Act.continuous (f : Act) : Continuous f.fn := by
  cases f
  · exact continuous_id
  · exact continuous_id.max continuous_const
  · exact contDiff_tanh.continuous (n := 0)

theorem Spec.Act.contDiffAt (f : Act) {x : ℝ} (hx : f = .relu → x ≠ 0) {n : WithTop ℕ∞} : ContDiffAt ℝ n f.fn x := by
  cases f with
  | identity => exact contDiffAt_id
  | tanh => exact contDiff_tanh.contDiffAt
  | relu =>
    rcases lt_or_gt_of_ne (hx rfl) with h | h
    · refine (contDiffAt_const (c := (0 : ℝ))).congr_of_eventuallyEq ?_
      filter_upwards [eventually_lt_nhds h] with y hy
      exact max_eq_right hy.le
    · refine contDiffAt_id.congr_of_eventuallyEq ?_
      filter_upwards [eventually_gt_nhds h] with y hy
      exact max_eq_left hy.le

theorem Spec.Act.contDiffAt_slope (f : Act) {x : ℝ} (hx : f = .relu → x ≠ 0) {n : WithTop ℕ∞} : ContDiffAt ℝ n f.slope x := by
  cases f with
  | identity => exact contDiffAt_const
  | tanh => exact contDiffAt_const.sub (contDiff_tanh.contDiffAt.pow 2)
  | relu =>
    rcases lt_or_gt_of_ne (hx rfl) with h | h
    · refine (contDiffAt_const (c := (0 : ℝ))).congr_of_eventuallyEq ?_
      filter_upwards [eventually_lt_nhds h] with y hy
      exact if_pos hy
    · refine (contDiffAt_const (c := (1 : ℝ))).congr_of_eventuallyEq ?_
      filter_upwards [eventually_gt_nhds h] with y hy
      exact if_neg hy.not_gt

theorem affine_continuous {α : Type} [TopologicalSpace α] {θ : α → Nat → Nat → ℝ} (hθ : ∀ q c, Continuous fun u => θ u q c) {A : α → Nat → Nat → ℝ}
    (hA : ∀ i j, Continuous fun u => A u i j) (k n q i j : Nat) :
    Continuous fun u => affine k (A u) (fun i j => θ u q (i * n + j)) (θ u (q + 1)) i j := by
  simp only [affine_sum]
  exact (continuous_finsetSum _ fun kk _ => (hA i kk).mul (hθ q _)).add (hθ _ _)

theorem netValue_continuous {α : Type} [TopologicalSpace α] {θ : α → Nat → Nat → ℝ} (hθ : ∀ q c, Continuous fun u => θ u q c) :
    ∀ (ds : List (Nat × Act)) (k q : Nat) (A : α → Nat → Nat → ℝ), (∀ i j, Continuous fun u => A u i j) → ∀ i j,
    Continuous fun u => netValue k (layerFns (θ u) q ds) (A u) i j := by
  intro ds
  induction ds with
  | nil => exact fun k q A hA => hA
  | cons d ds ih =>
    obtain ⟨n, f⟩ := d
    intro k q A hA i j
    exact ih n (q + 2) (fun u i j => f.fn (affine k (A u) (fun i j => θ u q (i * n + j)) (θ u (q + 1)) i j))
      (fun i j => f.continuous.comp (affine_continuous hθ hA k n q i j)) i j

/-- the set where nothing that goes into `relu` is 0 is open -/
theorem reluSmooth_open {α : Type} [TopologicalSpace α] {θ : α → Nat → Nat → ℝ} (hθ : ∀ q c, Continuous fun u => θ u q c) (m : Nat) :
    ∀ (ds : List (Nat × Act)) (k q : Nat) (A : α → Nat → Nat → ℝ), (∀ i j, Continuous fun u => A u i j) → ∀ u,
    ReluSmooth m (θ u) k q ds (A u) → ∀ᶠ u' in nhds u, ReluSmooth m (θ u') k q ds (A u') := by
  intro ds
  induction ds with
  | nil => exact fun _ _ _ _ _ _ => Filter.Eventually.of_forall fun _ => trivial
  | cons d ds ih =>
    obtain ⟨n, f⟩ := d
    intro k q A hA u hu
    have h1 := ih n (q + 2) (fun u i j => f.fn (affine k (A u) (fun i j => θ u q (i * n + j)) (θ u (q + 1)) i j))
      (fun i j => f.continuous.comp (affine_continuous hθ hA k n q i j)) u hu.2
    refine Filter.Eventually.and ?_ h1
    by_cases hf : f = .relu
    · have h2 : ∀ i ∈ Finset.range m, ∀ᶠ u' in nhds u, ∀ j ∈ Finset.range n,
          affine k (A u') (fun i j => θ u' q (i * n + j)) (θ u' (q + 1)) i j ≠ 0 := by
        intro i hi
        rw [Filter.eventually_all_finset]
        intro j hj
        exact (affine_continuous hθ hA k n q i j).continuousAt.eventually_ne (hu.1 hf i (Finset.mem_range.1 hi) j (Finset.mem_range.1 hj))
      rw [← Filter.eventually_all_finset] at h2
      filter_upwards [h2] with u' h3 _ i hi j hj
      exact h3 i (Finset.mem_range.2 hi) j (Finset.mem_range.2 hj)
    · exact Filter.Eventually.of_forall fun _ h => absurd h hf

theorem affine_contDiffAt {E : Type} [NormedAddCommGroup E] [NormedSpace ℝ E] {θ : E → Nat → Nat → ℝ} {n : WithTop ℕ∞} {u : E}
    (hθ : ∀ q c, ContDiffAt ℝ n (fun u => θ u q c) u) {A : E → Nat → Nat → ℝ} {k w q i j : Nat} (hA : ∀ j < k, ContDiffAt ℝ n (fun u => A u i j) u) :
    ContDiffAt ℝ n (fun u => affine k (A u) (fun i j => θ u q (i * w + j)) (θ u (q + 1)) i j) u := by
  simp only [affine_sum]
  exact (ContDiffAt.sum fun kk hk => (hA kk (Finset.mem_range.1 hk)).mul (hθ q _)).add (hθ _ _)

theorem netValue_contDiffAt {E : Type} [NormedAddCommGroup E] [NormedSpace ℝ E] {θ : E → Nat → Nat → ℝ} {n : WithTop ℕ∞} {u : E}
    (hθ : ∀ q c, ContDiffAt ℝ n (fun u => θ u q c) u) (m : Nat) : ∀ (ds : List (Nat × Act)) (k q : Nat) (A : E → Nat → Nat → ℝ),
    (∀ i < m, ∀ j < k, ContDiffAt ℝ n (fun u => A u i j) u) → ReluSmooth m (θ u) k q ds (A u) → ∀ i < m, ∀ j < lastWidth k ds,
    ContDiffAt ℝ n (fun u => netValue k (layerFns (θ u) q ds) (A u) i j) u := by
  intro ds
  induction ds with
  | nil => exact fun k q A hA _ => hA
  | cons d ds ih =>
    obtain ⟨w, f⟩ := d
    intro k q A hA hK i hi j hj
    refine ih w (q + 2) (fun u i j => f.fn (affine k (A u) (fun i j => θ u q (i * w + j)) (θ u (q + 1)) i j)) (fun i hi j hj => ?_) hK.2 i hi j hj
    exact (f.contDiffAt fun hf => hK.1 hf i hi j hj).comp u (affine_contDiffAt hθ (hA i hi))

theorem shuffle_lt {len i : Nat} (hi : i < len) : shuffle len i < len := by
  unfold shuffle
  omega

theorem netTangent_contDiffAt {E : Type} [NormedAddCommGroup E] [NormedSpace ℝ E] {θ : E → Nat → Nat → ℝ} {n : WithTop ℕ∞} {u : E}
    (hθ : ∀ q c, ContDiffAt ℝ n (fun u => θ u q c) u) (δ : Nat → Nat → ℝ) (m : Nat) : ∀ (ds : List (Nat × Act)) (k q : Nat) (A dA : E → Nat → Nat → ℝ),
    (∀ i < m, ∀ j < k, ContDiffAt ℝ n (fun u => A u i j) u) → (∀ i < m, ∀ j < k, ContDiffAt ℝ n (fun u => dA u i j) u) →
    ReluSmooth m (θ u) k q ds (A u) → ∀ i < m, ∀ j < lastWidth k ds, ContDiffAt ℝ n (fun u => netTangent m (θ u) δ k q ds (A u) (dA u) i j) u := by
  intro ds
  induction ds with
  | nil => exact fun k q A dA _ hdA _ => hdA
  | cons d ds ih =>
    obtain ⟨w, f⟩ := d
    intro k q A dA hA hdA hK i hi j hj
    refine ih w (q + 2) (fun u i j => f.fn (affine k (A u) (fun i j => θ u q (i * w + j)) (θ u (q + 1)) i j)) _ (fun i hi j hj => ?_)
      (fun i hi j hj => ?_) hK.2 i hi j hj
    · exact (f.contDiffAt fun hf => hK.1 hf i hi j hj).comp u (affine_contDiffAt hθ (hA i hi))
    · refine ((f.contDiffAt_slope fun hf => hK.1 hf i hi j hj).comp u (affine_contDiffAt hθ (hA i hi))).mul (ContDiffAt.add ?_ contDiffAt_const)
      refine ContDiffAt.sum fun kk hk => ?_
      rw [Finset.mem_range] at hk
      refine ContDiffAt.add (ContDiffAt.mul ?_ (hθ _ _)) ((hA i hi kk hk).mul contDiffAt_const)
      have h1 := shuffle_lt (mul_add_lt hi hk)
      exact hdA _ (Nat.div_lt_of_lt_mul (h1.trans_eq (Nat.mul_comm m k))) _ (Nat.mod_lt _ (by omega))

/-! only the coordinates of the network matter -/

theorem netTangent_congr (m : Nat) (θ δ δ' : Nat → Nat → ℝ) : ∀ (ds : List (Nat × Act)) (k q : Nat) (a da da' : Nat → Nat → ℝ),
    (∀ p ∈ coords k q ds, δ p.1 p.2 = δ' p.1 p.2) → (∀ i < m, ∀ j < k, da i j = da' i j) → ∀ i < m, ∀ j < lastWidth k ds,
    netTangent m θ δ k q ds a da i j = netTangent m θ δ' k q ds a da' i j := by
  intro ds
  induction ds with
  | nil => exact fun k q a da da' _ h => h
  | cons d ds ih =>
    obtain ⟨n, f⟩ := d
    intro k q a da da' hc h i hi j hj
    simp only [netTangent]
    refine ih n (q + 2) _ _ _ (fun p hp => hc p ?_) ?_ i hi j hj
    · simp only [coords, Finset.mem_union]
      exact Or.inr hp
    · intro i hi j hj
      rw [hc (q + 1, j) (by
        simp only [coords, Finset.mem_union, Finset.mem_image, Finset.mem_range]
        exact Or.inl (Or.inr ⟨j, hj, rfl⟩))]
      congr 2
      refine Finset.sum_congr rfl fun kk hkk => ?_
      rw [Finset.mem_range] at hkk
      have h1 := shuffle_lt (mul_add_lt hi hkk)
      have h2 := shuffle_lt (mul_add_lt hkk hj)
      have h3 : shuffledMat m k da i kk = shuffledMat m k da' i kk :=
        h _ (Nat.div_lt_of_lt_mul (h1.trans_eq (Nat.mul_comm m k))) _ (Nat.mod_lt _ (by omega))
      have h4 : shuffledMat k n (fun i j => δ q (i * n + j)) kk j = shuffledMat k n (fun i j => δ' q (i * n + j)) kk j := by
        simp only [shuffledMat]
        rw [Nat.div_add_mod']
        exact hc (q, _) (by
          simp only [coords, Finset.mem_union, Finset.mem_image, Finset.mem_range]
          exact Or.inl (Or.inl ⟨_, h2, rfl⟩))
      rw [h3, h4]

theorem netTangent_zero (m : Nat) (θ : Nat → Nat → ℝ) : ∀ (ds : List (Nat × Act)) (k q : Nat) (a : Nat → Nat → ℝ),
    netTangent m θ (fun _ _ => 0) k q ds a (fun _ _ => 0) = fun _ _ => 0 := by
  intro ds
  induction ds with
  | nil => intros; rfl
  | cons d ds ih =>
    intro k q a
    simp only [netTangent, shuffledMat, zero_mul, mul_zero, add_zero, Finset.sum_const_zero]
    exact ih _ _ _

theorem lossTangent_outside {m k : Nat} {ds : List (Nat × Act)} (a y θ : Nat → Nat → ℝ) {q c : Nat} (hn : (q, c) ∉ coords k 0 ds) :
    lossTangent m k ds a y θ (unit q c) = 0 := by
  refine Finset.sum_eq_zero fun i hi => Finset.sum_eq_zero fun j hj => ?_
  rw [netTangent_congr m θ (unit q c) (fun _ _ => 0) ds k 0 a _ (fun _ _ => 0) (fun p hp => ?_) (fun _ _ _ _ => rfl) i (Finset.mem_range.1 hi) j
    (Finset.mem_range.1 hj), netTangent_zero, mul_zero]
  simp only [unit]
  rw [if_neg]
  rintro ⟨rfl, rfl⟩
  exact hn hp

/-! the space of parameters -/

theorem ofPoint_continuous {k : Nat} {ds : List (Nat × Act)} (q c : Nat) : Continuous fun u : Params k ds => ofPoint u q c := by
  unfold ofPoint
  split
  · exact continuous_apply _
  · exact continuous_const

theorem ofPoint_contDiffAt {k : Nat} {ds : List (Nat × Act)} (q c : Nat) {n : WithTop ℕ∞} {u : Params k ds} :
    ContDiffAt ℝ n (fun u : Params k ds => ofPoint u q c) u := by
  unfold ofPoint
  split
  · exact (contDiff_apply ℝ ℝ _).contDiffAt
  · exact contDiffAt_const

theorem toPoint_ofPoint {k : Nat} {ds : List (Nat × Act)} (u : Params k ds) : toPoint k ds (ofPoint u) = u := by
  funext p
  simp [toPoint, ofPoint]

theorem ofPoint_toPoint {k : Nat} {ds : List (Nat × Act)} {θ : Nat → Nat → ℝ} (h : ∀ q c, (q, c) ∉ coords k 0 ds → θ q c = 0) :
    ofPoint (toPoint k ds θ) = θ := by
  funext q c
  unfold ofPoint
  split
  · rfl
  · exact (h q c ‹_›).symm

theorem ofPoint_update {k : Nat} {ds : List (Nat × Act)} (u : Params k ds) (p : coords k 0 ds) (z : ℝ) (q c : Nat) :
    ofPoint (Function.update u p z) q c = if (q, c) = p.1 then z else ofPoint u q c := by
  unfold ofPoint
  by_cases hp : (q, c) = p.1
  · rw [dif_pos (hp ▸ p.2), if_pos hp]
    have : (⟨(q, c), hp ▸ p.2⟩ : coords k 0 ds) = p := Subtype.ext hp
    rw [this, Function.update_self]
  · rw [if_neg hp]
    split
    · rw [Function.update_of_ne]
      exact fun h => hp (congrArg Subtype.val h)
    · rfl

/-- no kink at the parameters `u`: nothing that goes into `relu` is 0, and outputs that are the expected ones stay the same near `u` -/
def NoKink (m k : Nat) (ds : List (Nat × Act)) (a y : Nat → Nat → ℝ) (u : Params k ds) : Prop :=
  ReluSmooth m (ofPoint u) k 0 ds a ∧ ∀ i < m, ∀ j < lastWidth k ds, netValue k (layerFns (ofPoint u) 0 ds) a i j ≠ y i j ∨
    ∀ᶠ u' in nhds u, netValue k (layerFns (ofPoint u') 0 ds) a i j = netValue k (layerFns (ofPoint u) 0 ds) a i j

/-- near such parameters the sign of the difference between an output and the expected one stays the same -/
theorem sign_eventually {m k : Nat} {ds : List (Nat × Act)} {a y : Nat → Nat → ℝ} {u : Params k ds} (hu : NoKink m k ds a y u) {i j : Nat} (hi : i < m)
    (hj : j < lastWidth k ds) : ∀ᶠ u' in nhds u, (netValue k (layerFns (ofPoint u') 0 ds) a i j < y i j ↔ netValue k (layerFns (ofPoint u) 0 ds) a i j < y i j) := by
  have hc : Continuous fun u : Params k ds => netValue k (layerFns (ofPoint u) 0 ds) a i j :=
    netValue_continuous ofPoint_continuous ds k 0 (fun _ => a) (fun _ _ => continuous_const) i j
  rcases hu.2 i hi j hj with h | h
  · rcases lt_or_gt_of_ne h with h | h
    · filter_upwards [hc.continuousAt.eventually_lt_const h] with u' h'
      exact ⟨fun _ => h, fun _ => h'⟩
    · filter_upwards [hc.continuousAt.eventually_const_lt h] with u' h'
      exact ⟨fun h'' => absurd h'' h'.not_gt, fun h'' => absurd h'' h.not_gt⟩
  · filter_upwards [h] with u' h'
    rw [h']

theorem lossTangent_contDiffAt {m k : Nat} {ds : List (Nat × Act)} {a y : Nat → Nat → ℝ} {u : Params k ds} (hu : NoKink m k ds a y u)
    (δ : Nat → Nat → ℝ) {n : WithTop ℕ∞} : ContDiffAt ℝ n (fun u : Params k ds => lossTangent m k ds a y (ofPoint u) δ) u := by
  refine ContDiffAt.sum fun i hi => ContDiffAt.sum fun j hj => ?_
  rw [Finset.mem_range] at hi hj
  have h1 := netTangent_contDiffAt (n := n) (fun q c => ofPoint_contDiffAt q c) δ m ds k 0 (fun _ : Params k ds => a) (fun _ _ _ => 0)
    (fun _ _ _ _ => contDiffAt_const) (fun _ _ _ _ => contDiffAt_const) hu.1 i hi j hj
  refine (contDiffAt_const.mul h1).congr_of_eventuallyEq (f₁ := fun u' => _) (f := fun u' => (if netValue k (layerFns (ofPoint u) 0 ds) a i j < y i j then -1 else 1) *
    netTangent m (ofPoint u') δ k 0 ds a (fun _ _ => 0) i j) ?_
  filter_upwards [sign_eventually hu hi hj] with u' h2
  simp only [h2]

theorem netLoss_contDiffAt {m k : Nat} {ds : List (Nat × Act)} {a y : Nat → Nat → ℝ} {u : Params k ds} (hu : NoKink m k ds a y u) {n : WithTop ℕ∞} :
    ContDiffAt ℝ n (fun u : Params k ds => netLoss m k ds a y (ofPoint u)) u := by
  refine ContDiffAt.sum fun i hi => ContDiffAt.sum fun j hj => ?_
  rw [Finset.mem_range] at hi hj
  have h1 := netValue_contDiffAt (n := n) (fun q c => ofPoint_contDiffAt q c) m ds k 0 (fun _ : Params k ds => a)
    (fun _ _ _ _ => contDiffAt_const) hu.1 i hi j hj
  have h2 : ContDiffAt ℝ n (fun u' : Params k ds => (if netValue k (layerFns (ofPoint u) 0 ds) a i j < y i j then -1 else 1) *
      (netValue k (layerFns (ofPoint u') 0 ds) a i j - y i j)) u := contDiffAt_const.mul (h1.sub contDiffAt_const)
  refine h2.congr_of_eventuallyEq ?_
  filter_upwards [sign_eventually hu hi hj] with u' h3
  split
  · rw [abs_of_neg (sub_neg.2 (h3.2 ‹_›)), neg_one_mul]
  · rw [abs_of_nonneg (sub_nonneg.2 (not_lt.1 (mt h3.1 ‹_›))), one_mul]

theorem netValue_congr {θ θ' : Nat → Nat → ℝ} : ∀ (ds : List (Nat × Act)) (k q : Nat) (a a' : Nat → Nat → ℝ) (i : Nat),
    (∀ p ∈ coords k q ds, θ p.1 p.2 = θ' p.1 p.2) → (∀ j < k, a i j = a' i j) → ∀ j < lastWidth k ds,
    netValue k (layerFns θ q ds) a i j = netValue k (layerFns θ' q ds) a' i j := by
  intro ds
  induction ds with
  | nil => exact fun k q a a' i _ h => h
  | cons d ds ih =>
    obtain ⟨n, f⟩ := d
    intro k q a a' i hc h j hj
    simp only [layerFns, netValue]
    refine ih n (q + 2) _ _ i (fun p hp => hc p ?_) (fun j hj => ?_) j hj
    · simp only [coords, Finset.mem_union]
      exact Or.inr hp
    · simp only [affine_sum]
      rw [hc (q + 1, j) (by
        simp only [coords, Finset.mem_union, Finset.mem_image, Finset.mem_range]
        exact Or.inl (Or.inr ⟨j, hj, rfl⟩))]
      congr 2
      refine Finset.sum_congr rfl fun kk hkk => ?_
      rw [Finset.mem_range] at hkk
      rw [h kk hkk, hc (q, kk * n + j) (by
        simp only [coords, Finset.mem_union, Finset.mem_image, Finset.mem_range]
        exact Or.inl (Or.inl ⟨_, mul_add_lt hkk hj, rfl⟩))]

theorem netValue_point {k : Nat} {ds : List (Nat × Act)} (θ a : Nat → Nat → ℝ) {i j : Nat} (hj : j < lastWidth k ds) :
    netValue k (layerFns (ofPoint (toPoint k ds θ)) 0 ds) a i j = netValue k (layerFns θ 0 ds) a i j := by
  refine netValue_congr ds k 0 a a i (fun p hp => ?_) (fun _ _ => rfl) j hj
  simp [ofPoint, toPoint, hp]

theorem netLoss_point {m k : Nat} {ds : List (Nat × Act)} (a y θ : Nat → Nat → ℝ) :
    netLoss m k ds a y (ofPoint (toPoint k ds θ)) = netLoss m k ds a y θ := by
  refine Finset.sum_congr rfl fun i _ => Finset.sum_congr rfl fun j hj => ?_
  rw [netValue_point θ a (Finset.mem_range.1 hj)]

theorem noKink_deriv {m k : Nat} {ds : List (Nat × Act)} {a y : Nat → Nat → ℝ} {u : Params k ds} (hu : NoKink m k ds a y u) (δ : Nat → Nat → ℝ) :
    HasDerivAt (fun t => netLoss m k ds a y (along (ofPoint u) δ t)) (lossDiff m k ds a y (ofPoint u) δ) 0 := by
  have hcont : Filter.Tendsto (fun t => toPoint k ds (along (ofPoint u) δ t)) (nhds 0) (nhds u) := by
    have h1 : Continuous fun t => toPoint k ds (along (ofPoint u) δ t) := by
      refine continuous_pi fun p => ?_
      exact continuous_const.add (continuous_id.mul continuous_const)
    have h2 := h1.tendsto 0
    rwa [along_zero, toPoint_ofPoint] at h2
  refine HasDerivAt.fun_sum fun i hi => HasDerivAt.fun_sum fun j hj => ?_
  rw [Finset.mem_range] at hi hj
  have h1 := netValue_deriv m (ofPoint u) δ ds k 0 (fun _ => a) (fun _ _ => 0) (fun i _ j _ => hasDerivAt_const 0 (a i j)) hu.1 i hi j hj
  have h2 := (h1.sub_const (y i j)).const_mul (if netValue k (layerFns (ofPoint u) 0 ds) a i j < y i j then -1 else 1)
  refine h2.congr_of_eventuallyEq ?_
  filter_upwards [hcont.eventually (sign_eventually hu hi hj)] with t h3
  rw [netValue_point _ _ hj] at h3
  split
  · rw [abs_of_neg (sub_neg.2 (h3.2 ‹_›)), neg_one_mul]
  · rw [abs_of_nonneg (sub_nonneg.2 (not_lt.1 (mt h3.1 ‹_›))), one_mul]

/-- the partial derivatives of the loss -/
theorem noKink_partial {m k : Nat} {ds : List (Nat × Act)} {a y : Nat → Nat → ℝ} {u : Params k ds} (hu : NoKink m k ds a y u) (q c : Nat) :
    HasDerivAt (fun z => netLoss m k ds a y (Function.update (ofPoint u) q (Function.update (ofPoint u q) c z))) (lossDiff m k ds a y (ofPoint u) (unit q c))
      (ofPoint u q c) := by
  simp only [update_along]
  have h1 : HasDerivAt (fun t => netLoss m k ds a y (along (ofPoint u) (unit q c) t)) (lossDiff m k ds a y (ofPoint u) (unit q c))
      ((fun z => z - ofPoint u q c) (ofPoint u q c)) := by
    simpa using noKink_deriv hu (unit q c)
  have h2 := HasDerivAt.comp (h := fun z => z - ofPoint u q c) (ofPoint u q c) h1 ((hasDerivAt_id (ofPoint u q c)).sub_const (ofPoint u q c))
  rw [mul_one] at h2
  exact h2

/-- where there is no kink, what a small network computes is a step of gradient descent -/
theorem noKink_step {m k : Nat} {ds : List (Nat × Act)} {a y : Nat → Nat → ℝ} {u : Params k ds} (hu : NoKink m k ds a y u) (hS : SmallNet m k ds) (lr : ℝ) :
    shuffledDescend lr m k ds a y (ofPoint u) = descend lr (netLoss m k ds a y) (ofPoint u) := by
  funext q c
  simp only [shuffledDescend, descend]
  rw [(noKink_partial hu q c).deriv, ← lossTangent_small hS]
  rfl

/-! almost all parameters -/

theorem ae_relu {k₀ : Nat} {ds₀ : List (Nat × Act)} (m : Nat) (y : Nat → Nat → ℝ) : ∀ (ds : List (Nat × Act)) (k q : Nat) (A : Params k₀ ds₀ → Nat → Nat → ℝ),
    coords k q ds ⊆ coords k₀ 0 ds₀ → (∀ i j, Continuous fun u => A u i j) → (∀ u (p : coords k₀ 0 ds₀) z, q ≤ p.1.1 → A (Function.update u p z) = A u) →
    ds ≠ [] → ∀ᵐ u, ReluSmooth m (ofPoint u) k q ds (A u) ∧ ∀ i < m, ∀ j < lastWidth k ds,
      netValue k (layerFns (ofPoint u) q ds) (A u) i j ≠ y i j ∨
      ∀ᶠ u' in nhds u, netValue k (layerFns (ofPoint u') q ds) (A u') i j = netValue k (layerFns (ofPoint u) q ds) (A u) i j := by
  intro ds
  induction ds with
  | nil => exact fun k q A _ _ _ h => absurd rfl h
  | cons d ds ih =>
    obtain ⟨n, f⟩ := d
    intro k q A hsub hA hind _
    let z : Params k₀ ds₀ → Nat → Nat → ℝ := fun u i j => affine k (A u) (fun i j => ofPoint u q (i * n + j)) (ofPoint u (q + 1)) i j
    have hz : ∀ i j, Continuous fun u => z u i j := fun i j => affine_continuous ofPoint_continuous hA k n q i j
    have hne : ∀ c : ℝ, ∀ i j, j < n → ∀ᵐ u, z u i j ≠ c := by
      intro c i j hj
      have hm : (q + 1, j) ∈ coords k₀ 0 ds₀ := hsub (by
        simp only [coords, Finset.mem_union, Finset.mem_image, Finset.mem_range]
        exact Or.inl (Or.inr ⟨j, hj, rfl⟩))
      refine ae_ne ⟨(q + 1, j), hm⟩ (hz i j) (fun u t => ?_) c
      have h1 : ∀ t c, ofPoint (Function.update u ⟨(q + 1, j), hm⟩ t) q c = ofPoint u q c := by
        intro t c
        rw [ofPoint_update, if_neg (by simp)]
      simp only [z, affine_sum, hind u ⟨(q + 1, j), hm⟩ _ (Nat.le_succ q), h1]
      rw [ofPoint_update, ofPoint_update, if_pos rfl, if_pos rfl, add_zero]
    have hrelu : ∀ᵐ u, ∀ i < m, ∀ j < n, z u i j ≠ 0 := by
      simp only [ae_all_iff]
      exact fun i _ j hj => hne 0 i j hj
    cases ds with
    | nil =>
      have hout : ∀ᵐ u, ∀ i < m, ∀ j < n, f.fn (z u i j) ≠ y i j ∨ ∀ᶠ u' in nhds u, f.fn (z u' i j) = f.fn (z u i j) := by
        simp only [ae_all_iff]
        intro i _ j hj
        cases f with
        | identity =>
          filter_upwards [hne (y i j) i j hj] with u hu
          exact Or.inl hu
        | tanh =>
          by_cases hx : ∃ c, Real.tanh c = y i j
          · obtain ⟨c, hc⟩ := hx
            filter_upwards [hne c i j hj] with u hu
            exact Or.inl fun h => hu (Real.tanh_injective (h.trans hc.symm))
          · exact Filter.Eventually.of_forall fun u => Or.inl fun h => hx ⟨_, h⟩
        | relu =>
          filter_upwards [hne (y i j) i j hj, hne 0 i j hj] with u hu h0
          rcases lt_or_gt_of_ne h0 with h | h
          · refine Or.inr ?_
            filter_upwards [(hz i j).continuousAt.eventually_lt_const h] with u' h'
            simp only [Act.fn]
            rw [max_eq_right h.le, max_eq_right h'.le]
          · refine Or.inl ?_
            simp only [Act.fn]
            rwa [max_eq_left h.le]
      filter_upwards [hrelu, hout] with u h1 h2
      exact ⟨⟨fun _ => h1, trivial⟩, h2⟩
    | cons d' ds' =>
      have h1 := ih n (q + 2) (fun u i j => f.fn (z u i j)) (fun p hp => hsub (by
        rw [coords, Finset.mem_union]
        exact Or.inr hp)) (fun i j => f.continuous.comp (hz i j)) (fun u p t hp => by
          funext i j
          have h2 : ∀ c, ofPoint (Function.update u p t) q c = ofPoint u q c := by
            intro c
            rw [ofPoint_update, if_neg]
            intro h
            rw [← h] at hp
            simp only at hp
            omega
          have h3 : ∀ c, ofPoint (Function.update u p t) (q + 1) c = ofPoint u (q + 1) c := by
            intro c
            rw [ofPoint_update, if_neg]
            intro h
            rw [← h] at hp
            simp only at hp
            omega
          simp only [z, affine_sum, hind u p t (by omega), h2, h3]) (by simp)
      filter_upwards [hrelu, h1] with u h1 h2
      exact ⟨⟨fun _ => h1, h2.1⟩, h2.2⟩

theorem ae_noKink (m k : Nat) (ds : List (Nat × Act)) (a y : Nat → Nat → ℝ) : ∀ᵐ u : Params k ds, NoKink m k ds a y u := by
  by_cases hds : ds = []
  · subst hds
    exact Filter.Eventually.of_forall fun u => ⟨trivial, fun i _ j _ => Or.inr (Filter.Eventually.of_forall fun _ => rfl)⟩
  · exact ae_relu m y ds k 0 (fun _ => a) (fun _ h => h) (fun _ _ => continuous_const) (fun _ _ _ _ => rfl) hds

/-- the steps that the program computes, on the space of parameters -/
noncomputable def direction (m k : Nat) (ds : List (Nat × Act)) (a y : Nat → Nat → ℝ) (u : Params k ds) : Params k ds := fun p =>
  lossTangent m k ds a y (ofPoint u) (unit p.1.1 p.1.2)

theorem shuffledDescend_point {m k : Nat} {ds : List (Nat × Act)} {a y : Nat → Nat → ℝ} (lr : ℝ) (u : Params k ds) :
    shuffledDescend lr m k ds a y (ofPoint u) = ofPoint (u - lr • direction m k ds a y u) := by
  funext q c
  have h1 : shuffledDescend lr m k ds a y (ofPoint u) q c = ofPoint u q c - lr * lossTangent m k ds a y (ofPoint u) (unit q c) := rfl
  rw [h1]
  by_cases hm : (q, c) ∈ coords k 0 ds
  · simp [ofPoint, hm, direction]
  · rw [lossTangent_outside a y _ hm]
    simp [ofPoint, hm]

theorem shuffledDescends_point {m k : Nat} {ds : List (Nat × Act)} {a y : Nat → Nat → ℝ} (lr : ℝ) (n : Nat) (u : Params k ds) :
    (shuffledDescend lr m k ds a y)^[n] (ofPoint u) = ofPoint ((fun u => u - lr • direction m k ds a y u)^[n] u) := by
  induction n generalizing u with
  | zero => rfl
  | succ n ih => rw [Function.iterate_succ_apply, Function.iterate_succ_apply, shuffledDescend_point, ih]

theorem direction_contDiffAt {m k : Nat} {ds : List (Nat × Act)} {a y : Nat → Nat → ℝ} {u : Params k ds} (hu : NoKink m k ds a y u) {n : WithTop ℕ∞} :
    ContDiffAt ℝ n (direction m k ds a y) u := by
  rw [contDiffAt_pi]
  exact fun p => lossTangent_contDiffAt hu _

/-- almost all learning rates, almost all parameters: no kink at any step -/
theorem ae_steps (m k : Nat) (ds : List (Nat × Act)) (a y : Nat → Nat → ℝ) :
    ∀ᵐ lr : ℝ, ∀ᵐ u : Params k ds, ∀ n, NoKink m k ds a y ((fun u => u - lr • direction m k ds a y u)^[n] u) := by
  filter_upwards [ae_regular volume (direction m k ds a y) {u | NoKink m k ds a y u}] with lr h1
  exact iterates_mem volume (O := {u | NoKink m k ds a y u}) (ae_noKink m k ds a y) (fun _ h => direction_contDiffAt h) h1

/-- where there are no kinks, training a small network is gradient descent -/
theorem noKink_descends {m k : Nat} {ds : List (Nat × Act)} {a y : Nat → Nat → ℝ} (hS : SmallNet m k ds) {lr : ℝ} : ∀ (n : Nat) (u : Params k ds),
    (∀ n, NoKink m k ds a y ((fun u => u - lr • direction m k ds a y u)^[n] u)) →
    descends lr (netLoss m k ds a y) n (ofPoint u) = (shuffledDescend lr m k ds a y)^[n] (ofPoint u) := by
  intro n
  induction n with
  | zero => intros; rfl
  | succ n ih =>
    intro u hu
    have h0 : NoKink m k ds a y u := hu 0
    rw [descends, ← noKink_step h0 hS, shuffledDescend_point, ih _ fun n => hu (n + 1), Function.iterate_succ_apply, shuffledDescend_point]

/-- for a layer without activation the direction is locally constant -/
theorem linear_direction {m k n : Nat} {a y : Nat → Nat → ℝ} {u : Params k [(n, .identity)]} (hu : NoKink m k [(n, .identity)] a y u) :
    fderiv ℝ (direction m k [(n, .identity)] a y) u = 0 := by
  have h1 : ∀ᶠ u' in nhds u, ∀ i ∈ Finset.range m, ∀ j ∈ Finset.range (lastWidth k [(n, .identity)]),
      (netValue k (layerFns (ofPoint u') 0 [(n, .identity)]) a i j < y i j ↔ netValue k (layerFns (ofPoint u) 0 [(n, .identity)]) a i j < y i j) := by
    rw [Filter.eventually_all_finset]
    intro i hi
    rw [Filter.eventually_all_finset]
    intro j hj
    exact sign_eventually hu (Finset.mem_range.1 hi) (Finset.mem_range.1 hj)
  have h2 : direction m k [(n, .identity)] a y =ᶠ[nhds u] fun _ => direction m k [(n, .identity)] a y u := by
    filter_upwards [h1] with u' h3
    funext p
    simp only [direction, lossTangent]
    refine Finset.sum_congr rfl fun i hi => Finset.sum_congr rfl fun j hj => ?_
    simp only [h3 i hi j hj, netTangent, Act.slope, shuffledMat, zero_mul]
  rw [h2.fderiv_eq, fderiv_fun_const]
  rfl

theorem linear_steps (m k n : Nat) (a y : Nat → Nat → ℝ) (lr : ℝ) : ∀ᵐ u : Params k [(n, .identity)], ∀ t,
    NoKink m k [(n, .identity)] a y ((fun u => u - lr • direction m k [(n, .identity)] a y u)^[t] u) := by
  refine iterates_mem volume (O := {u | NoKink m k [(n, .identity)] a y u}) (ae_noKink m k _ a y) (fun _ h => direction_contDiffAt h) ?_
  refine measure_mono_null (t := ∅) ?_ measure_empty
  rintro u ⟨hu, h1⟩
  have hu : NoKink m k [(n, .identity)] a y u := hu
  rw [linear_direction hu, smul_zero, sub_zero] at h1
  simp [ContinuousLinearMap.det] at h1

end RL
