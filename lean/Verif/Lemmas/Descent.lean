import Verif.Lemmas.TrainStep
import Mathlib.Analysis.Calculus.Deriv.Slope

/-! Helper lemmas: the loss of a network along a direction of the parameters -/

namespace RL

open Spec

/-- derivative of the output of a network in the direction `δ` of the parameters, where `a` is the input and `da` its derivative -/
noncomputable def netDiff (θ δ : Nat → Nat → ℝ) : Nat → Nat → List (Nat × Act) → (a da : Nat → Nat → ℝ) → Nat → Nat → ℝ
  | _, _, [], _, da => da
  | k, q, (n, f) :: ds, a, da =>
    let z := affine k a (fun i j => θ q (i * n + j)) (θ (q + 1))
    netDiff θ δ n (q + 2) ds (fun i j => f.fn (z i j)) fun i j => f.slope (z i j) *
      ((∑ kk ∈ Finset.range k, (da i kk * θ q (kk * n + j) + a i kk * δ q (kk * n + j))) + δ (q + 1) j)

theorem Spec.Act.hasDerivAt (f : Act) {x : ℝ} (hx : f = .relu → x ≠ 0) : HasDerivAt f.fn (f.slope x) x := by
  cases f with
  | identity => exact hasDerivAt_id x
  | tanh => exact hasDerivAt_tanh x
  | relu =>
    have hx := hx rfl
    simp only [Act.fn, Act.slope]
    rcases lt_or_gt_of_ne hx with h | h
    · rw [if_pos h]
      refine (hasDerivAt_const x (0 : ℝ)).congr_of_eventuallyEq ?_
      filter_upwards [eventually_lt_nhds h] with y hy
      exact max_eq_right hy.le
    · rw [if_neg h.not_gt]
      refine (hasDerivAt_id x).congr_of_eventuallyEq ?_
      filter_upwards [eventually_gt_nhds h] with y hy
      exact max_eq_left hy.le

/-- the parameters along a direction -/
def along (θ δ : Nat → Nat → ℝ) (t : ℝ) : Nat → Nat → ℝ := fun q c => θ q c + t * δ q c

theorem along_zero (θ δ : Nat → Nat → ℝ) : along θ δ 0 = θ := by
  funext q c
  simp [along]

theorem along_deriv (θ δ : Nat → Nat → ℝ) (q c : Nat) : HasDerivAt (fun t => along θ δ t q c) (δ q c) 0 := by
  simpa [along] using ((hasDerivAt_id (0 : ℝ)).mul_const (δ q c)).const_add (θ q c)

theorem netValue_deriv (m : Nat) (θ δ : Nat → Nat → ℝ) : ∀ (ds : List (Nat × Act)) (k q : Nat) (A : ℝ → Nat → Nat → ℝ) (da : Nat → Nat → ℝ),
    (∀ i < m, ∀ j < k, HasDerivAt (fun t => A t i j) (da i j) 0) → ReluSmooth m θ k q ds (A 0) →
    ∀ i < m, ∀ j < lastWidth k ds, HasDerivAt (fun t => netValue k (layerFns (along θ δ t) q ds) (A t) i j) (netDiff θ δ k q ds (A 0) da i j) 0 := by
  intro ds
  induction ds with
  | nil => exact fun k q A da hA _ => hA
  | cons d ds ih =>
    obtain ⟨n, f⟩ := d
    intro k q A da hA hK
    have hz : ∀ i < m, ∀ j < n, HasDerivAt
        (fun t => f.fn (affine k (A t) (fun i j => along θ δ t q (i * n + j)) (along θ δ t (q + 1)) i j))
        (f.slope (affine k (A 0) (fun i j => θ q (i * n + j)) (θ (q + 1)) i j) *
          ((∑ kk ∈ Finset.range k, (da i kk * θ q (kk * n + j) + A 0 i kk * δ q (kk * n + j))) + δ (q + 1) j)) 0 := by
      intro i hi j hj
      have h1 : HasDerivAt (fun t => affine k (A t) (fun i j => along θ δ t q (i * n + j)) (along θ δ t (q + 1)) i j)
          ((∑ kk ∈ Finset.range k, (da i kk * θ q (kk * n + j) + A 0 i kk * δ q (kk * n + j))) + δ (q + 1) j) 0 := by
        simp only [affine_sum]
        refine HasDerivAt.add (HasDerivAt.fun_sum fun kk hkk => ?_) (along_deriv θ δ (q + 1) j)
        have h2 := (hA i hi kk (Finset.mem_range.1 hkk)).mul (along_deriv θ δ q (kk * n + j))
        simp only [along_zero] at h2
        exact h2
      have h3 : HasDerivAt f.fn (f.slope (affine k (A 0) (fun i j => θ q (i * n + j)) (θ (q + 1)) i j))
          ((fun t => affine k (A t) (fun i j => along θ δ t q (i * n + j)) (along θ δ t (q + 1)) i j) 0) := by
        simp only [along_zero]
        exact f.hasDerivAt fun hf => hK.1 hf i hi j hj
      exact h3.comp 0 h1
    have h4 := ih n (q + 2) (fun t i j => f.fn (affine k (A t) (fun i j => along θ δ t q (i * n + j)) (along θ δ t (q + 1)) i j)) _ hz
      (by simpa only [along_zero] using hK.2)
    simp only [along_zero] at h4
    exact h4

/-- derivative of the loss in the direction `δ` -/
noncomputable def lossDiff (m k : Nat) (ds : List (Nat × Act)) (a y θ δ : Nat → Nat → ℝ) : ℝ :=
  ∑ i ∈ Finset.range m, ∑ j ∈ Finset.range (lastWidth k ds),
    (if netValue k (layerFns θ 0 ds) a i j < y i j then -1 else 1) * netDiff θ δ k 0 ds a (fun _ _ => 0) i j

theorem netLoss_deriv {m k : Nat} {ds : List (Nat × Act)} {a y θ : Nat → Nat → ℝ} (hK : Smooth m k ds a y θ) (δ : Nat → Nat → ℝ) :
    HasDerivAt (fun t => netLoss m k ds a y (along θ δ t)) (lossDiff m k ds a y θ δ) 0 := by
  refine HasDerivAt.fun_sum fun i hi => HasDerivAt.fun_sum fun j hj => ?_
  rw [Finset.mem_range] at hi hj
  have h1 := netValue_deriv m θ δ ds k 0 (fun _ => a) (fun _ _ => 0) (fun i _ j _ => hasDerivAt_const 0 (a i j)) hK.1 i hi j hj
  have h2 := h1.sub_const (y i j)
  have h3 := hK.2 i hi j hj
  rcases lt_or_gt_of_ne h3 with h | h
  · rw [if_pos h]
    have h4 : HasDerivAt (fun x : ℝ => |x|) (-1)
        ((fun t => netValue k (layerFns (along θ δ t) 0 ds) a i j - y i j) 0) := by
      simp only [along_zero]
      exact hasDerivAt_abs_neg (sub_neg.2 h)
    exact h4.comp 0 h2
  · rw [if_neg h.not_gt]
    have h4 : HasDerivAt (fun x : ℝ => |x|) 1
        ((fun t => netValue k (layerFns (along θ δ t) 0 ds) a i j - y i j) 0) := by
      simp only [along_zero]
      exact hasDerivAt_abs_pos (sub_pos.2 h)
    exact h4.comp 0 h2

/-! the derivative is linear in the direction -/

theorem netDiff_add (θ δ δ' : Nat → Nat → ℝ) : ∀ (ds : List (Nat × Act)) (k q : Nat) (a da da' : Nat → Nat → ℝ) (i j : Nat),
    netDiff θ (δ + δ') k q ds a (da + da') i j = netDiff θ δ k q ds a da i j + netDiff θ δ' k q ds a da' i j := by
  intro ds
  induction ds with
  | nil => intro k q a da da' i j; rfl
  | cons d ds ih =>
    intro k q a da da' i j
    simp only [netDiff]
    rw [← ih]
    congr 1
    funext i j
    simp only [Pi.add_apply, ← mul_add]
    congr 1
    rw [add_add_add_comm, ← Finset.sum_add_distrib]
    congr 1
    refine Finset.sum_congr rfl fun kk _ => ?_
    ring

theorem netDiff_smul (θ δ : Nat → Nat → ℝ) (s : ℝ) : ∀ (ds : List (Nat × Act)) (k q : Nat) (a da : Nat → Nat → ℝ) (i j : Nat),
    netDiff θ (s • δ) k q ds a (s • da) i j = s * netDiff θ δ k q ds a da i j := by
  intro ds
  induction ds with
  | nil => intro k q a da i j; rfl
  | cons d ds ih =>
    intro k q a da i j
    simp only [netDiff]
    rw [← ih]
    congr 1
    funext i j
    simp only [Pi.smul_apply, smul_eq_mul]
    rw [mul_left_comm, mul_add s, Finset.mul_sum]
    congr 2
    refine Finset.sum_congr rfl fun kk _ => ?_
    ring

/-- the derivative of the loss as a linear map -/
noncomputable def lossMap (m k : Nat) (ds : List (Nat × Act)) (a y θ : Nat → Nat → ℝ) : (Nat → Nat → ℝ) →ₗ[ℝ] ℝ where
  toFun := lossDiff m k ds a y θ
  map_add' δ δ' := by
    simp only [lossDiff, ← Finset.sum_add_distrib, ← mul_add]
    refine Finset.sum_congr rfl fun i _ => Finset.sum_congr rfl fun j _ => ?_
    rw [← netDiff_add]
    congr 2
    funext i j
    simp
  map_smul' s δ := by
    simp only [lossDiff, RingHom.id_apply, smul_eq_mul, Finset.mul_sum]
    refine Finset.sum_congr rfl fun i _ => Finset.sum_congr rfl fun j _ => ?_
    have h := netDiff_smul θ δ s ds k 0 a (fun _ _ => 0) i j
    have h0 : s • (fun _ _ => 0 : Nat → Nat → ℝ) = fun _ _ => 0 := by
      funext i j
      simp
    rw [h0] at h
    rw [h, mul_left_comm]

/-! only the coordinates of the network matter -/

theorem netDiff_congr (θ δ δ' : Nat → Nat → ℝ) : ∀ (ds : List (Nat × Act)) (k q : Nat) (a da da' : Nat → Nat → ℝ) (i : Nat),
    (∀ p ∈ coords k q ds, δ p.1 p.2 = δ' p.1 p.2) → (∀ j < k, da i j = da' i j) → ∀ j < lastWidth k ds,
    netDiff θ δ k q ds a da i j = netDiff θ δ' k q ds a da' i j := by
  intro ds
  induction ds with
  | nil => intro k q a da da' i _ h j hj; exact h j hj
  | cons d ds ih =>
    obtain ⟨n, f⟩ := d
    intro k q a da da' i hc h j hj
    simp only [netDiff]
    refine ih n (q + 2) _ _ _ i (fun p hp => hc p ?_) ?_ j hj
    · simp only [coords, Finset.mem_union]
      exact Or.inr hp
    · intro j' hj'
      have h1 : δ (q + 1) j' = δ' (q + 1) j' := hc (q + 1, j') (by
        simp only [coords, Finset.mem_union, Finset.mem_image, Finset.mem_range]
        exact Or.inl (Or.inr ⟨j', hj', rfl⟩))
      rw [h1]
      congr 2
      refine Finset.sum_congr rfl fun kk hkk => ?_
      rw [Finset.mem_range] at hkk
      have h2 : δ q (kk * n + j') = δ' q (kk * n + j') := hc (q, kk * n + j') (by
        simp only [coords, Finset.mem_union, Finset.mem_image, Finset.mem_range]
        exact Or.inl (Or.inl ⟨_, mul_add_lt hkk hj', rfl⟩))
      rw [h2, h kk hkk]

/-- a coordinate direction -/
def unit (q c : Nat) : Nat → Nat → ℝ := fun q' c' => if q' = q ∧ c' = c then 1 else 0

theorem lossDiff_expand (m k : Nat) (ds : List (Nat × Act)) (a y θ δ : Nat → Nat → ℝ) :
    lossDiff m k ds a y θ δ = ∑ p ∈ coords k 0 ds, δ p.1 p.2 * lossDiff m k ds a y θ (unit p.1 p.2) := by
  have h1 : lossDiff m k ds a y θ δ = lossDiff m k ds a y θ (∑ p ∈ coords k 0 ds, δ p.1 p.2 • unit p.1 p.2) := by
    refine Finset.sum_congr rfl fun i _ => Finset.sum_congr rfl fun j hj => ?_
    congr 1
    refine netDiff_congr θ _ _ ds k 0 a _ _ i (fun p hp => ?_) (fun _ _ => rfl) j (Finset.mem_range.1 hj)
    simp only [Finset.sum_apply, Pi.smul_apply, smul_eq_mul, unit]
    rw [Finset.sum_eq_single p]
    · simp
    · intro b _ hb
      rw [if_neg, mul_zero]
      rintro ⟨e1, e2⟩
      exact hb (Prod.ext e1.symm e2.symm)
    · exact fun h => absurd hp h
  rw [h1]
  change lossMap m k ds a y θ _ = _
  rw [map_sum]
  refine Finset.sum_congr rfl fun p _ => ?_
  rw [map_smul]
  rfl

theorem update_along (θ : Nat → Nat → ℝ) (q c : Nat) (z : ℝ) :
    Function.update θ q (Function.update (θ q) c z) = along θ (unit q c) (z - θ q c) := by
  funext q' c'
  simp only [along, unit]
  by_cases hq : q' = q
  · subst hq
    rw [Function.update_self]
    by_cases hc : c' = c
    · subst hc
      simp
    · simp [Function.update_of_ne hc, hc]
  · simp [Function.update_of_ne hq, hq]

/-- the partial derivatives of the loss -/
theorem netLoss_partial {m k : Nat} {ds : List (Nat × Act)} {a y θ : Nat → Nat → ℝ} (hK : Smooth m k ds a y θ) (q c : Nat) :
    HasDerivAt (fun z => netLoss m k ds a y (Function.update θ q (Function.update (θ q) c z))) (lossDiff m k ds a y θ (unit q c)) (θ q c) := by
  simp only [update_along]
  have h1 : HasDerivAt (fun t => netLoss m k ds a y (along θ (unit q c) t)) (lossDiff m k ds a y θ (unit q c)) ((fun z => z - θ q c) (θ q c)) := by
    simpa using netLoss_deriv hK (unit q c)
  have h2 := HasDerivAt.comp (h := fun z => z - θ q c) (θ q c) h1 ((hasDerivAt_id (θ q c)).sub_const (θ q c))
  rw [mul_one] at h2
  exact h2

/-- the gradient of the loss -/
noncomputable def gradient (m k : Nat) (ds : List (Nat × Act)) (a y θ : Nat → Nat → ℝ) : Nat → Nat → ℝ := fun q c =>
  deriv (fun z => netLoss m k ds a y (Function.update θ q (Function.update (θ q) c z))) (θ q c)

theorem descend_along (m k : Nat) (ds : List (Nat × Act)) (a y θ : Nat → Nat → ℝ) (lr : ℝ) :
    descend lr (netLoss m k ds a y) θ = along θ (-gradient m k ds a y θ) lr := by
  funext q c
  simp [descend, along, gradient, sub_eq_add_neg]

/-- the loss along the negative gradient -/
theorem descent_deriv {m k : Nat} {ds : List (Nat × Act)} {a y θ : Nat → Nat → ℝ} (hK : Smooth m k ds a y θ) :
    HasDerivAt (fun lr => netLoss m k ds a y (descend lr (netLoss m k ds a y) θ)) (-∑ p ∈ coords k 0 ds, gradient m k ds a y θ p.1 p.2 ^ 2) 0 := by
  simp only [descend_along]
  have h1 := netLoss_deriv hK (-gradient m k ds a y θ)
  rw [lossDiff_expand] at h1
  convert h1 using 1
  rw [← Finset.sum_neg_distrib]
  refine Finset.sum_congr rfl fun p _ => ?_
  rw [← (netLoss_partial hK p.1 p.2).deriv]
  simp only [Pi.neg_apply, gradient]
  ring

/-- a negative derivative: smaller values on the right -/
theorem less_of_deriv {f : ℝ → ℝ} {d : ℝ} (hf : HasDerivAt f d 0) (hd : d < 0) : ∃ η > 0, ∀ t, 0 < t → t < η → f t < f 0 := by
  have h1 := hasDerivAt_iff_tendsto_slope.1 hf
  have h2 := h1.eventually (eventually_lt_nhds hd)
  rw [eventually_nhdsWithin_iff, Metric.eventually_nhds_iff] at h2
  obtain ⟨η, hη, h3⟩ := h2
  refine ⟨η, hη, fun t h0 ht => ?_⟩
  have h4 := h3 (y := t) (by simpa [abs_of_pos h0] using ht) (by simpa using h0.ne')
  rw [slope_def_field, sub_zero] at h4
  have h5 := (div_neg_iff.1 h4)
  rcases h5 with ⟨_, h6⟩ | ⟨h6, _⟩
  · linarith
  · linarith

/-- a derivative that is not 0 belongs to a parameter of the network -/
theorem mem_coords {m k : Nat} {ds : List (Nat × Act)} {a y θ : Nat → Nat → ℝ} (hK : Smooth m k ds a y θ) {q c : Nat}
    (hd : gradient m k ds a y θ q c ≠ 0) : (q, c) ∈ coords k 0 ds := by
  by_contra hn
  apply hd
  rw [gradient, (netLoss_partial hK q c).deriv]
  have h1 : lossDiff m k ds a y θ (unit q c) = lossMap m k ds a y θ 0 := by
    refine Finset.sum_congr rfl fun i _ => Finset.sum_congr rfl fun j hj => ?_
    congr 1
    refine netDiff_congr θ _ _ ds k 0 a _ _ i (fun p hp => ?_) (fun _ _ => rfl) j (Finset.mem_range.1 hj)
    simp only [unit, Pi.zero_apply]
    rw [if_neg]
    rintro ⟨rfl, rfl⟩
    exact hn hp
  rw [h1, map_zero]

/-- the loss along the step that the program computes -/
theorem shuffled_deriv {m k : Nat} {ds : List (Nat × Act)} {a y θ : Nat → Nat → ℝ} (hK : Smooth m k ds a y θ) :
    HasDerivAt (fun lr => netLoss m k ds a y (shuffledDescend lr m k ds a y θ))
      (-∑ p ∈ coords k 0 ds, lossTangent m k ds a y θ (unit p.1 p.2) * gradient m k ds a y θ p.1 p.2) 0 := by
  have h0 : ∀ lr, shuffledDescend lr m k ds a y θ = along θ (fun q c => -lossTangent m k ds a y θ (unit q c)) lr := by
    intro lr
    funext q c
    simp only [shuffledDescend, along, mul_neg, ← sub_eq_add_neg]
    rfl
  simp only [h0]
  have h1 := netLoss_deriv hK (fun q c => -lossTangent m k ds a y θ (unit q c))
  rw [lossDiff_expand] at h1
  convert h1 using 1
  rw [← Finset.sum_neg_distrib]
  refine Finset.sum_congr rfl fun p _ => ?_
  rw [← (netLoss_partial hK p.1 p.2).deriv]
  simp only [gradient]
  ring

/-- the value of the loss that is computed -/
theorem loss_value {h : Heap ℝ} {mlp : Mlp ℝ} {x y m k : Nat} {ds : List (Nat × Act)} {a b θ : Nat → Nat → ℝ}
    (ht : Training h mlp x y m k ds a b θ) : ∃ h' l, trainLoss mlp h x y = .ok (h', l) ∧ dataOf h' l = some ⟨[netLoss m k ds a b θ], []⟩ := by
  obtain ⟨ns, l, r, ny, df, ab, e1, ⟨o1, e2⟩, hm, hw, hc, hl⟩ := loss_run ht
  refine ⟨_, _, e1, ?_⟩
  have hr := ht.reachable.run e2
  have hxl := ht.lt (s := x) (by simp)
  obtain ⟨_, lv, lg, hln, hls, lwf⟩ := hl.atL
  have hD := (loss_tree (S := False) (π := x) ht hm hw hc hl False.elim).realLoss hln hls lwf
  have hdf : Feeds (h ++ ns) df l := by
    obtain ⟨_, _, e3, _⟩ := hl.atAb
    exact Or.inr (Feeds.input (Or.inr (isInput_of hln rfl (by simp))) e3 rfl (by simp))
  have hrl : Feeds (h ++ ns) r l := by
    obtain ⟨_, _, e3, _⟩ := hl.atDf
    exact Or.inr (hdf.input e3 rfl (by simp))
  have hyl : Feeds (h ++ ns) y l := by
    obtain ⟨_, _, e3, _⟩ := hl.atDf
    obtain ⟨_, _, e4, _⟩ := hl.atNy
    exact Or.inr (Feeds.input (Or.inr (hdf.input e3 rfl (by simp))) e4 rfl (by simp))
  obtain ⟨xv, hx, mx⟩ := ht.input
  obtain ⟨yv, hy, my⟩ := ht.expected
  obtain ⟨V, hV⟩ := C29_exists (h ++ ns) l x hr hD (cell xv)
  have base := reeval_base hr.good hD hV fun v hv idx _ => by
    rw [dataOf_append hx] at hv
    cases hv
    rfl
  have hpv : ParamVals (h ++ ns) V θ k 0 mlp.layers ds := by
    refine paramVals_of ht.net.layers.append fun t s w hs hw' idx hi => ?_
    rw [Nat.zero_add]
    have hsl : Feeds (h ++ ns) s l := Or.inr (by
      have := hc.feeds.2 s (List.mem_of_getElem? hs)
      rcases hrl with rfl | h'
      · exact this
      · exact Relation.TransGen.trans this h')
    rw [base s w hsl hw' idx hi]
    obtain ⟨w', e1, e2, e3⟩ := layersAre_flat ht.net.layers.append (h := h ++ ns) t s hs
    rw [hw'] at e1
    cases e1
    have := e3 (rowMajor w.shape idx) (by rw [show w.array.length = w.shape.prod from e2]; exact rowMajor_lt hi)
    rw [Nat.zero_add] at this
    exact cell_elem this
  have h1 : V l [] = netLoss m k ds a b θ := by
    rw [hl.value hxl hV, netLoss]
    refine Finset.sum_congr rfl fun i hi => Finset.sum_congr rfl fun j hj => ?_
    rw [Finset.mem_range] at hi hj
    rw [hc.value hV hxl hrl hpv (a' := a) ?_ i hi j hj, base y yv hyl (dataOf_append hy) [i, j]
      (by rw [my.1]; exact inRange2.2 ⟨hi, hj⟩), cell_elem (my.2.2 i hi j hj)]
    intro i hi j hj
    rw [base x xv (hc.feeds.1.trans hrl) (dataOf_append hx) [i, j] (by rw [mx.1]; exact inRange2.2 ⟨hi, hj⟩), cell_elem (mx.2.2 i hi j hj)]
  have hd : dataOf (h ++ ns) l = some lv := by
    rw [dataOf_eq]
    exact ⟨_, hln, rfl⟩
  have h2 := base l lv (Or.inl rfl) hd [] (by rw [hls]; exact .nil)
  have h3 := elem_cell lwf (idx := []) (by rw [hls]; exact .nil)
  rw [hd]
  obtain ⟨arr, sh⟩ := lv
  simp only at hls
  subst hls
  rw [← h2, h1] at h3
  have h4 : arr.length = 1 := by simpa [WF] using lwf
  obtain ⟨v, rfl⟩ := List.length_eq_one_iff.1 h4
  simp only [Raw.elem?, rowMajor, List.getElem?_cons_zero, Option.some.injEq] at h3
  rw [h3]

end RL
