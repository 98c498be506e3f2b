import Verif.Lemmas.Generic
import Verif.Lemmas.TrainStart
import Mathlib.Analysis.Calculus.Deriv.Prod

/-!
# Property theorems: training from almost all parameters (C78)
-/

namespace RL

open Spec MeasureTheory

/-! ## almost all training runs meet no kink (C78) -/

/-- C78, full statement: whatever the learning rate, from almost all parameters (with respect to Lebesgue measure) every step of training
is a step of gradient descent, taken where the loss is differentiable. (Here for matrices of at most 32 elements; for larger ones already
the first step need not be one, see C50.) It is false: see `C78_false`. -/
def C78_statement : Prop :=
  ∀ (m k : Nat) (ds : List (Nat × Act)) (a b : Nat → Nat → ℝ), SmallNet m k ds → ∀ lr : ℝ, ∀ᵐ u : Params k ds,
    ∀ (h : Heap ℝ) (mlp : Mlp ℝ) (x y : Nat), Training h mlp x y m k ds a b (ofPoint u) → ∀ n, ∃ h' mlp', train mlp h x y lr n = .ok (h', mlp') ∧
      Training h' mlp' x y m k ds a b (descends lr (netLoss m k ds a b) n (ofPoint u)) ∧
      LossDifferentiable m k ds a b (descends lr (netLoss m k ds a b) n (ofPoint u))

/-- C78: all sizes, data and parameters do occur. -/
theorem C78_exists (m k : Nat) (ds : List (Nat × Act)) (a b : Nat → Nat → ℝ) (hm : 0 < m) (hk : 0 < k) (hd : ∀ d ∈ ds, 0 < d.1) (u : Params k ds) :
    ∃ h mlp x y, Training h mlp x y m k ds a b (ofPoint u) := ⟨_, _, _, _, training_exists m k ds a b _ hm hk hd⟩

/-- C78: from almost all parameters, the first step with any learning rate is a step of gradient descent, taken where the loss is
differentiable. This covers kinks of `relu` and of the loss, also outputs that are the expected ones on a set of positive measure.
Missing: matrices with more than 32 elements, for which it is false (C50), and further steps, see `C78_runs_partial`. -/
theorem C78_step_partial (m k : Nat) (ds : List (Nat × Act)) (a b : Nat → Nat → ℝ) (hS : SmallNet m k ds) : ∀ᵐ u : Params k ds,
    LossDifferentiable m k ds a b (ofPoint u) ∧
    ∀ (h : Heap ℝ) (mlp : Mlp ℝ) (x y : Nat), Training h mlp x y m k ds a b (ofPoint u) → ∀ lr, ∃ h' mlp', trainStep mlp h x y lr = .ok (h', mlp') ∧
      Training h' mlp' x y m k ds a b (descend lr (netLoss m k ds a b) (ofPoint u)) := by
  filter_upwards [ae_noKink m k ds a b] with u hu
  refine ⟨?_, fun h mlp x y ht lr => ?_⟩
  · rw [LossDifferentiable, toPoint_ofPoint]
    exact (netLoss_contDiffAt hu (n := 1)).differentiableAt one_ne_zero
  · rw [← noKink_step hu hS]
    exact C50_step_actual h mlp x y m k ds a b _ lr ht

/-- C78, for all sizes: for almost all learning rates and from almost all parameters, training never meets a kink: no step panics, and the
loss is differentiable at the parameters after every number of steps. -/
theorem C78_actual (m k : Nat) (ds : List (Nat × Act)) (a b : Nat → Nat → ℝ) : ∀ᵐ lr : ℝ, ∀ᵐ u : Params k ds,
    ∀ (h : Heap ℝ) (mlp : Mlp ℝ) (x y : Nat), Training h mlp x y m k ds a b (ofPoint u) → ∀ n, ∃ h' mlp' θ, train mlp h x y lr n = .ok (h', mlp') ∧
      Training h' mlp' x y m k ds a b θ ∧ LossDifferentiable m k ds a b θ := by
  filter_upwards [ae_steps m k ds a b] with lr hlr
  filter_upwards [hlr] with u hu h mlp x y ht n
  obtain ⟨h', mlp', e, ht'⟩ := C50_actual n h mlp x y m k ds a b _ lr ht
  refine ⟨h', mlp', _, e, ht', ?_⟩
  rw [shuffledDescends_point, LossDifferentiable, toPoint_ofPoint]
  exact (netLoss_contDiffAt (hu n) (n := 1)).differentiableAt one_ne_zero

/-- C78: for almost all learning rates, from almost all parameters every step of training is a step of gradient descent, taken where the loss
is differentiable. Missing: matrices with more than 32 elements, and exceptional learning rates; for both it is false. -/
theorem C78_runs_partial (m k : Nat) (ds : List (Nat × Act)) (a b : Nat → Nat → ℝ) (hS : SmallNet m k ds) : ∀ᵐ lr : ℝ, ∀ᵐ u : Params k ds,
    ∀ (h : Heap ℝ) (mlp : Mlp ℝ) (x y : Nat), Training h mlp x y m k ds a b (ofPoint u) → ∀ n, ∃ h' mlp', train mlp h x y lr n = .ok (h', mlp') ∧
      Training h' mlp' x y m k ds a b (descends lr (netLoss m k ds a b) n (ofPoint u)) ∧
      LossDifferentiable m k ds a b (descends lr (netLoss m k ds a b) n (ofPoint u)) := by
  filter_upwards [ae_steps m k ds a b] with lr hlr
  filter_upwards [hlr] with u hu h mlp x y ht n
  obtain ⟨h', mlp', e, ht'⟩ := C50_actual n h mlp x y m k ds a b _ lr ht
  rw [noKink_descends hS n u hu]
  refine ⟨h', mlp', e, ht', ?_⟩
  rw [shuffledDescends_point, LossDifferentiable, toPoint_ofPoint]
  exact (netLoss_contDiffAt (hu n) (n := 1)).differentiableAt one_ne_zero

/-- C78: for a layer without activation no learning rate is exceptional. -/
theorem C78_linear_partial (m k n : Nat) (a b : Nat → Nat → ℝ) (hS : SmallNet m k [(n, .identity)]) (lr : ℝ) : ∀ᵐ u : Params k [(n, .identity)],
    ∀ (h : Heap ℝ) (mlp : Mlp ℝ) (x y : Nat), Training h mlp x y m k [(n, .identity)] a b (ofPoint u) → ∀ t, ∃ h' mlp', train mlp h x y lr t = .ok (h', mlp') ∧
      Training h' mlp' x y m k [(n, .identity)] a b (descends lr (netLoss m k [(n, .identity)] a b) t (ofPoint u)) ∧
      LossDifferentiable m k [(n, .identity)] a b (descends lr (netLoss m k [(n, .identity)] a b) t (ofPoint u)) := by
  filter_upwards [linear_steps m k n a b lr] with u hu h mlp x y ht t
  obtain ⟨h', mlp', e, ht'⟩ := C50_actual t h mlp x y m k _ a b _ lr ht
  rw [noKink_descends hS t u hu]
  refine ⟨h', mlp', e, ht', ?_⟩
  rw [shuffledDescends_point, LossDifferentiable, toPoint_ofPoint]
  exact (netLoss_contDiffAt (hu t) (n := 1)).differentiableAt one_ne_zero

/-- C78, test: training of a network with a hidden `relu`, from any values of its 5 parameters. -/
example (u : Params 2 [(1, .relu), (1, .tanh)]) : SmallNet 3 2 [(1, .relu), (1, .tanh)] ∧ coords 2 0 [(1, .relu), (1, .tanh)] = {(0, 0), (0, 1), (1, 0), (2, 0), (3, 0)} ∧
    ∃ h mlp x y, Training h mlp x y 3 2 [(1, .relu), (1, .tanh)] (fun _ _ => 1) (fun _ _ => 1) (ofPoint u) :=
  ⟨by simp [SmallNet], by decide, C78_exists 3 2 _ _ _ (by omega) (by omega) (by simp) u⟩

/-! ### an exceptional learning rate -/

/-- C78: one input, a hidden `relu`, two outputs. -/
def C78_net : List (Nat × Act) := [(1, .relu), (2, .identity)]

theorem C78_value {θ : Nat → Nat → ℝ} (hz : 0 ≤ θ 0 0 + θ 1 0) (i j : Nat) :
    netValue 1 (layerFns θ 0 C78_net) (fun _ _ => 1) i j = (θ 0 0 + θ 1 0) * θ 2 j + θ 3 j := by
  simp [C78_net, layerFns, netValue, affine_sum, Act.fn, max_eq_left hz]

theorem C78_tangent {θ δ : Nat → Nat → ℝ} (hz : 0 < θ 0 0 + θ 1 0) (i j : Nat) :
    netDiff θ δ 1 0 C78_net (fun _ _ => 1) (fun _ _ => 0) i j = (δ 0 0 + δ 1 0) * θ 2 j + (θ 0 0 + θ 1 0) * δ 2 j + δ 3 j := by
  simp [C78_net, netDiff, affine_sum, Act.fn, Act.slope, max_eq_left hz.le, hz.not_gt]

/-- C78: a step where both outputs have the same sign -/
theorem C78_step {θ : Nat → Nat → ℝ} (hz : 0 < θ 0 0 + θ 1 0) (s : ℝ)
    (hs : ∀ j < 2, (if (θ 0 0 + θ 1 0) * θ 2 j + θ 3 j < 0 then -1 else 1) = s) :
    ∀ q c, shuffledDescend (1 / 2) 1 1 C78_net (fun _ _ => 1) (fun _ _ => 0) θ q c = θ q c - 1 / 2 * (s *
      (((unit q c 0 0 + unit q c 1 0) * θ 2 0 + (θ 0 0 + θ 1 0) * unit q c 2 0 + unit q c 3 0) +
      ((unit q c 0 0 + unit q c 1 0) * θ 2 1 + (θ 0 0 + θ 1 0) * unit q c 2 1 + unit q c 3 1))) := by
  intro q c
  change θ q c - 1 / 2 * lossTangent 1 1 C78_net (fun _ _ => 1) (fun _ _ => 0) θ (unit q c) = _
  rw [lossTangent_small (by simp [C78_net, SmallNet]), lossDiff]
  have hw : lastWidth 1 C78_net = 2 := rfl
  simp only [hw, Finset.sum_range_succ, Finset.sum_range_zero, zero_add, C78_value hz.le, C78_tangent hz]
  rw [hs 0 (by omega), hs 1 (by omega), ← mul_add]

/-- C78: starts for which training with learning rate 1/2 meets a kink after two steps -/
def C78_start : Set (Params 1 C78_net) := {u | 0 < ofPoint u 0 0 + ofPoint u 1 0 ∧ 0 < (ofPoint u 0 0 + ofPoint u 1 0) * ofPoint u 2 0 + ofPoint u 3 0 ∧
  0 < (ofPoint u 0 0 + ofPoint u 1 0) * ofPoint u 2 1 + ofPoint u 3 1 ∧
  ofPoint u 2 0 + ofPoint u 2 1 < ofPoint u 0 0 + ofPoint u 1 0 ∧
  (ofPoint u 0 0 + ofPoint u 1 0 - (ofPoint u 2 0 + ofPoint u 2 1)) * (ofPoint u 2 0 - (ofPoint u 0 0 + ofPoint u 1 0) / 2) + ofPoint u 3 0 - 1 / 2 < 0 ∧
  (ofPoint u 0 0 + ofPoint u 1 0 - (ofPoint u 2 0 + ofPoint u 2 1)) * (ofPoint u 2 1 - (ofPoint u 0 0 + ofPoint u 1 0) / 2) + ofPoint u 3 1 - 1 / 2 < 0 ∧
  ofPoint u 2 0 < ofPoint u 2 1 ∧ 0 < ofPoint u 3 0 ∧ ofPoint u 3 1 < 0}

theorem C78_start_open : IsOpen C78_start := by
  have h := ofPoint_continuous (k := 1) (ds := C78_net)
  unfold C78_start
  repeat' apply IsOpen.and
  all_goals exact isOpen_lt (by fun_prop) (by fun_prop)

theorem C78_start_nonempty : C78_start.Nonempty := by
  refine ⟨toPoint 1 C78_net fun q c => if q = 0 then 1 else if q = 1 then 0 else if q = 2 then (if c = 0 then -1 / 4 else 1 / 2) else
    if c = 0 then 1 else -1 / 4, ?_⟩
  have h : ∀ q c, (q, c) ∈ coords 1 0 C78_net → ∀ θ, ofPoint (toPoint 1 C78_net θ) q c = θ q c := by
    intro q c hm θ
    simp [ofPoint, toPoint, hm]
  simp only [C78_start, Set.mem_setOf_eq, h 0 0 (by decide), h 1 0 (by decide), h 2 0 (by decide), h 2 1 (by decide), h 3 0 (by decide), h 3 1 (by decide)]
  norm_num

theorem C78_noKink {u : Params 1 C78_net} (hz : 0 < ofPoint u 0 0 + ofPoint u 1 0)
    (hv : ∀ j < 2, (ofPoint u 0 0 + ofPoint u 1 0) * ofPoint u 2 j + ofPoint u 3 j ≠ 0) : NoKink 1 1 C78_net (fun _ _ => 1) (fun _ _ => 0) u := by
  refine ⟨⟨fun _ i _ j hj => ?_, by simp, trivial⟩, fun i _ j hj => Or.inl ?_⟩
  · obtain rfl : j = 0 := by omega
    simpa [affine_sum] using hz.ne'
  · rw [C78_value hz.le]
    exact hv j hj

/-- C78: the loss has a kink where the hidden value is 0 -/
theorem C78_kink {θ : Nat → Nat → ℝ} (hz : θ 0 0 + θ 1 0 = 0) (h2 : θ 2 0 + θ 2 1 = 0) (h20 : θ 2 0 < 0) (h30 : 0 < θ 3 0) (h31 : θ 3 1 < 0) :
    ¬ LossDifferentiable 1 1 C78_net (fun _ _ => 1) (fun _ _ => 0) θ := by
  intro hd
  have hline : HasDerivAt (fun t : ℝ => toPoint 1 C78_net (along θ (unit 1 0) t)) (toPoint 1 C78_net (unit 1 0)) 0 := by
    rw [hasDerivAt_pi]
    exact fun p => along_deriv θ (unit 1 0) _ _
  have h0 : toPoint 1 C78_net (along θ (unit 1 0) 0) = toPoint 1 C78_net θ := by rw [along_zero]
  unfold LossDifferentiable at hd
  rw [← h0] at hd
  have h1 := (hd.hasFDerivAt.comp_hasDerivAt 0 hline)
  have hfun : ((fun u : Params 1 C78_net => netLoss 1 1 C78_net (fun _ _ => 1) (fun _ _ => 0) (ofPoint u)) ∘ fun t : ℝ => toPoint 1 C78_net (along θ (unit 1 0) t)) =
      fun t => |max t 0 * θ 2 0 + θ 3 0| + |max t 0 * θ 2 1 + θ 3 1| := by
    funext t
    simp only [Function.comp_apply, netLoss_point]
    have hw : lastWidth 1 C78_net = 2 := rfl
    simp only [netLoss, hw, Finset.sum_range_succ, Finset.sum_range_zero, zero_add]
    simp only [C78_net, layerFns, netValue, affine_sum, Act.fn, along, unit]
    simp [← add_assoc, hz]
  rw [hfun] at h1
  generalize ((fderiv ℝ (fun u : Params 1 C78_net => netLoss 1 1 C78_net (fun _ _ => 1) (fun _ _ => 0) (ofPoint u)) _)
    (toPoint 1 C78_net (unit 1 0))) = D at h1
  have hl : HasDerivWithinAt (fun _ : ℝ => |θ 3 0| + |θ 3 1|) D (Set.Iic 0) 0 := by
    refine h1.hasDerivWithinAt.congr (fun t ht => ?_) ?_
    · rw [max_eq_right ht]
      simp
    · simp
  have hD0 : D = 0 := (uniqueDiffOn_Iic (0 : ℝ) 0 (by simp)).eq_deriv _ hl (hasDerivWithinAt_const _ _ _)
  have hr : HasDerivWithinAt (fun t : ℝ => (t * θ 2 0 + θ 3 0) + -(t * θ 2 1 + θ 3 1)) D (Set.Ici 0) 0 := by
    refine h1.hasDerivWithinAt.congr_of_eventuallyEq ?_ ?_
    · have e1 : ∀ᶠ t : ℝ in nhds 0, 0 < t * θ 2 0 + θ 3 0 := by
        exact ((by fun_prop : Continuous fun t : ℝ => t * θ 2 0 + θ 3 0).tendsto 0).eventually_const_lt (by simpa using h30)
      have e2 : ∀ᶠ t : ℝ in nhds 0, t * θ 2 1 + θ 3 1 < 0 := by
        exact ((by fun_prop : Continuous fun t : ℝ => t * θ 2 1 + θ 3 1).tendsto 0).eventually_lt_const (by simpa using h31)
      filter_upwards [self_mem_nhdsWithin, mem_nhdsWithin_of_mem_nhds e1, mem_nhdsWithin_of_mem_nhds e2] with t h0 h3 h4
      rw [max_eq_left h0, abs_of_pos h3, abs_of_neg h4]
    · simp [abs_of_pos h30, abs_of_neg h31]
  have hr' : HasDerivAt (fun t : ℝ => (t * θ 2 0 + θ 3 0) + -(t * θ 2 1 + θ 3 1)) (1 * θ 2 0 + -(1 * θ 2 1)) 0 :=
    (((hasDerivAt_id (0 : ℝ)).mul_const _).add_const _).add (((hasDerivAt_id (0 : ℝ)).mul_const _).add_const _).neg
  have hD : D = 1 * θ 2 0 + -(1 * θ 2 1) := (uniqueDiffOn_Ici (0 : ℝ) 0 (by simp)).eq_deriv _ hr hr'.hasDerivWithinAt
  rw [hD0] at hD
  linarith

/-- C78 is false: for the learning rate 1/2 and a network with one hidden `relu` and two outputs, all starts in an open set lead in two
steps to parameters for which the hidden value is exactly 0, where the loss is not differentiable. -/
theorem C78_false : ¬ C78_statement := by
  intro H
  have h1 := H 1 1 C78_net (fun _ _ => 1) (fun _ _ => 0) (by simp [C78_net, SmallNet]) (1 / 2)
  have h2 := Measure.dense_of_ae h1
  obtain ⟨u, hu, hP⟩ := h2.inter_open_nonempty _ C78_start_open C78_start_nonempty
  obtain ⟨c1, c2, c3, c4, c5, c6, c7, c8, c9⟩ := hu
  obtain ⟨_, _, _, _, hd⟩ := hP _ _ _ _ (training_exists 1 1 C78_net (fun _ _ => 1) (fun _ _ => 0) _ (by omega) (by omega) (by simp [C78_net])) 2
  have hS : SmallNet 1 1 C78_net := by simp [C78_net, SmallNet]
  have lt2 : ∀ {P : Nat → Prop}, P 0 → P 1 → ∀ j < 2, P j := by
    intro P p0 p1 j hj
    have : j = 0 ∨ j = 1 := by omega
    rcases this with rfl | rfl <;> assumption
  have s1 := C78_step c1 1 (lt2 (if_neg c2.not_gt) (if_neg c3.not_gt))
  rw [descends, ← noKink_step (C78_noKink c1 (lt2 c2.ne' c3.ne')) hS, shuffledDescend_point] at hd
  rw [shuffledDescend_point] at s1
  generalize u - (1 / 2 : ℝ) • direction 1 1 C78_net (fun _ _ => 1) (fun _ _ => 0) u = v at hd s1
  have a00 := s1 0 0
  have a10 := s1 1 0
  have a20 := s1 2 0
  have a21 := s1 2 1
  have a30 := s1 3 0
  have a31 := s1 3 1
  simp [unit, -one_div] at a00 a10 a20 a21 a30 a31
  have z1 : ofPoint v 0 0 + ofPoint v 1 0 = ofPoint u 0 0 + ofPoint u 1 0 - (ofPoint u 2 0 + ofPoint u 2 1) := by
    rw [a00, a10]
    ring
  have d1 : 0 < ofPoint v 0 0 + ofPoint v 1 0 := by
    rw [z1]
    linarith
  have d2 : (ofPoint v 0 0 + ofPoint v 1 0) * ofPoint v 2 0 + ofPoint v 3 0 < 0 := by
    rw [z1, a20, a30]
    refine lt_of_eq_of_lt ?_ c5
    ring
  have d3 : (ofPoint v 0 0 + ofPoint v 1 0) * ofPoint v 2 1 + ofPoint v 3 1 < 0 := by
    rw [z1, a21, a31]
    refine lt_of_eq_of_lt ?_ c6
    ring
  have s2 := C78_step d1 (-1) (lt2 (if_pos d2) (if_pos d3))
  rw [descends, ← noKink_step (C78_noKink d1 (lt2 d2.ne d3.ne)) hS, descends] at hd
  have b00 := s2 0 0
  have b10 := s2 1 0
  have b20 := s2 2 0
  have b21 := s2 2 1
  have b30 := s2 3 0
  have b31 := s2 3 1
  simp [unit, -one_div] at b00 b10 b20 b21 b30 b31
  refine C78_kink ?_ ?_ ?_ ?_ ?_ hd <;> simp only [b00, b10, b20, b21, b30, b31, a00, a10, a20, a21, a30, a31] <;> linarith

end RL
