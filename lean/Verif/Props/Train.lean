import Verif.Lemmas.TrainStep

/-!
# Property theorems: training (C50)
-/

namespace RL

open Spec

/-! ## training steps are steps of gradient descent (C50) -/

/-- C50, full statement. It is false: see `C50_false`. -/
def C50_statement : Prop :=
  ∀ (h : Heap ℝ) (mlp : Mlp ℝ) (x y m k : Nat) (ds : List (Nat × Act)) (a b θ : Nat → Nat → ℝ) (lr : ℝ),
    Training h mlp x y m k ds a b θ → Smooth m k ds a b θ →
    ∃ h' mlp', trainStep mlp h x y lr = .ok (h', mlp') ∧ NetIs h' mlp' k ds (descend lr (netLoss m k ds a b) θ)

/-- C50: whatever the sizes, the element type and the state before: after a training step that succeeds, the input, the expected output
and the new parameters (which exist) have no gradient. -/
theorem C50_zeroed {T : Type} [Zero T] [One T] [Add T] [Mul T] [Sub T] [Neg T] [LT T] [DecidableLT T] [LE T] [DecidableLE T] [RealFn T]
    (mlp mlp' : Mlp T) (h h' : Heap T) (x y : Nat) (lr : T) (e : trainStep mlp h x y lr = .ok (h', mlp')) :
    gradOf h' x = none ∧ gradOf h' y = none ∧ ∀ p ∈ mlp'.params, (∃ v, dataOf h' p = some v) ∧ gradOf h' p = none := by
  simp only [trainStep, R.bind_eq_ok, Heap.leaf, Heap.alloc, zeroGrad, Heap.node_eq_ok, R.pure_eq_ok, Prod.exists] at e
  obtain ⟨h1, l, _, h2, _, h3, mlp3, e3, h4, ⟨ny, hy, rfl⟩, h5, ⟨nx, hx, rfl⟩, e6⟩ := e
  simp only [Prod.mk.injEq] at e6
  obtain ⟨rfl, rfl⟩ := e6
  obtain ⟨_, hq⟩ := sgdParams_inv (sgdStep_inv e3)
  have zero : ∀ (k : Heap T) (t u : Nat) (n : Node T), k[t]? = some n → (u = t ∨ ∃ w, k[u]? = some w ∧ w.grad = none) →
      ∃ w, (k.set t { n with grad := none })[u]? = some w ∧ w.grad = none := by
    intro k t u n hn hu
    rcases eq_or_ne u t with rfl | hne
    · exact ⟨_, by rw [List.getElem?_set_self (getElem?_lt hn)], rfl⟩
    · obtain ⟨w, hw, hg⟩ := hu.resolve_left hne
      exact ⟨w, by rw [List.getElem?_set_ne hne.symm]; exact hw, hg⟩
  have done : ∀ (k : Heap T) (u : Nat), (∃ w, k[u]? = some w ∧ w.grad = none) → (∃ v, dataOf k u = some v) ∧ gradOf k u = none := by
    rintro k u ⟨w, hw, hg⟩
    exact ⟨⟨w.val, by simp [dataOf, hw]⟩, by simp [gradOf, hw, hg]⟩
  refine ⟨(done _ _ (zero _ _ _ _ hx (.inl rfl))).2, (done _ _ (zero _ _ _ _ hx (.inr (zero _ _ _ _ hy (.inl rfl))))).2, fun p hp => ?_⟩
  refine done _ _ (zero _ _ _ _ hx (.inr (zero _ _ _ _ hy (.inr ?_))))
  obtain ⟨i, hi, rfl⟩ := List.mem_iff_getElem.1 hp
  obtain ⟨_, v, m, hv⟩ := List.Forall₂.get hq (by rw [hq.length_eq]; exact hi) hi
  exact ⟨_, hv, rfl⟩

attribute [local instance] Test.intFn in
/-- C50, test: a step that succeeds; the old parameters have gradients afterwards. -/
example : (do
    let h ← runOps [] [Op.new [1, 2] [1, 2], .new [3, 4] [2, 1], .new [5] [1], .new [20] [1, 1]]
    let (h, mlp) ← trainStep (⟨[Linear.new 1 2 none]⟩ : Mlp Int) h 0 3 10
    return [gradOf h 0, gradOf h 3, gradOf h 1] ++ mlp.params.map (dataOf h) ++ mlp.params.map (gradOf h)) =
    (.ok [none, none, some ⟨[-1, -2], [2, 1]⟩, some ⟨[13, 24], [2, 1]⟩, some ⟨[15], [1]⟩, none, none] : R (List (Option (Raw Int)))) := by
  decide +kernel

/-- C50: one step of the training loop, for a network of any depth and activations, away from kinks. It succeeds and replaces every
parameter coordinate `p` by `p - lr * dLoss/dp`, where these derivatives exist; the result is ready for the next step.
Missing: matrices with more than 32 elements (`SmallNet`); for these it is false. -/
theorem C50_step_partial (h : Heap ℝ) (mlp : Mlp ℝ) (x y m k : Nat) (ds : List (Nat × Act)) (a b θ : Nat → Nat → ℝ) (lr : ℝ)
    (ht : Training h mlp x y m k ds a b θ) (hK : Smooth m k ds a b θ) (hS : SmallNet m k ds) :
    ∃ h' mlp', trainStep mlp h x y lr = .ok (h', mlp') ∧ Training h' mlp' x y m k ds a b (descend lr (netLoss m k ds a b) θ) ∧
      ∀ t p v, mlp.params[t]? = some p → dataOf h p = some v → ∀ c < v.array.length,
        DifferentiableAt ℝ (fun z => netLoss m k ds a b (Function.update θ t (Function.update (θ t) c z))) (θ t c) := by
  obtain ⟨h', mlp', e1, hr, hf, hact, hready, hp⟩ := step_run ht lr
  refine ⟨h', mlp', e1, step_training ht hr hf hact hready ?_, ?_⟩
  · intro t p q hpt hqt
    obtain ⟨v, g, e2, e3, wv, wg, hs, _, hD⟩ := hp t p q hpt hqt
    refine ⟨v, _, e2, e3, rfl, sgdUpdate_wf wv wg hs, fun c hc => ?_⟩
    have hc' : c < v.array.length := by
      simp only [sgdUpdate, List.length_zipWith] at hc
      omega
    obtain ⟨D, h1, h2⟩ := hD hK hS c hc'
    obtain ⟨v', e4, _, e5⟩ := layersAre_flat ht.net.layers t p hpt
    rw [e2] at e4
    cases e4
    have h3 := e5 c hc'
    rw [Nat.zero_add] at h3
    rw [C47_sub]
    simp only [List.getElem?_zipWith, h2, h3, descend, h1.deriv]
  · intro t p v hpt hv c hc
    have hql : t < mlp'.params.length := by
      have h1 : ∀ M : Mlp ℝ, M.params.length = 2 * M.layers.length := by
        rintro ⟨ls⟩
        induction ls with
        | nil => rfl
        | cons l ls ih => rw [(C46_params _ _).2]; simp at ih ⊢; omega
      have h2 := (List.getElem?_eq_some_iff.1 hpt).1
      have h3 := congrArg List.length hact
      simp only [List.length_map] at h3
      rw [h1] at h2 ⊢
      omega
    obtain ⟨v', g, e2, _, _, _, _, _, hD⟩ := hp t p _ hpt (List.getElem?_eq_getElem hql)
    rw [hv] at e2
    cases e2
    obtain ⟨D, h1, _⟩ := hD hK hS c hc
    exact h1.differentiableAt

/-- C50: the training loop computes the iterates of gradient descent, as long as they stay away from kinks. -/
theorem C50_loop_partial (n : Nat) (h : Heap ℝ) (mlp : Mlp ℝ) (x y m k : Nat) (ds : List (Nat × Act)) (a b θ : Nat → Nat → ℝ) (lr : ℝ)
    (ht : Training h mlp x y m k ds a b θ) (hK : ∀ i < n, Smooth m k ds a b (descends lr (netLoss m k ds a b) i θ)) (hS : SmallNet m k ds) :
    ∃ h' mlp', train mlp h x y lr n = .ok (h', mlp') ∧ Training h' mlp' x y m k ds a b (descends lr (netLoss m k ds a b) n θ) := by
  induction n generalizing h mlp θ with
  | zero => exact ⟨h, mlp, rfl, ht⟩
  | succ n ih =>
    obtain ⟨h1, mlp1, e1, ht1, _⟩ := C50_step_partial h mlp x y m k ds a b θ lr ht (hK 0 (by omega)) hS
    obtain ⟨h2, mlp2, e2, ht2⟩ := ih h1 mlp1 _ ht1 fun i hi => hK (i + 1) (by omega)
    exact ⟨h2, mlp2, by simp only [train, e1, R.bind_ok, e2], ht2⟩

/-- C50, what is computed in all cases: for all sizes, and also at kinks, a training step succeeds and is a step of gradient descent with
the derivative that has shuffled factors in matrix products. -/
theorem C50_step_actual (h : Heap ℝ) (mlp : Mlp ℝ) (x y m k : Nat) (ds : List (Nat × Act)) (a b θ : Nat → Nat → ℝ) (lr : ℝ)
    (ht : Training h mlp x y m k ds a b θ) :
    ∃ h' mlp', trainStep mlp h x y lr = .ok (h', mlp') ∧ Training h' mlp' x y m k ds a b (shuffledDescend lr m k ds a b θ) := by
  obtain ⟨h', mlp', e1, hr, hf, hact, hready, hp⟩ := step_run ht lr
  refine ⟨h', mlp', e1, step_training ht hr hf hact hready ?_⟩
  intro t p q hpt hqt
  obtain ⟨v, g, e2, e3, wv, wg, hs, hD, _⟩ := hp t p q hpt hqt
  refine ⟨v, _, e2, e3, rfl, sgdUpdate_wf wv wg hs, fun c hc => ?_⟩
  have hc' : c < v.array.length := by
    simp only [sgdUpdate, List.length_zipWith] at hc
    omega
  have h2 := hD c hc'
  obtain ⟨v', e4, _, e5⟩ := layersAre_flat ht.net.layers t p hpt
  rw [e2] at e4
  cases e4
  have h3 := e5 c hc'
  rw [Nat.zero_add] at h3
  rw [C47_sub]
  simp only [List.getElem?_zipWith, h2, h3, shuffledDescend]

/-- C50: for all sizes, and also at kinks, no step of the training loop panics, and it computes the iterates of `shuffledDescend`. -/
theorem C50_actual (n : Nat) (h : Heap ℝ) (mlp : Mlp ℝ) (x y m k : Nat) (ds : List (Nat × Act)) (a b θ : Nat → Nat → ℝ) (lr : ℝ)
    (ht : Training h mlp x y m k ds a b θ) :
    ∃ h' mlp', train mlp h x y lr n = .ok (h', mlp') ∧ Training h' mlp' x y m k ds a b ((shuffledDescend lr m k ds a b)^[n] θ) := by
  induction n generalizing h mlp θ with
  | zero => exact ⟨h, mlp, rfl, ht⟩
  | succ n ih =>
    obtain ⟨h1, mlp1, e1, ht1⟩ := C50_step_actual h mlp x y m k ds a b θ lr ht
    obtain ⟨h2, mlp2, e2, ht2⟩ := ih h1 mlp1 _ ht1
    exact ⟨h2, mlp2, by simp only [train, e1, R.bind_ok, e2], ht2⟩

/-- C50: tensors without history and gradient are ready for training. -/
theorem C50_fresh (h : Heap ℝ) (x y : Nat) (ps : List Nat) (hn : ps.Nodup) (hx : x ∉ ps) (hy : y ∉ ps)
    (hs : ∀ s ∈ x :: y :: ps, ∃ v, dataOf h s = some v ∧ WF v ∧ Pos v.shape ∧ historyOf h s = some none ∧ gradOf h s = none) :
    Ready h x y ps := by
  have noanc : ∀ s ∈ x :: y :: ps, ∀ i, ¬ Ancestor h i s := by
    intro s hs' i hi
    obtain ⟨c, _, n, d, hn', hd, _⟩ := Relation.TransGen.tail'_iff.1 hi
    obtain ⟨v, _, _, _, hh, _⟩ := hs s hs'
    rw [historyOf_node hn', hd] at hh
    cases hh
  refine ⟨hn, fun p hp => ⟨fun h' => hx (h' ▸ hp), fun h' => hy (h' ▸ hp), ?_, fun s hs' => noanc s hs' p⟩, ?_⟩
  · obtain ⟨v, _, _, _, _, hg⟩ := hs p (by simp [hp])
    exact hg
  · intro s hs' i v hi hv
    rcases hi with rfl | hi
    · obtain ⟨v', h1, h2, h3, h4, h5⟩ := hs i hs'
      rw [hv] at h1
      cases h1
      refine ⟨h2, h3, ?_, ?_⟩
      · rw [h5]
        intro g hg
        cases hg
      · rw [h4]
        intro d hd
        cases hd
    · exact absurd hi (noanc s hs' i)

/-! ### witness and tests -/

noncomputable section

theorem acts_code (f : Act) : Acts f.code f.fn := by
  intro h t v hv wv _
  obtain ⟨n, hn, rfl⟩ := dataOf_eq.1 hv
  obtain ⟨ns, r, h1, h2, _⟩ := act_run f hn wv
  exact ⟨_, r, h1, h2, ns, rfl⟩

/-- C50: an input row of 32 zeros and a one, weights and bias 0, the expected output 1. -/
def C50_start : Heap ℝ :=
  [leafNode ⟨List.replicate 32 0 ++ [1], [1, 33]⟩, leafNode ⟨List.replicate 33 0, [33, 1]⟩, leafNode ⟨[0], [1]⟩, leafNode ⟨[1], [1, 1]⟩]

/-- C50: a network with 33 inputs and one output. -/
def C50_net : Mlp ℝ := ⟨[⟨1, 2, Activation.identity⟩]⟩

theorem C50_training : Training C50_start C50_net 0 3 1 33 [(1, .identity)] (fun _ j => if j = 32 then 1 else 0) (fun _ _ => 1) (fun _ _ => 0) := by
  refine ⟨⟨[.new (List.replicate 32 0 ++ [1]) [1, 33], .new (List.replicate 33 0) [33, 1], .new [0] [1], .new [1] [1, 1]], rfl⟩,
    ⟨⟨⟨by decide, acts_code .identity, _, _, rfl, rfl, ?_, ?_⟩, trivial⟩, rfl⟩, ⟨_, rfl, ?_⟩, ⟨_, rfl, ?_⟩, ?_⟩
  · refine ⟨rfl, by simp [WF, leafNode], fun i hi j hj => ?_⟩
    have hj' : j < 1 := hj
    obtain rfl : j = 0 := by omega
    simp only [Raw.elem?, leafNode, rowMajor_pair, List.getElem?_replicate]
    rw [if_pos (by omega)]
  · refine ⟨Or.inl rfl, rfl, fun j hj => ?_⟩
    have hj' : j < 1 := hj
    obtain rfl : j = 0 := by omega
    rfl
  · refine ⟨rfl, by simp [WF, leafNode], fun i hi j hj => ?_⟩
    obtain rfl : i = 0 := by omega
    simp only [Raw.elem?, leafNode, rowMajor_pair, Nat.zero_mul, Nat.zero_add]
    exact C29_B j hj
  · refine ⟨rfl, rfl, fun i hi j hj => ?_⟩
    have hj' : j < 1 := hj
    obtain rfl : i = 0 := by omega
    obtain rfl : j = 0 := by omega
    rfl
  · refine C50_fresh _ _ _ _ (by decide) (by decide) (by decide) ?_
    intro s hs
    have : s = 0 ∨ s = 3 ∨ s = 1 ∨ s = 2 := by simpa [Mlp.params, C50_net, Linear.params] using hs
    rcases this with rfl | rfl | rfl | rfl <;>
      exact ⟨_, rfl, by simp [WF, leafNode], by simp [Pos, leafNode], rfl, rfl⟩

/-- C50 is false: for a layer with 33 weights, the wrong weight is changed. -/
theorem C50_false : ¬ C50_statement := by
  intro H
  have ht := C50_training
  obtain ⟨h1, mlp1, e1, net1⟩ := H _ _ _ _ _ _ _ _ _ _ 1 ht (by
    refine ⟨⟨by simp, trivial⟩, fun i _ j _ => ?_⟩
    simp [layerFns, netValue, affine_sum, Act.fn])
  obtain ⟨h2, mlp2, e2, ht2⟩ := C50_step_actual _ _ _ _ _ _ _ _ _ _ 1 ht
  rw [e1] at e2
  cases e2
  have net2 := ht2.net
  obtain ⟨l1, -⟩ := net1
  obtain ⟨l2, -⟩ := net2
  obtain ⟨ls⟩ := mlp1
  cases ls with
  | nil => exact l1.elim
  | cons l ls =>
    obtain ⟨⟨_, _, w, _, hw, _, mw, _⟩, _⟩ := l1
    obtain ⟨⟨_, _, w', _, hw', _, mw', _⟩, _⟩ := l2
    rw [hw] at hw'
    cases hw'
    have c1 := mw.2.2 0 (by omega) 0 (by simp)
    have c2 := mw'.2.2 0 (by omega) 0 (by simp)
    rw [c1] at c2
    have c3 := Option.some.inj c2
    simp only [Nat.zero_mul, Nat.add_zero, descend, shuffledDescend, one_mul] at c3
    have d0 : (fun z : ℝ => netLoss 1 33 [(1, .identity)] (fun _ j => if j = 32 then 1 else 0) (fun _ _ => 1)
        (Function.update (fun _ _ => 0) 0 (Function.update (fun _ => 0) 0 z))) = fun _ => 1 := by
      funext z
      simp only [netLoss, lastWidth, layerFns, netValue, affine_sum, Act.fn, Finset.range_one, Finset.sum_singleton, id]
      rw [Finset.sum_eq_zero]
      · simp
      · intro j _
        by_cases hj : j = 32 <;> simp [hj]
    rw [d0, deriv_const] at c3
    have d1 : lossTangent 1 33 [(1, .identity)] (fun _ j => if j = 32 then 1 else 0) (fun _ _ => 1) (fun _ _ => 0)
        (fun q' c' => if q' = 0 ∧ c' = 0 then 1 else 0) = -1 := by
      simp only [lossTangent, lastWidth, layerFns, netValue, netTangent, affine_sum, Act.fn, Act.slope, Finset.range_one, Finset.sum_singleton, id]
      rw [Finset.sum_eq_zero (by intros; simp), Finset.sum_eq_single 32]
      · have : shuffle (33 * 1) (32 * 1 + 0) = 0 := by decide
        simp [shuffledMat, this]
      · intro j _ hj
        simp [hj]
      · simp
    rw [d1] at c3
    norm_num at c3

/-- C50, test: a network with two layers, `relu` and `tanh`. -/
def C50_example : Heap ℝ :=
  [leafNode ⟨[1], [1, 1]⟩, leafNode ⟨[2], [1, 1]⟩, leafNode ⟨[0], [1]⟩, leafNode ⟨[1], [1, 1]⟩, leafNode ⟨[0], [1, 1]⟩, leafNode ⟨[3], [1, 1]⟩]

/-- C50, test: the hypotheses of `C50_step_partial` are satisfied. -/
example : Training C50_example ⟨[⟨1, 2, reluT⟩, ⟨3, 4, tanhT⟩]⟩ 0 5 1 1 [(1, .relu), (1, .tanh)] (fun _ _ => 1) (fun _ _ => 3)
      (fun q _ => if q = 0 then 2 else if q = 2 then 1 else 0) ∧
    Smooth 1 1 [(1, .relu), (1, .tanh)] (fun _ _ => 1) (fun _ _ => 3) (fun q _ => if q = 0 then 2 else if q = 2 then 1 else 0) ∧
    SmallNet 1 1 [(1, .relu), (1, .tanh)] := by
  have mat : ∀ c : ℝ, Matrix (⟨[c], [1, 1]⟩ : Raw ℝ) 1 1 (fun _ _ => c) := by
    intro c
    refine ⟨rfl, rfl, fun i hi j hj => ?_⟩
    obtain rfl : i = 0 := by omega
    obtain rfl : j = 0 := by omega
    rfl
  refine ⟨⟨⟨[.new [1] [1, 1], .new [2] [1, 1], .new [0] [1], .new [1] [1, 1], .new [0] [1, 1], .new [3] [1, 1]], rfl⟩,
    ⟨⟨⟨by decide, acts_code .relu, _, _, rfl, rfl, by simpa [leafNode] using mat 2, Or.inl rfl, rfl, ?_⟩, ⟨by decide, acts_code .tanh, _, _, rfl, rfl,
      by simpa [leafNode] using mat 1, Or.inr rfl, rfl, ?_⟩, trivial⟩, rfl⟩, ⟨_, rfl, mat 1⟩, ⟨_, rfl, mat 3⟩, ?_⟩, ⟨⟨?_, ?_, trivial⟩, ?_⟩, ?_⟩
  · intro j hj
    obtain rfl : j = 0 := by simpa using hj
    simp [leafNode]
  · intro j hj
    obtain rfl : j = 0 := by simpa using hj
    simp [leafNode]
  · refine C50_fresh _ _ _ _ (by decide) (by decide) (by decide) ?_
    intro s hs
    have : s = 0 ∨ s = 5 ∨ s = 1 ∨ s = 2 ∨ s = 3 ∨ s = 4 := by simpa [Mlp.params, Linear.params] using hs
    rcases this with rfl | rfl | rfl | rfl | rfl | rfl <;>
      exact ⟨_, rfl, by simp [WF, leafNode], by simp [Pos, leafNode], rfl, rfl⟩
  · intro _ i _ j _
    simp [affine_sum]
  · simp
  · intro i _ j _
    simp only [layerFns, netValue, affine_sum, Act.fn]
    exact ((Real.tanh_lt_one _).trans (by norm_num)).ne
  · simp [SmallNet]

end

end RL
