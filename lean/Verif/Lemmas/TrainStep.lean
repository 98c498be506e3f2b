import Verif.Lemmas.TrainTangent
import Verif.Props.Gradient

/-! Helper lemmas: one training step -/

namespace RL

open Spec

/-- what the forward pass leaves -/
theorem loss_run {h : Heap ℝ} {mlp : Mlp ℝ} {x y m k : Nat} {ds : List (Nat × Act)} {a b θ : Nat → Nat → ℝ}
    (ht : Training h mlp x y m k ds a b θ) : ∃ ns l r ny df ab, trainLoss mlp h x y = .ok (h ++ ns, l) ∧ (∃ ops, runOps h ops = .ok (h ++ ns)) ∧
      0 < m ∧ 0 < lastWidth k ds ∧ Chain (h ++ ns) m h.length θ k 0 x a mlp.layers ds r ∧
      LossTail (h ++ ns) h.length m (lastWidth k ds) r y l ny df ab (netValue k (layerFns θ 0 ds) a) b := by
  obtain ⟨xv, hx, mx⟩ := ht.input
  obtain ⟨yv, hy, my⟩ := ht.expected
  have py := (ht.ready.clean y (by simp) y yv (Or.inl rfl) hy).2.1
  rw [my.1] at py
  simp only [Pos, List.mem_cons, List.not_mem_nil, or_false, forall_eq_or_imp, forall_eq] at py
  obtain ⟨hm, hw⟩ := py
  obtain ⟨ns, r, v, e1, e2, e3, ⟨o1, e4⟩, e5⟩ := forward_chain hm hx mx ht.net.layers ht.net.acts
  obtain ⟨ms, l, f1, ⟨o2, f2⟩, ny, df, ab, f3⟩ := tail_run hm hw e2 e3 (dataOf_append hy) my
  refine ⟨ns ++ ms, l, r, ny, df, ab, ?_, ⟨o1 ++ o2, ?_⟩, hm, hw, ?_, ?_⟩
  · rw [← List.append_assoc, ← f1, trainLoss]
    rw [show mlp.forward h x = _ from e1, R.bind_ok]
  · rw [runOps_append, e4, ← List.append_assoc]
    exact f2
  · rw [← List.append_assoc]
    exact e5 _ le_rfl ms
  · rw [← List.append_assoc]
    exact f3 _ (by simp)

theorem Spec.Training.lt {h : Heap ℝ} {mlp : Mlp ℝ} {x y m k : Nat} {ds : List (Nat × Act)} {a b θ : Nat → Nat → ℝ}
    (ht : Training h mlp x y m k ds a b θ) {s : Nat} (hs : s ∈ x :: y :: mlp.params) : s < h.length := by
  have : ∃ v, dataOf h s = some v := by
    simp only [List.mem_cons] at hs
    rcases hs with rfl | rfl | hs
    · obtain ⟨v, hv, _⟩ := ht.input
      exact ⟨v, hv⟩
    · obtain ⟨v, hv, _⟩ := ht.expected
      exact ⟨v, hv⟩
    · obtain ⟨t, ht'⟩ := List.mem_iff_getElem?.1 hs
      obtain ⟨v, hv, _⟩ := layersAre_flat ht.net.layers t s ht'
      exact ⟨v, hv⟩
  obtain ⟨v, hv⟩ := this
  obtain ⟨n, hn, _⟩ := dataOf_eq.1 hv
  exact getElem?_lt hn

/-- the tensors that the loss was computed from -/
theorem loss_tree {S : Prop} {π : Nat} {h ns : Heap ℝ} {mlp : Mlp ℝ} {x y m k l r ny df ab : Nat} {ds : List (Nat × Act)} {a b θ : Nat → Nat → ℝ}
    (ht : Training h mlp x y m k ds a b θ) (hm : 0 < m) (hw : 0 < lastWidth k ds) (hc : Chain (h ++ ns) m h.length θ k 0 x a mlp.layers ds r)
    (hl : LossTail (h ++ ns) h.length m (lastWidth k ds) r y l ny df ab (netValue k (layerFns θ 0 ds) a) b)
    (hS : S → ¬ Feeds (h ++ ns) π x ∧ SmallNet m k ds) : CleanTree S (Smooth m k ds a b θ) π (h ++ ns) ab := by
  have tr : ∀ s ∈ x :: y :: mlp.params, CleanTree S (Smooth m k ds a b θ) π (h ++ ns) s :=
    fun s hs => ht.ready.tree ht.reachable.good hs (ht.lt hs)
  exact hl.tree hm hw (hc.tree hm (tr x (by simp)) (fun p hp => tr p (by simp [show p ∈ mlp.params from hp])) (fun hK => hK.1)
    fun s => ⟨fun _ hf => absurd hf (hS s).1, (hS s).2⟩) (tr y (by simp)) fun hK => hK.2

theorem exists_index {v : Raw ℝ} (hv : WF v) {c : Nat} (hc : c < v.array.length) : ∃ idx, InRange v.shape idx ∧ rowMajor v.shape idx = c := by
  have hc' : c < (allIndices v.shape).length := by rw [allIndices_length, ← hv]; exact hc
  exact ⟨_, inRange_getElem_allIndices hc', rowMajor_getElem_allIndices hc'⟩

/-- the gradients of the parameters after `backward` -/
theorem loss_grad {h ns H' : Heap ℝ} {mlp : Mlp ℝ} {x y m k l r ny df ab : Nat} {ds : List (Nat × Act)} {a b θ : Nat → Nat → ℝ}
    (ht : Training h mlp x y m k ds a b θ) (hr : Reachable (h ++ ns)) (hm : 0 < m) (hw : 0 < lastWidth k ds)
    (hc : Chain (h ++ ns) m h.length θ k 0 x a mlp.layers ds r)
    (hl : LossTail (h ++ ns) h.length m (lastWidth k ds) r y l ny df ab (netValue k (layerFns θ 0 ds) a) b)
    (hK : Smooth m k ds a b θ) (hS : SmallNet m k ds) (e : backward (h ++ ns) l = .ok H') {t p : Nat} {v : Raw ℝ}
    (hp : mlp.params[t]? = some p) (hv : dataOf h p = some v) :
    ∃ g, gradOf H' p = some g ∧ g.shape = v.shape ∧ WF g ∧ ∀ c < v.array.length, ∃ D,
      HasDerivAt (fun z => netLoss m k ds a b (Function.update θ t (Function.update (θ t) c z))) D (θ t c) ∧ g.array[c]? = some D := by
  have hg := ht.reachable.good
  have hpm : p ∈ mlp.params := List.mem_of_getElem? hp
  have hpl := ht.lt (s := p) (by simp [hpm])
  have hf := Frame.append h ns
  obtain ⟨hpx, hpy, hpn, hfree⟩ := ht.ready.free p hpm
  obtain ⟨v', hv', wv, hval⟩ := layersAre_flat ht.net.layers t p hp
  rw [hv] at hv'
  cases hv'
  obtain ⟨_, lv, lg, hln, hls, lwf⟩ := hl.atL
  have hpnx : ¬ Feeds (h ++ ns) p x := by
    rw [hf.feeds hg (ht.lt (by simp))]
    rintro (h' | h')
    · exact hpx h'
    · exact hfree x (by simp) h'
  have hTree := loss_tree (S := True) (π := p) ht hm hw hc hl fun _ => ⟨hpnx, hS⟩
  obtain ⟨hD, hSP⟩ := hTree.diffLoss hln hls lwf hK
  have habl : Feeds (h ++ ns) ab l := Or.inr (isInput_of hln rfl (by simp))
  have hdf : Feeds (h ++ ns) df l := by
    obtain ⟨_, _, e3, _⟩ := hl.atAb
    exact Or.inr (habl.input e3 rfl (by simp))
  have hrl : Feeds (h ++ ns) r l := by
    obtain ⟨_, _, e3, _⟩ := hl.atDf
    exact Or.inr (hdf.input e3 rfl (by simp))
  have hyl : Feeds (h ++ ns) y l := by
    obtain ⟨_, _, e3, _⟩ := hl.atDf
    obtain ⟨_, _, e4, _⟩ := hl.atNy
    exact Or.inr (Feeds.input (Or.inr (hdf.input e3 rfl (by simp))) e4 rfl (by simp))
  have hxl : Feeds (h ++ ns) x l := hc.feeds.1.trans hrl
  have hpar : ∀ q ∈ mlp.params, Ancestor (h ++ ns) q l := by
    intro q hq
    have := hc.feeds.2 q hq
    rcases hrl with rfl | h'
    · exact this
    · exact Relation.TransGen.trans this h'
  have hvH : dataOf (h ++ ns) p = some v := dataOf_append hv
  have hpnH : gradOf (h ++ ns) p = none := by rw [gradOf_append hg hpl]; exact hpn
  choose V hV using C29_exists (h ++ ns) l p hr hD.toRealLoss
  obtain ⟨g, h1, h2, h3, h4⟩ := C29_partial (h ++ ns) H' l p v hr hD (hSP trivial) (hTree.sumsOnTop hr.good hln p) e (hpar p hpm) hvH (by rw [hpnH]; simp) (cell v)
    (fun idx hi => elem_cell wv hi) V hV
  refine ⟨g, h1, h2, h3, fun c hcl => ?_⟩
  obtain ⟨ci, hci, rfl⟩ := exists_index wv hcl
  obtain ⟨D, h5, h6⟩ := h4 ci hci [] (by rw [shapeOf_eq hln]; simp only [hls]; exact .nil)
  have hcell : ∀ idx, InRange v.shape idx → cell v idx = θ t (rowMajor v.shape idx) := by
    intro idx hi
    have := hval (rowMajor v.shape idx) (by rw [show v.array.length = v.shape.prod from wv]; exact rowMajor_lt hi)
    rw [Nat.zero_add] at this
    exact cell_elem this
  rw [hpnH, show coord none ci = 0 from rfl, zero_add] at h6
  refine ⟨D, ?_, by rw [Raw.elem?, h2] at h6; exact h6⟩
  rw [hcell ci hci] at h5
  refine h5.congr_of_eventuallyEq (Filter.Eventually.of_forall fun z => ?_)
  simp only
  set θ' := Function.update θ t (Function.update (θ t) (rowMajor v.shape ci) z) with hθ'
  have hVz := hV (Function.update (cell v) ci z)
  have indep : ∀ s ∈ x :: y :: mlp.params, s ≠ p → Feeds (h ++ ns) s l → ∀ w, dataOf (h ++ ns) s = some w → ∀ idx, InRange w.shape idx →
      V (Function.update (cell v) ci z) s idx = cell w idx := by
    intro s hs hsp hsl w hw' idx hi
    refine reeval_indep hr.good hD.toRealLoss hVz s w hsl ?_ hw' idx hi
    rw [hf.feeds hg (ht.lt hs)]
    rintro (h' | h')
    · exact hsp h'.symm
    · exact hfree s hs h'
  obtain ⟨xv, hx, mx⟩ := ht.input
  obtain ⟨yv, hy, my⟩ := ht.expected
  have hpv : ParamVals (h ++ ns) (V (Function.update (cell v) ci z)) θ' k 0 mlp.layers ds := by
    refine paramVals_of ht.net.layers.append fun t' s w hs hw' idx hi => ?_
    rw [Nat.zero_add]
    have hsm : s ∈ mlp.params := List.mem_of_getElem? hs
    by_cases hsp : s = p
    · subst hsp
      rw [hvH] at hw'
      cases hw'
      have htt : t' = t := by
        obtain ⟨l1, g1⟩ := List.getElem?_eq_some_iff.1 hs
        obtain ⟨l2, g2⟩ := List.getElem?_eq_some_iff.1 hp
        exact (ht.ready.nodup.getElem_inj_iff (hi := l1) (hj := l2)).1 (g1.trans g2.symm)
      subst htt
      rw [hVz.self idx (by rw [shapeOf_data hvH]; exact hi), hθ', Function.update_self]
      by_cases hic : idx = ci
      · subst hic
        simp
      · rw [Function.update_of_ne hic, Function.update_of_ne fun h' => hic (rowMajor_inj hi hci h'), hcell idx hi]
    · have htt : t' ≠ t := by
        rintro rfl
        rw [hp] at hs
        exact hsp (Option.some.inj hs).symm
      rw [indep s (by simp [hsm]) hsp (Or.inr (hpar s hsm)) w hw' idx hi, hθ', Function.update_of_ne htt]
      obtain ⟨w', e1, e2, e3⟩ := layersAre_flat ht.net.layers.append (h := h ++ ns) t' s hs
      rw [hw'] at e1
      cases e1
      have := e3 (rowMajor w.shape idx) (by rw [show w.array.length = w.shape.prod from e2]; exact rowMajor_lt hi)
      rw [Nat.zero_add] at this
      exact cell_elem this
  rw [hl.value hpl hVz, netLoss]
  refine Finset.sum_congr rfl fun i hi => Finset.sum_congr rfl fun j hj => ?_
  rw [Finset.mem_range] at hi hj
  rw [hc.value hVz hpl hrl hpv (a' := a) ?_ i hi j hj, indep y (by simp) (Ne.symm hpy) hyl yv (dataOf_append hy) [i, j]
    (by rw [my.1]; exact inRange2.2 ⟨hi, hj⟩), cell_elem (my.2.2 i hi j hj)]
  intro i hi j hj
  rw [indep x (by simp) (Ne.symm hpx) hxl xv (dataOf_append hx) [i, j] (by rw [mx.1]; exact inRange2.2 ⟨hi, hj⟩), cell_elem (mx.2.2 i hi j hj)]

/-- the gradients of the parameters after `backward`, for all sizes -/
theorem loss_tangent {h ns H' : Heap ℝ} {mlp : Mlp ℝ} {x y m k l r ny df ab : Nat} {ds : List (Nat × Act)} {a b θ : Nat → Nat → ℝ}
    (ht : Training h mlp x y m k ds a b θ) (hr : Reachable (h ++ ns)) (hm : 0 < m) (hw : 0 < lastWidth k ds)
    (hc : Chain (h ++ ns) m h.length θ k 0 x a mlp.layers ds r)
    (hl : LossTail (h ++ ns) h.length m (lastWidth k ds) r y l ny df ab (netValue k (layerFns θ 0 ds) a) b)
    (e : backward (h ++ ns) l = .ok H') {t p : Nat} {v : Raw ℝ} (hp : mlp.params[t]? = some p) (hv : dataOf h p = some v) :
    ∃ g, gradOf H' p = some g ∧ ∀ c < v.array.length,
      g.array[c]? = some (lossTangent m k ds a b θ fun q' c' => if q' = t ∧ c' = c then 1 else 0) := by
  have hg := ht.reachable.good
  have hpm : p ∈ mlp.params := List.mem_of_getElem? hp
  have hpl := ht.lt (s := p) (by simp [hpm])
  have hf := Frame.append h ns
  obtain ⟨hpx, hpy, hpn, hfree⟩ := ht.ready.free p hpm
  obtain ⟨v', hv', wv, hval⟩ := layersAre_flat ht.net.layers t p hp
  rw [hv] at hv'
  cases hv'
  obtain ⟨_, lv, lg, hln, hls, lwf⟩ := hl.atL
  have hTree := loss_tree (S := False) (π := p) ht hm hw hc hl False.elim
  have hD := hTree.realLoss hln hls lwf
  have habl : Feeds (h ++ ns) ab l := Or.inr (isInput_of hln rfl (by simp))
  have hdf : Feeds (h ++ ns) df l := by
    obtain ⟨_, _, e3, _⟩ := hl.atAb
    exact Or.inr (habl.input e3 rfl (by simp))
  have hrl : Feeds (h ++ ns) r l := by
    obtain ⟨_, _, e3, _⟩ := hl.atDf
    exact Or.inr (hdf.input e3 rfl (by simp))
  have hyl : Feeds (h ++ ns) y l := by
    obtain ⟨_, _, e3, _⟩ := hl.atDf
    obtain ⟨_, _, e4, _⟩ := hl.atNy
    exact Or.inr (Feeds.input (Or.inr (hdf.input e3 rfl (by simp))) e4 rfl (by simp))
  have hxl : Feeds (h ++ ns) x l := hc.feeds.1.trans hrl
  have hpar : ∀ q ∈ mlp.params, Ancestor (h ++ ns) q l := by
    intro q hq
    have := hc.feeds.2 q hq
    rcases hrl with rfl | h'
    · exact this
    · exact Relation.TransGen.trans this h'
  have hvH : dataOf (h ++ ns) p = some v := dataOf_append hv
  have hpnH : gradOf (h ++ ns) p = none := by rw [gradOf_append hg hpl]; exact hpn
  obtain ⟨g, h1, h2, h3, h4⟩ := C59_partial (h ++ ns) H' l p v hr hD (hTree.sumsOnTop hr.good hln p) e (hpar p hpm) hvH (by rw [hpnH]; simp)
  refine ⟨g, h1, fun c hcl => ?_⟩
  obtain ⟨ci, hci, rfl⟩ := exists_index wv hcl
  obtain ⟨τ, hτ⟩ := C29_tangents_exist (h ++ ns) l p ci hr
  have h5 := h4 ci hci [] (by rw [shapeOf_eq hln]; simp only [hls]; exact .nil) τ hτ
  rw [hpnH, show coord none ci = 0 from rfl, zero_add, Raw.elem?, h2] at h5
  rw [h5]
  congr 1
  set δ : Nat → Nat → ℝ := fun q' c' => if q' = t ∧ c' = rowMajor v.shape ci then 1 else 0 with hδ
  have indep : ∀ s ∈ x :: y :: mlp.params, s ≠ p → Feeds (h ++ ns) s l → ∀ w, dataOf (h ++ ns) s = some w → ∀ idx, InRange w.shape idx →
      τ s idx = 0 := by
    intro s hs hsp hsl w hw' idx hi
    refine tangents_zero hr.good hD hτ s hsl ?_ idx (by rw [shapeOf_data hw']; exact hi)
    rw [hf.feeds hg (ht.lt hs)]
    rintro (h' | h')
    · exact hsp h'.symm
    · exact hfree s hs h'
  obtain ⟨xv, hx, mx⟩ := ht.input
  obtain ⟨yv, hy, my⟩ := ht.expected
  have hpv : ParamVals (h ++ ns) τ δ k 0 mlp.layers ds := by
    refine paramVals_of ht.net.layers.append fun t' s w hs hw' idx hi => ?_
    rw [Nat.zero_add]
    have hsm : s ∈ mlp.params := List.mem_of_getElem? hs
    by_cases hsp : s = p
    · subst hsp
      rw [hvH] at hw'
      cases hw'
      have htt : t' = t := by
        obtain ⟨l1, g1⟩ := List.getElem?_eq_some_iff.1 hs
        obtain ⟨l2, g2⟩ := List.getElem?_eq_some_iff.1 hp
        exact (ht.ready.nodup.getElem_inj_iff (hi := l1) (hj := l2)).1 (g1.trans g2.symm)
      subst htt
      rw [hτ.self idx (by rw [shapeOf_data hvH]; exact hi)]
      by_cases hic : ci = idx
      · subst hic
        simp [hδ]
      · rw [if_neg hic]
        have : ¬ rowMajor v.shape idx = rowMajor v.shape ci := fun h' => hic (rowMajor_inj hi hci h').symm
        simp [hδ, this]
    · have htt : t' ≠ t := by
        rintro rfl
        rw [hp] at hs
        exact hsp (Option.some.inj hs).symm
      rw [indep s (by simp [hsm]) hsp (Or.inr (hpar s hsm)) w hw' idx hi]
      simp [hδ, htt]
  rw [hl.tangent hpl hτ fun i hi j hj => indep y (by simp) (Ne.symm hpy) hyl yv (dataOf_append hy) [i, j] (by rw [my.1]; exact inRange2.2 ⟨hi, hj⟩),
    lossTangent]
  refine Finset.sum_congr rfl fun i hi => Finset.sum_congr rfl fun j hj => ?_
  rw [Finset.mem_range] at hi hj
  congr 1
  refine hc.tangent hτ hpl hrl ht.net.layers.append hpv (fun i hi j hj => ?_) (fun i hi j hj => ?_) i hi j hj
  · rw [dataOf_append hx, mx.coord hi hj]
  · exact indep x (by simp) (Ne.symm hpx) hxl xv (dataOf_append hx) [i, j] (by rw [mx.1]; exact inRange2.2 ⟨hi, hj⟩)

theorem zeroGrad_step {h : Heap ℝ} {t : Nat} (hr : Reachable h) (ht : t < h.length) : ∃ h', zeroGrad h t = .ok h' ∧ Reachable h' ∧ Frame h h' ∧
    h'.length = h.length ∧ (∀ s, s ≠ t → h'[s]? = h[s]?) ∧ ∀ s g, gradOf h' s = some g → gradOf h s = some g := by
  have hn := List.getElem?_eq_getElem ht
  have e : zeroGrad h t = .ok (h.set t { h[t] with grad := none }) := by
    simp [zeroGrad, Heap.node_eq_ok.2 hn]
  have hc := C37_zero_grad h _ t hr e
  refine ⟨_, e, hr.op (op := .zeroGrad t) e, Frame.set hn _, by simp, fun s hs => (hc.2 s hs).1, fun s g hg => ?_⟩
  by_cases hs : s = t
  · subst hs
    rw [hc.1] at hg
    cases hg
  · rw [← (hc.2 s hs).2]
    exact hg

theorem forall₂_getElem {α β : Type} {P : α → β → Prop} : ∀ {as : List α} {bs : List β}, List.Forall₂ P as bs → ∀ (t : Nat) (a : α) (b : β),
    as[t]? = some a → bs[t]? = some b → P a b := by
  intro as bs h
  induction h with
  | nil => intro t a b ha; simp at ha
  | cons h1 _ ih =>
    intro t a b ha hb
    match t, ha, hb with
    | 0, ha, hb => cases ha; cases hb; exact h1
    | t + 1, ha, hb => exact ih t a b ha hb

/-- inputs of an SGD result -/
theorem stepNodes_feeds {h h' : Heap ℝ} {lr : ℝ} {p q i : Nat} (hs : StepNodes h h' lr p q) (hi : Feeds h' i q) :
    i = q ∨ Feeds h' i p ∨ (h.length ≤ i ∧ ∃ v w o, dataOf h p = some v ∧ h'[i]? = some ⟨w, none, o⟩ ∧ w.shape = v.shape ∧ WF w ∧
      (o = none ∨ ∃ d, o = some ⟨[d], .neg⟩)) := by
  obtain ⟨v, g, d, m, dv, mv, hv, hg, hd, hm, hq, ds, dw, ms, mw, nd, nm, nq⟩ := hs
  rcases hi.cases nq with h1 | ⟨e, he, a, ha, h1⟩
  · exact Or.inl h1
  · cases he
    simp only [List.mem_cons, List.not_mem_nil, or_false] at ha
    rcases ha with rfl | rfl
    · exact Or.inr (Or.inl h1)
    · rcases h1.cases nm with rfl | ⟨e, he, a, ha, h1⟩
      · exact Or.inr (Or.inr ⟨hm, v, mv, _, hv, nm, ms, mw, Or.inr ⟨_, rfl⟩⟩)
      · cases he
        simp only [List.mem_cons, List.not_mem_nil, or_false] at ha
        subst ha
        rcases h1.cases nd with rfl | ⟨e, he, a, ha, h1⟩
        · exact Or.inr (Or.inr ⟨hd, v, dv, _, hv, nd, ds, dw, Or.inl rfl⟩)
        · cases he

/-- one training step -/
theorem step_run {h : Heap ℝ} {mlp : Mlp ℝ} {x y m k : Nat} {ds : List (Nat × Act)} {a b θ : Nat → Nat → ℝ}
    (ht : Training h mlp x y m k ds a b θ) (lr : ℝ) : ∃ h' mlp', trainStep mlp h x y lr = .ok (h', mlp') ∧ Reachable h' ∧
      Frame h h' ∧ mlp'.layers.map (·.activation) = mlp.layers.map (·.activation) ∧ Ready h' x y mlp'.params ∧
      ∀ t p q, mlp.params[t]? = some p → mlp'.params[t]? = some q → ∃ v g, dataOf h p = some v ∧ dataOf h' q = some (sgdUpdate lr v g) ∧
        WF v ∧ WF g ∧ g.shape = v.shape ∧
        (∀ c < v.array.length, g.array[c]? = some (lossTangent m k ds a b θ fun q' c' => if q' = t ∧ c' = c then 1 else 0)) ∧
        (Smooth m k ds a b θ → SmallNet m k ds → ∀ c < v.array.length, ∃ D,
          HasDerivAt (fun z => netLoss m k ds a b (Function.update θ t (Function.update (θ t) c z))) D (θ t c) ∧ g.array[c]? = some D) := by
  have hg := ht.reachable.good
  obtain ⟨ns, l, r, ny, df, ab, e1, ⟨o1, e2⟩, hm, hw, hc, hl⟩ := loss_run ht
  have hr1 := ht.reachable.run e2
  have hf1 := Frame.append h ns
  obtain ⟨_, lv, lg, hln, hls, lwf⟩ := hl.atL
  have hTree := loss_tree (S := False) (π := 0) ht hm hw hc hl False.elim
  obtain ⟨H1, e3⟩ := hTree.success hr1 hln hls lwf
  have hr2 : Reachable H1 := hr1.op (op := .backward l) e3
  have hf2 : Frame (h ++ ns) H1 := (runOps_frame hr1.good (ops := [.backward l]) (by simp [runOps, Op.run, e3])).1
  have hle1 : h.length ≤ H1.length := (hf1.trans hf2).len
  -- gradients after `backward`
  have hfit1 : ∀ s ∈ x :: y :: mlp.params, ∀ i v, Feeds h i s → dataOf h i = some v → ∀ g, gradOf H1 i = some g → g.shape = v.shape ∧ WF g := by
    intro s hs i v hi hv
    have hil := hi.lt hg (ht.lt hs)
    refine backward_fit hr1.good e3 (dataOf_append hv) fun g hgr => ?_
    rw [gradOf_append hg hil] at hgr
    exact (ht.ready.clean s hs i v hi hv).2.2.1 g hgr
  have hpar : ∀ p ∈ mlp.params, ∃ v g, dataOf H1 p = some v ∧ gradOf H1 p = some g ∧ WF v ∧ WF g ∧ Pos v.shape ∧ g.shape = v.shape := by
    intro p hp
    have hpl := ht.lt (s := p) (by simp [hp])
    have hv := dataOf_node (List.getElem?_eq_getElem hpl)
    obtain ⟨wv, pv, _⟩ := ht.ready.clean p (by simp [hp]) p _ (Or.inl rfl) hv
    have hanc : Ancestor (h ++ ns) p l := by
      have h1 := hc.feeds.2 p hp
      obtain ⟨_, _, n1, _⟩ := hl.atDf
      obtain ⟨_, _, n2, _⟩ := hl.atAb
      exact ((h1.trans (isInput_of n1 rfl (by simp))).trans (isInput_of n2 rfl (by simp))).trans (isInput_of hln rfl (by simp))
    obtain ⟨g, hgr⟩ := (C36_backward _ _ l hr1 e3 p (by simp; omega)).2.2.2 hanc
    obtain ⟨h1, h2⟩ := hfit1 p (by simp [hp]) p _ (Or.inl rfl) hv g hgr
    exact ⟨_, g, by rw [(hf1.trans hf2).dataOf hpl]; exact hv, hgr, wv, h2, pv, h1⟩
  -- the step size
  set H2 := H1 ++ [leafNode (Raw.scalar lr)] with hH2
  have hr3 : Reachable H2 := hr2.op (op := .scalar lr) rfl
  have hsz : dataOf H2 H1.length = some (Raw.scalar lr) := by simp [hH2, Spec.dataOf, leafNode]
  obtain ⟨ms, qs, e4, hstep⟩ := sgdParams_run hr3.good hsz (ps := mlp.params) (by
    intro p hp
    obtain ⟨v, g, h1, h2, h3⟩ := hpar p hp
    refine ⟨v, g, dataOf_append h1, ?_, h3⟩
    obtain ⟨n, hn, _⟩ := dataOf_eq.1 h1
    rw [gradOf_append hr2.good (getElem?_lt hn)]
    exact h2)
  have hlen : mlp.params.length = 2 * mlp.layers.length := by
    obtain ⟨ls⟩ := mlp
    clear * -
    induction ls with
    | nil => rfl
    | cons l ls ih => rw [(C46_params _ _).2]; simp at ih ⊢; omega
  obtain ⟨mlp', e5, hqs, hact⟩ := C46_update mlp qs (by rw [← hstep.length_eq, hlen])
  obtain ⟨o2, e6⟩ := sgdParams_runOps e4
  have hr4 := hr3.run e6
  have hf3 : Frame H1 (H2 ++ ms) := (Frame.append H1 _).trans (Frame.append H2 _)
  have hle2 : H1.length + 1 = H2.length := by simp [hH2]
  have hxl := ht.lt (s := x) (by simp)
  have hyl := ht.lt (s := y) (by simp)
  obtain ⟨H4, e7, hr5, hf4, len4, same4, grad4⟩ := zeroGrad_step hr4 (t := y) (by simp; omega)
  obtain ⟨H5, e8, hr6, hf5, len5, same5, grad5⟩ := zeroGrad_step hr5 (t := x) (by rw [len4]; simp; omega)
  have hfr : Frame h H5 := (((hf1.trans hf2).trans hf3).trans hf4).trans hf5
  have hnew : ∀ i, H2.length ≤ i → H5[i]? = (H2 ++ ms)[i]? := by
    intro i hi
    rw [same5 i (by omega), same4 i (by omega)]
  have hstep5 : List.Forall₂ (StepNodes H2 H5 lr) mlp.params qs := by
    refine hstep.imp ?_
    rintro p q ⟨v, g, d, m, dv, mv, hv, hg, hd, hm, hq, ds, dw, ms, mw, nd, nm, nq⟩
    exact ⟨v, g, d, m, dv, mv, hv, hg, hd, hm, hq, ds, dw, ms, mw, by rw [hnew d hd]; exact nd, by rw [hnew m hm]; exact nm,
      by rw [hnew q hq]; exact nq⟩
  have hfit5 : ∀ s ∈ x :: y :: mlp.params, ∀ i v, Feeds H5 i s → dataOf H5 i = some v → WF v ∧ Pos v.shape ∧
      (∀ g, gradOf H5 i = some g → g.shape = v.shape ∧ WF g) ∧ ∀ d, historyOf H5 i = some (some d) → d.kind = .add ∨ d.kind = .neg := by
    intro s hs i v hi hv
    have hsl := ht.lt hs
    rw [hfr.feeds hg hsl] at hi
    have hil := hi.lt hg hsl
    rw [hfr.dataOf hil] at hv
    obtain ⟨c1, c2, c3, c4⟩ := ht.ready.clean s hs i v hi hv
    refine ⟨c1, c2, fun g hgr => ?_, fun d hd => c4 d (by rw [← hfr.historyOf hil]; exact hd)⟩
    have h1 := grad4 _ _ (grad5 _ _ hgr)
    rw [gradOf_append hr3.good (by omega), gradOf_append hr2.good (by omega)] at h1
    exact hfit1 s hs i v hi hv g h1
  have hpd : ∀ p ∈ mlp.params, ∀ v, dataOf H2 p = some v → dataOf h p = some v := by
    intro p hp v hv
    have hpl := ht.lt (s := p) (by simp [hp])
    rw [((hf1.trans hf2).trans (Frame.append H1 _)).dataOf hpl] at hv
    exact hv
  refine ⟨H5, mlp', ?_, hr6, hfr, hact, ?_, ?_⟩
  · have e9 : mlp.sgdStep H2 H1.length = .ok (H2 ++ ms, mlp') := by simp [Mlp.sgdStep, e4, e5]
    have e10 : H1.leaf (Raw.scalar lr) = (H2, H1.length) := rfl
    simp only [trainStep, e1, R.bind_ok, e3, e10, e9, e7, e8]
    rfl
  · rw [hqs]
    refine ⟨stepNodes_nodup hstep5 ht.ready.nodup, ?_, ?_⟩
    · intro q hq
      obtain ⟨p, hp, hpq⟩ := forall₂_mem_right hstep5 hq
      have hq' := hpq
      obtain ⟨_, _, _, _, _, _, _, _, _, _, hql, _, _, _, _, _, _, nq⟩ := hq'
      refine ⟨by omega, by omega, gradOf_node_none nq rfl, fun s hs hanc => ?_⟩
      have hlt := ancestor_lt hr6.good hanc
      have hsq : s ∈ qs := by
        simp only [List.mem_cons] at hs
        rcases hs with rfl | rfl | hs
        · omega
        · omega
        · exact hs
      obtain ⟨p', hp', hpq'⟩ := forall₂_mem_right hstep5 hsq
      have hpl := ht.lt (s := p') (by simp [hp'])
      rcases stepNodes_feeds hpq' (Or.inr hanc) with rfl | h1 | ⟨_, v, w, o, _, hn, _, _, ho⟩
      · omega
      · have := (hfr.feeds hg hpl).1 h1
        have := this.lt hg hpl
        omega
      · rw [nq] at hn
        cases hn
        rcases ho with ho | ⟨d, ho⟩ <;> cases ho
    · intro s hs i v hi hv
      have hold : s ∈ x :: y :: mlp.params ∨ s ∈ qs := by
        simp only [List.mem_cons] at hs ⊢
        tauto
      rcases hold with hs | hs
      · exact hfit5 s hs i v hi hv
      · obtain ⟨p, hp, hpq⟩ := forall₂_mem_right hstep5 hs
        rcases stepNodes_feeds hpq hi with rfl | h1 | ⟨_, v', w, o, hv', hn, hsh, hwf, ho⟩
        · obtain ⟨v', g, _, _, _, _, hv', hgr, _, _, _, _, _, _, _, _, _, nq⟩ := hpq
          rw [dataOf_node nq] at hv
          cases hv
          have hv1 := hpd p hp v' hv'
          obtain ⟨c1, c2, _⟩ := ht.ready.clean p (by simp [hp]) p v' (Or.inl rfl) hv1
          have hpl := ht.lt (s := p) (by simp [hp])
          rw [gradOf_append hr2.good (by omega)] at hgr
          obtain ⟨gs, gw⟩ := hfit1 p (by simp [hp]) p v' (Or.inl rfl) hv1 g hgr
          refine ⟨?_, c2, ?_, ?_⟩
          · simp only [WF, sgdUpdate, List.length_zipWith]
            rw [show v'.array.length = v'.shape.prod from c1, show g.array.length = g.shape.prod from gw, gs]
            simp
          · intro g' hg'
            rw [gradOf_node_none nq rfl] at hg'
            cases hg'
          · intro d hd
            rw [historyOf_node nq] at hd
            cases hd
            exact Or.inl rfl
        · exact hfit5 p (by simp [hp]) i v h1 hv
        · rw [dataOf_node hn] at hv
          cases hv
          have hv1 := hpd p hp v' hv'
          obtain ⟨c1, c2, _⟩ := ht.ready.clean p (by simp [hp]) p v' (Or.inl rfl) hv1
          refine ⟨hwf, hsh ▸ c2, ?_, ?_⟩
          · intro g' hg'
            rw [gradOf_node_none hn rfl] at hg'
            cases hg'
          · intro d hd
            rw [historyOf_node hn] at hd
            rcases ho with rfl | ⟨d', rfl⟩
            · cases hd
            · cases hd
              exact Or.inr rfl
  · intro t p q hp hq
    rw [hqs] at hq
    have hpm : p ∈ mlp.params := List.mem_of_getElem? hp
    obtain ⟨v, g, _, _, _, _, hv, hgr, _, _, _, _, _, _, _, _, _, nq⟩ := forall₂_getElem hstep5 t p q hp hq
    have hv1 := hpd p hpm v hv
    have hpl := ht.lt (s := p) (by simp [hpm])
    rw [gradOf_append hr2.good (by omega)] at hgr
    obtain ⟨gs, gw⟩ := hfit1 p (by simp [hpm]) p v (Or.inl rfl) hv1 g hgr
    refine ⟨v, g, hv1, dataOf_node nq, (ht.ready.clean p (by simp [hpm]) p v (Or.inl rfl) hv1).1, gw, gs, ?_, fun hK hS => ?_⟩
    · obtain ⟨g', h1, h2⟩ := loss_tangent ht hr1 hm hw hc hl e3 hp hv1
      rw [hgr] at h1
      cases h1
      exact h2
    obtain ⟨g', h1, _, _, h2⟩ := loss_grad ht hr1 hm hw hc hl hK hS e3 hp hv1
    rw [hgr] at h1
    cases h1
    exact h2

/-- the network after a step -/
theorem step_training {h h' : Heap ℝ} {mlp mlp' : Mlp ℝ} {x y m k : Nat} {ds : List (Nat × Act)} {a b θ θ' : Nat → Nat → ℝ}
    (ht : Training h mlp x y m k ds a b θ) (hr : Reachable h') (hf : Frame h h')
    (hact : mlp'.layers.map (·.activation) = mlp.layers.map (·.activation)) (hready : Ready h' x y mlp'.params)
    (hp : ∀ t p q, mlp.params[t]? = some p → mlp'.params[t]? = some q → ∃ v w, dataOf h p = some v ∧ dataOf h' q = some w ∧
      w.shape = v.shape ∧ WF w ∧ ∀ c < w.array.length, w.array[c]? = some (θ' t c)) : Training h' mlp' x y m k ds a b θ' := by
  refine ⟨hr, ⟨layersAre_update ht.net.layers hact ?_, hact.trans ht.net.acts⟩, ?_, ?_, hready⟩
  · intro t s s' v h1 h2 h3
    obtain ⟨v', w, e1, e2, e3, e4, e5⟩ := hp t s s' h1 h2
    rw [h3] at e1
    cases e1
    exact ⟨w, e2, e3, e4, fun c hc => by rw [Nat.zero_add]; exact e5 c hc⟩
  · obtain ⟨v, h1, h2⟩ := ht.input
    exact ⟨v, by rw [hf.dataOf (ht.lt (by simp))]; exact h1, h2⟩
  · obtain ⟨v, h1, h2⟩ := ht.expected
    exact ⟨v, by rw [hf.dataOf (ht.lt (by simp))]; exact h1, h2⟩

theorem sgdUpdate_wf {lr : ℝ} {v g : Raw ℝ} (wv : WF v) (wg : WF g) (hs : g.shape = v.shape) : WF (sgdUpdate lr v g) := by
  simp only [WF, sgdUpdate, List.length_zipWith]
  rw [show v.array.length = v.shape.prod from wv, show g.array.length = g.shape.prod from wg, hs]
  simp

end RL
