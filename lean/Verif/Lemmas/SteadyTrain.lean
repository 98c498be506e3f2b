import Verif.SpecSteady
import Verif.Lemmas.Steady

/-!
# Training steps on tensors of the same shapes
-/

namespace RL

open Spec

variable {T : Type} [Zero T] [One T] [Add T] [Mul T] [Sub T] [Neg T] [LT T] [DecidableLT T] [LE T] [DecidableLE T] [RealFn T]
variable {g h h' : Heap T}

/-- The tensor, and all it was computed from, is sturdy and no product. -/
def Settled (h : Heap T) (u : Nat) : Prop :=
  ∀ s, Feeds h s u → ∃ m, h[s]? = some m ∧ Sturdy h m ∧ ∀ d, m.gradFn = some d → NoProduct d.kind

/-- `h'` is `h` with further tensors and other gradients, and sturdy tensors stay so. -/
structure KeepsSturdy (h h' : Heap T) : Prop where
  frame : Frame h h'
  sturdy : ∀ {s : Nat} {m m' : Node T}, h[s]? = some m → Sturdy h m → h'[s]? = some m' → Sturdy h' m'

theorem KeepsSturdy.trans {h'' : Heap T} (h1 : KeepsSturdy h h') (h2 : KeepsSturdy h' h'') : KeepsSturdy h h'' := by
  refine ⟨h1.frame.trans h2.frame, fun hm hs hm' => ?_⟩
  obtain ⟨o, ho⟩ := h1.frame.get hm
  exact h2.sturdy ho (h1.sturdy hm hs ho) hm'

theorem sturdy_append (h ns : Heap T) : KeepsSturdy h (h ++ ns) := by
  refine ⟨Frame.append h ns, fun hm hs hm' => ?_⟩
  rw [List.getElem?_append_left (getElem?_lt hm), hm] at hm'
  cases hm'
  exact hs.append ns

theorem Sturdy.frame (hf : Frame h h') {n : Node T} (hs : Sturdy h n) : Sturdy h' n := by
  refine ⟨hs.wf, hs.pos, fun o ho => ?_⟩
  obtain ⟨m, h1, h2⟩ := hs.takes o ho
  obtain ⟨o', h3⟩ := hf.get h1
  exact ⟨_, h3, h2⟩

theorem sturdy_zeroGrad {t : Nat} (e : zeroGrad h t = .ok h') : KeepsSturdy h h' := by
  obtain ⟨n, hn, rfl⟩ := zeroGrad_inv e
  refine ⟨Frame.set hn none, fun {s m m'} hm hs hm' => ?_⟩
  by_cases hts : t = s
  · subst hts
    rw [List.getElem?_set_self (getElem?_lt hn)] at hm'
    cases hm'
    rw [hn] at hm
    cases hm
    exact ⟨hs.wf, hs.pos, nofun⟩
  · rw [List.getElem?_set_ne hts, hm] at hm'
    cases hm'
    exact hs.frame (Frame.set hn none)

theorem gradAccum_takes {s : List Nat} (hs : Pos s) : ∀ {cs : List (Raw T)} {o o' : Option (Raw T)}, (∀ c ∈ cs, c.shape = s ∧ WF c) →
    (∀ p, o = some p → WF p ∧ (p.shape = s ∨ s = [] ∧ Pos p.shape)) → gradAccum o cs = .ok o' →
    ∀ p, o' = some p → WF p ∧ (p.shape = s ∨ s = [] ∧ Pos p.shape) := by
  intro cs
  induction cs with
  | nil => intro o o' _ ho e; cases e; exact ho
  | cons c cs ih =>
    intro o o' hcs ho e
    rw [gradAccum_cons, R.bind_eq_ok] at e
    obtain ⟨q, e1, e2⟩ := e
    have hc := hcs c (by simp)
    refine ih (fun d hd => hcs d (by simp [hd])) ?_ e2
    cases o with
    | none =>
      simp only [gradAccumStep, R.pure_eq_ok] at e1
      subst e1
      rintro p ⟨⟩
      exact ⟨hc.2, .inl hc.1⟩
    | some p =>
      simp only [gradAccumStep, R.bind_eq_ok, R.pure_eq_ok] at e1
      obtain ⟨v, e1, rfl⟩ := e1
      obtain ⟨hw, hp⟩ := ho p rfl
      obtain ⟨v', h1, h2⟩ := addRaw_takes hc hs hw hp
      rw [h1] at e1
      cases e1
      rintro p ⟨⟩
      exact h2

theorem sturdy_backward {l : Nat} (hr : Reachable h) (e : backward h l = .ok h') : KeepsSturdy h h' := by
  obtain ⟨hf, hg'⟩ := Op.run_frame (op := .backward l) hr.good e
  refine ⟨hf, fun {s m m'} hm hs hm' => ?_⟩
  obtain ⟨_, d, us, _, _, _, u1, a1⟩ := backward_inv hr.good e
  obtain ⟨o, ho⟩ := hf.get hm
  rw [hm'] at ho
  cases ho
  refine ⟨hs.wf, hs.pos, fun o ho => ?_⟩
  have hl := (hg' s _ hm').grad o ho
  refine ⟨_, List.getElem?_eq_getElem hl, ?_⟩
  refine gradAccum_takes hs.pos (gradContribs_shape u1 hm) (fun p hp => hs.gradTakes hm m p hm hp) (applyUpdates_grad hr.good (getElem?_lt hm) a1) _ ?_
  exact gradOf_some hm' ho (List.getElem?_eq_getElem hl)

theorem Settled.keep (hg : h.Good) (hk : KeepsSturdy h h') {u : Nat} (hu : u < h.length) (hs : Settled h u) : Settled h' u := by
  intro s hf
  rw [hk.frame.feeds hg hu] at hf
  obtain ⟨m, h1, h2, h3⟩ := hs s hf
  obtain ⟨o, ho⟩ := hk.frame.get h1
  exact ⟨_, ho, hk.sturdy h1 h2 ho, h3⟩

/-! ### the loss only adds tensors -/

theorem act_append {f : Activation T} (hf : StdAct f) {t r : Nat} (e : f h t = .ok (h', r)) : ∃ ns, h' = h ++ ns := by
  rcases hf with rfl | rfl | rfl
  · cases e; exact ⟨[], by simp⟩
  · simp only [reluT, R.bind_eq_ok, Heap.node_eq_ok, R.pure_eq_ok, Heap.alloc] at e
    obtain ⟨n, hn, v, hv, e⟩ := e
    cases e
    exact ⟨_, rfl⟩
  · simp only [tanhT, R.bind_eq_ok, Heap.node_eq_ok, R.pure_eq_ok, Heap.alloc] at e
    obtain ⟨n, hn, v, hv, e⟩ := e
    cases e
    exact ⟨_, rfl⟩

theorem append_trans {a b c : Heap T} (h1 : ∃ ns, b = a ++ ns) (h2 : ∃ ns, c = b ++ ns) : ∃ ns, c = a ++ ns := by
  obtain ⟨n1, rfl⟩ := h1
  obtain ⟨n2, rfl⟩ := h2
  exact ⟨n1 ++ n2, by simp⟩

theorem forward_append : ∀ {ls : List (Linear T)} {h h' : Heap T} {x r : Nat}, (∀ l ∈ ls, StdAct l.activation) →
    (⟨ls⟩ : Mlp T).forward h x = .ok (h', r) → ∃ ns, h' = h ++ ns := by
  intro ls
  induction ls with
  | nil => intro h h' x r _ e; cases e; exact ⟨[], by simp⟩
  | cons l ls ih =>
    intro h h' x r hf e
    simp only [Mlp.forward, List.foldlM_cons] at e
    rw [R.bind_eq_ok] at e
    obtain ⟨⟨hc, z⟩, e1, e2⟩ := e
    simp only [Linear.forward, R.bind_eq_ok, Prod.exists] at e1
    obtain ⟨ha, a, e3, hb, b, e4, e5⟩ := e1
    simp only [bmmT, R.bind_eq_ok, Heap.node_eq_ok, R.pure_eq_ok, Heap.alloc] at e3
    obtain ⟨ln, hln, rn, hrn, v, hv, e3⟩ := e3
    cases e3
    obtain ⟨_, _, _, _, _, _, rfl, rfl⟩ := addT_inv e4
    exact append_trans (append_trans (append_trans ⟨_, rfl⟩ ⟨_, rfl⟩) (act_append (hf l (by simp)) e5)) (ih (fun l hl => hf l (by simp [hl])) e2)

theorem trainLoss_append {b : Mlp T} {x y l : Nat} (hf : ∀ l ∈ b.layers, StdAct l.activation) (e : trainLoss b h x y = .ok (h', l)) :
    (∃ ns, h' = h ++ ns) ∧ ∃ n i, h'[l]? = some n ∧ n.gradFn = some ⟨[i], .sum⟩ := by
  simp only [trainLoss, R.bind_eq_ok, Prod.exists] at e
  obtain ⟨ha, a, e1, hb, c, e2, hc, d, e3, e4⟩ := e
  have a1 := forward_append (ls := b.layers) hf e1
  simp only [subT, R.bind_eq_ok, Prod.exists] at e2
  obtain ⟨hb', c', e5, e6⟩ := e2
  obtain ⟨_, _, _, _, rfl, rfl⟩ := negT_inv e5
  obtain ⟨_, _, _, _, _, _, rfl, rfl⟩ := addT_inv e6
  simp only [absT, R.bind_eq_ok, Heap.node_eq_ok, R.pure_eq_ok, Heap.alloc] at e3
  obtain ⟨n, hn, v, hv, e3⟩ := e3
  cases e3
  obtain ⟨_, w, -, -, rfl, rfl⟩ := sumT_inv e4
  refine ⟨append_trans (append_trans (append_trans (append_trans (append_trans a1 ⟨_, rfl⟩) ⟨_, rfl⟩) ⟨_, rfl⟩) ⟨_, rfl⟩) ⟨_, rfl⟩, ?_⟩
  have key : ∀ (k : Heap T) (a c : Node T), (k ++ [a] ++ [c])[k.length + 1]? = some c := fun k a c => by simp
  exact ⟨_, _, key _ _ _, rfl⟩

/-! ### the new parameters -/

theorem sgdParams_settled {s : Nat} {lr : T} : ∀ {ps : List Nat} {h h' : Heap T} {qs : List Nat}, h.Good → dataOf h s = some (Raw.scalar lr) →
    (∀ p ∈ ps, Settled h p ∧ ParamOk h p) → sgdParams h s ps = .ok (h', qs) →
    List.Forall₂ (fun p q => Settled h' q ∧ ∃ v w, dataOf h p = some v ∧ dataOf h' q = some w ∧ v.shape = w.shape) ps qs := by
  intro ps
  induction ps with
  | nil => intro h h' qs _ _ _ e; cases e; exact .nil
  | cons p ps ih =>
    intro h h' qs hg hs hp e
    rw [sgdParams_cons, R.bind_eq_ok] at e
    obtain ⟨⟨h1, q⟩, e1, e⟩ := e
    simp only [R.bind_eq_ok] at e
    obtain ⟨⟨h2, qs'⟩, e2, e3⟩ := e
    rw [R.pure_eq_ok] at e3
    cases e3
    obtain ⟨o1, r1⟩ := sgdParam_runOps e1
    obtain ⟨f1, g1⟩ := runOps_frame hg r1
    obtain ⟨⟨ns, rfl⟩, -⟩ := sgdParams_inv e2
    obtain ⟨pn, gn, sn, c, delta, neg, val, q1, q2, q3, q4, q5, q6, q7, rfl, rfl⟩ := sgdParam_inv e1
    obtain ⟨hps, v, hv, wv, pv, fit⟩ := hp p (by simp)
    have hpl := getElem?_lt q1
    rw [dataOf, q1] at hv
    cases hv
    obtain ⟨fs, fw⟩ := fit gn.val (gradOf_some q1 q2 q3)
    rw [dataOf, q4] at hs
    have hsv : sn.val = Raw.scalar lr := Option.some.inj hs
    have d1 : delta.shape = pn.val.shape := by rw [mulRaw_scalar_shape q5 (by rw [hsv]; rfl)]; exact fs
    have d2 : WF delta := mulRaw_post (by rw [hsv]; rfl) (by rintro t ⟨⟩; exact fw) (by rintro v ⟨⟩) _ q5
    have d3 : neg.shape = pn.val.shape := (genericUnaryOp_shape q6).trans d1
    have d4 : WF neg := genericUnaryOp_post _ _ _ q6
    obtain ⟨d5, d6⟩ := genericBinopRaw_post _ _ _ val q7
    replace d5 : val.shape = pn.val.shape := by
      rw [d5]
      show maxShape pn.val.shape neg.shape = _
      rw [d3, maxShape_self]
    refine .cons ⟨?_, pn.val, val, by rw [dataOf, q1]; rfl, ?_, d5.symm⟩ ?_
    · refine Settled.keep g1 (sturdy_append _ ns) (by simp) fun t ht => ?_
      have n2 : (h ++ [leafNode delta, ⟨neg, none, some ⟨[h.length], .neg⟩⟩, ⟨val, none, some ⟨[p, h.length + 1], .add⟩⟩])[h.length + 2]? =
        some ⟨val, none, some ⟨[p, h.length + 1], .add⟩⟩ := by simp
      have n1 : (h ++ [leafNode delta, ⟨neg, none, some ⟨[h.length], .neg⟩⟩, ⟨val, none, some ⟨[p, h.length + 1], .add⟩⟩])[h.length + 1]? =
        some ⟨neg, none, some ⟨[h.length], .neg⟩⟩ := by simp
      have n0 : (h ++ [leafNode delta, ⟨neg, none, some ⟨[h.length], .neg⟩⟩, ⟨val, none, some ⟨[p, h.length + 1], .add⟩⟩])[h.length]? =
        some (leafNode delta) := by simp
      rcases Spec.Feeds.cases ht n2 with rfl | ⟨d, hd, b, hb, hab⟩
      · exact ⟨_, n2, ⟨d6, by rw [d5]; exact pv, nofun⟩, by rintro d ⟨⟩; exact ⟨nofun, nofun⟩⟩
      · cases hd
        simp only [List.mem_cons, List.not_mem_nil, or_false] at hb
        rcases hb with rfl | rfl
        · exact hps.keep hg (sturdy_append _ _) hpl t hab
        · rcases Spec.Feeds.cases hab n1 with rfl | ⟨d, hd, b, hb, hab⟩
          · exact ⟨_, n1, ⟨d4, by rw [d3]; exact pv, nofun⟩, by rintro d ⟨⟩; exact ⟨nofun, nofun⟩⟩
          · cases hd
            simp only [List.mem_cons, List.not_mem_nil, or_false] at hb
            subst hb
            rcases Spec.Feeds.cases hab n0 with rfl | ⟨d, hd, -⟩
            · exact ⟨_, n0, ⟨d2, by show Pos delta.shape; rw [d1]; exact pv, nofun⟩, nofun⟩
            · cases hd
    · rw [dataOf, List.getElem?_append_left (by simp)]
      simp
    · have hlen : ∀ p ∈ ps, p < h.length := fun p hm => by
        obtain ⟨-, v, hv, -⟩ := hp p (by simp [hm])
        obtain ⟨n, hn, -⟩ := dataOf_eq.1 hv
        exact getElem?_lt hn
      have := ih g1 (by rw [f1.dataOf (getElem?_lt q4), dataOf, q4]; exact hs) (fun p hm => by
        obtain ⟨p1, v, p2, p3, p4, p5⟩ := hp p (by simp [hm])
        refine ⟨p1.keep hg (sturdy_append _ _) (hlen p hm), v, by rw [f1.dataOf (hlen p hm)]; exact p2, p3, p4, ?_⟩
        rw [gradOf_append hg (hlen p hm)]
        exact p5) e2
      generalize h ++ [leafNode delta, ⟨neg, none, some ⟨[h.length], .neg⟩⟩, ⟨val, none, some ⟨[p, h.length + 1], .add⟩⟩] ++ ns = k at this ⊢
      clear ih e2 hp
      induction this with
      | nil => exact .nil
      | cons hc _ ih =>
        refine .cons ?_ (ih fun p hm => hlen p (by simp [hm]))
        obtain ⟨c1, v, w, c2, c3⟩ := hc
        exact ⟨c1, v, w, by rw [← f1.dataOf (hlen _ (by simp))]; exact c2, c3⟩

theorem sgdParams_grads {s : Nat} : ∀ {ps : List Nat} {h h' : Heap T} {qs : List Nat}, h.Good → (∀ p ∈ ps, p < h.length) →
    sgdParams h s ps = .ok (h', qs) → ∀ p ∈ ps, gradOf h p ≠ none := by
  intro ps
  induction ps with
  | nil => intro h h' qs _ _ _ p hp; cases hp
  | cons p ps ih =>
    intro h h' qs hg hlt e
    rw [sgdParams_cons, R.bind_eq_ok] at e
    obtain ⟨⟨h1, q⟩, e1, e⟩ := e
    simp only [R.bind_eq_ok] at e
    obtain ⟨⟨h2, qs'⟩, e2, -⟩ := e
    obtain ⟨o1, r1⟩ := sgdParam_runOps e1
    obtain ⟨f1, g1⟩ := runOps_frame hg r1
    obtain ⟨pn, gn, sn, c, delta, neg, val, q1, q2, q3, q4, q5, q6, q7, rfl, rfl⟩ := sgdParam_inv e1
    intro r hr
    rcases List.mem_cons.1 hr with rfl | hr
    · rw [gradOf_some q1 q2 q3]
      exact nofun
    · have := ih g1 (fun p hp => (hlt p (by simp [hp])).trans_le f1.len) e2 r hr
      rwa [gradOf_append hg (hlt r (by simp [hr]))] at this

/-! ### a step -/

/-- What training keeps, compared to the tensors `ts` of `g`: the tensors `us` of `h` have their shapes, and can be trained. -/
structure Ready (g : Heap T) (ts : List Nat) (h : Heap T) (us : List Nat) : Prop where
  reach : Reachable h
  loose : Loose h us
  settled : ∀ u ∈ us, Settled h u
  shapes : List.Forall₂ (fun t u => ∃ v w, dataOf g t = some v ∧ dataOf h u = some w ∧ v.shape = w.shape) ts us

theorem Ready.start {ts us : List Nat} (hg : g.Good) (hf : Fresh g ts) (hw : ∀ t ∈ ts, ∃ v, dataOf g t = some v ∧ WF v ∧ Pos v.shape)
    (hr : Ready g ts h us) : ShapeSim (Pairs ts us) (fun s => ∃ u ∈ us, Ancestor h s u) g h := by
  refine ⟨fun _ _ _ => pairs_left hf.nodup, fun i p hp => ?_, fun s hs => ?_⟩
  · obtain ⟨hi, hu⟩ := hp.mem
    obtain ⟨v, w, h1, h2, h3⟩ := pairs_rel hr.shapes hp
    obtain ⟨n, hn, rfl⟩ := dataOf_eq.1 h1
    obtain ⟨m, hm, h4, h5⟩ := hr.settled p hu p (.inl rfl)
    rw [dataOf, hm] at h2
    cases h2
    obtain ⟨v, h6, h7, h8⟩ := hw i hi
    rw [h6] at h1
    cases h1
    refine ⟨n, m, hn, hm, ⟨h7, h8, ?_⟩, h4, h3, ?_⟩
    · rw [grad_none hg hn (hf.noGrad i hi)]
      exact nofun
    · have := hf.noHistory i hi
      rw [historyOf, hn] at this
      rw [show n.gradFn = none from Option.some.inj this]
      cases hd : m.gradFn with
      | none => exact .leaf
      | some d => exact .cut (h5 d hd) fun j hj => ⟨p, hu, isInput_of hm hd hj⟩
  · obtain ⟨u, hu, ha⟩ := hs
    obtain ⟨m, hm, h1, h2⟩ := hr.settled u hu s (.inr ha)
    exact ⟨m, hm, h1, fun d hd => ⟨h2 d hd, fun j hj => ⟨u, hu, Relation.TransGen.trans (isInput_of hm hd hj) ha⟩⟩⟩

theorem forall₂_comp {α β γ : Type} {P : α → β → Prop} {Q : β → γ → Prop} {M : α → γ → Prop} : ∀ {as : List α} {bs : List β} {cs : List γ},
    List.Forall₂ P as bs → List.Forall₂ Q bs cs → (∀ a b c, P a b → Q b c → M a c) → List.Forall₂ M as cs
  | _, _, _, .nil, .nil, _ => .nil
  | _, _, _, .cons h1 h2, .cons h3 h4, h => .cons (h _ _ _ h1 h3) (forall₂_comp h2 h4 h)

/-- If a step succeeds on new tensors, then it does on all tensors of these shapes that are ready for it, and leaves them ready. -/
theorem step_ready {a b : Mlp T} {x y x' y' : Nat} {lr lr' : T} {g' : Heap T} {a' : Mlp T} (hg : Reachable g) (hs : ∀ l ∈ a.layers, StdAct l.activation)
    (hf : Fresh g (x :: y :: a.params)) (hw : ∀ t ∈ x :: y :: a.params, ∃ v, dataOf g t = some v ∧ WF v ∧ Pos v.shape)
    (e : trainStep a g x y lr = .ok (g', a')) (ha : a.layers.map (·.activation) = b.layers.map (·.activation))
    (hr : Ready g (x :: y :: a.params) h (x' :: y' :: b.params)) :
    ∃ h' b', trainStep b h x' y' lr' = .ok (h', b') ∧ Ready g (x :: y :: a.params) h' (x' :: y' :: b'.params) ∧
      a.layers.map (·.activation) = b'.layers.map (·.activation) := by
  have hsb := stdAct_of_map ha.symm hs
  have sim := hr.start hg.good hf hw
  have hp := pairs_forall hr.shapes.length_eq
  have hpm : ∀ {i p}, Pairs (x :: y :: a.params) (x' :: y' :: b.params) i p → i ∈ x :: y :: a.params ∧ p ∈ x' :: y' :: b.params := fun h => h.mem
  generalize Pairs (x :: y :: a.params) (x' :: y' :: b.params) = β at sim hp hpm
  obtain _ | ⟨p1, _ | ⟨p2, hp⟩⟩ := hp
  have e0 := e
  simp only [trainStep, R.bind_eq_ok, Prod.exists] at e
  obtain ⟨g1, l, e1, g2, e2, g3, a3, e3, -⟩ := e
  obtain ⟨⟨h1, l'⟩, f1, β1, x1, s1, b1⟩ := trainLoss_like sim ⟨ha, hp⟩ hsb p1 p2 _ e1
  have hxg := hf.lt
  have hxh := hr.loose.exist
  obtain ⟨⟨o1, r1⟩, -⟩ := trainLoss_ops hs hg (hxg x (by simp)) (hxg y (by simp)) (fun p hm => hxg p (by simp [hm])) e1
  obtain ⟨⟨o2, r2⟩, -⟩ := trainLoss_ops hsb hr.reach (hxh x' (by simp)) (hxh y' (by simp)) (fun p hm => hxh p (by simp [hm])) f1
  have rg1 := hg.run r1
  have rh1 := hr.reach.run r2
  obtain ⟨⟨gs, rfl⟩, n, i, hn, hd⟩ := trainLoss_append hs e1
  obtain ⟨⟨hs', rfl⟩, -⟩ := trainLoss_append hsb f1
  obtain ⟨h2, f2⟩ := backward_like s1 rg1 rh1 b1 hn hd e2
  have k2 := sturdy_backward rh1 f2
  have k12 := (sturdy_append h hs').trans k2
  have rh2 : Reachable h2 := rh1.run (ops := [.backward l']) (by simp [runOps, Op.run, f2])
  have k3 := sturdy_append h2 [leafNode (Raw.scalar lr')]
  have rh3 : Reachable (h2 ++ [leafNode (Raw.scalar lr')]) := rh2.run (ops := [.scalar lr']) rfl
  have k123 := k12.trans k3
  -- the parameters have gradients
  have grads : ∀ q ∈ b.params, gradOf h2 q ≠ none := by
    intro q hq
    obtain ⟨p, hpa, hpq⟩ := forall₂_mem_right hp hq
    have anc : Ancestor (g ++ gs) p l := by
      by_contra hna
      have hpl := hxg p (by simp [hpa])
      have h5 := ((C36_backward _ _ l rg1 e2 p (hpl.trans_le (by simp))).2.2.1 hna).2
      rw [gradOf_append hg.good hpl, hf.noGrad p (by simp [hpa])] at h5
      have rg2 : Reachable g2 := rg1.run (ops := [.backward l]) (by simp [runOps, Op.run, e2])
      have l2 : ∀ t ∈ x :: y :: a.params, t < g2.length := fun t ht =>
        (hxg t ht).trans_le ((Frame.append g gs).len.trans (Op.run_frame (op := .backward l) rg1.good e2).1.len)
      have r3 : Reachable (g2 ++ [leafNode (Raw.scalar lr)]) := rg2.run (ops := [.scalar lr]) rfl
      have h7 := sgdParams_grads (h := g2 ++ [leafNode (Raw.scalar lr)]) r3.good (fun p hm => (l2 p (by simp [hm])).trans_le (by simp)) (sgdStep_inv e3) p hpa
      rw [gradOf_append rg2.good (l2 p (by simp [hpa]))] at h7
      exact h7 h5
    obtain ⟨q', hq', hanc⟩ := anc_forth s1 b1 anc
    obtain rfl := s1.left _ _ _ hq' (x1 _ _ hpq)
    obtain ⟨w, hw⟩ := (C36_backward _ _ l' rh1 f2 q' (hxh q' (by simp [hq]) |>.trans_le (by simp))).2.2.2 hanc
    rw [hw]
    exact nofun
  have hlt2 : ∀ t ∈ x' :: y' :: b.params, t < h2.length := fun t ht => (hxh t ht).trans_le k12.frame.len
  have set3 : ∀ u ∈ x' :: y' :: b.params, Settled (h2 ++ [leafNode (Raw.scalar lr')]) u := fun u hu =>
    (hr.settled u hu).keep hr.reach.good k123 (hxh u hu)
  have pok : ∀ q ∈ b.params, ParamOk (h2 ++ [leafNode (Raw.scalar lr')]) q := by
    intro q hq
    have hql := hxh q (by simp [hq])
    obtain ⟨m, hm, st, -⟩ := hr.settled q (by simp [hq]) q (.inl rfl)
    refine ⟨m.val, by rw [k123.frame.dataOf hql]; exact dataOf_eq.2 ⟨m, hm, rfl⟩, st.wf, st.pos, ?_⟩
    rw [gradOf_append rh2.good (hlt2 q (by simp [hq]))]
    refine backward_fits rh1.good f2 (by rw [List.getElem?_append_left hql, hm]) ?_
    rw [gradOf_append hr.reach.good hql, hr.loose.noGrad q (by simp [hq])]
    exact nofun
  have hsc : dataOf (h2 ++ [leafNode (Raw.scalar lr')]) h2.length = some (Raw.scalar lr') := by simp [dataOf, leafNode]
  obtain ⟨h4, b', f3, ⟨ns, rfl⟩, -, acts⟩ := C47_step b (h2 ++ [leafNode (Raw.scalar lr')]) h2.length lr' hsc pok fun q hq => by
    rw [gradOf_append rh2.good (hlt2 q (by simp [hq]))]
    exact grads q hq
  obtain ⟨o4, r4⟩ := sgdStep_ops f3
  have rh4 := rh3.run r4
  have hlt4 : ∀ t ∈ x' :: y' :: b.params, t < (h2 ++ [leafNode (Raw.scalar lr')] ++ ns).length := fun t ht =>
    (hlt2 t ht).trans_le (by simp)
  obtain ⟨h5, f4⟩ : ∃ h5, zeroGrad (h2 ++ [leafNode (Raw.scalar lr')] ++ ns) y' = .ok h5 := by
    simp only [zeroGrad, Heap.node_eq_ok.2 (List.getElem?_eq_getElem (hlt4 y' (by simp))), R.bind_ok]
    exact ⟨_, rfl⟩
  have k5 := sturdy_zeroGrad f4
  obtain ⟨h6, f5⟩ : ∃ h6, zeroGrad h5 x' = .ok h6 := by
    simp only [zeroGrad, Heap.node_eq_ok.2 (List.getElem?_eq_getElem ((hlt4 x' (by simp)).trans_le k5.frame.len)), R.bind_ok]
    exact ⟨_, rfl⟩
  have k46 := k5.trans (sturdy_zeroGrad f5)
  have k36 := (sturdy_append (h2 ++ [leafNode (Raw.scalar lr')]) ns).trans k46
  have e' : trainStep b h x' y' lr' = .ok (h6, b') := by
    simp only [trainStep, f1, R.bind_ok, f2, Heap.leaf, Heap.alloc]
    rw [f3]
    simp only [R.bind_ok, f4, f5]
    rfl
  refine ⟨h6, b', e', ⟨(step_reachable hsb hr.reach hr.loose e').1, step_loose hsb hr.reach hr.loose e', ?_, ?_⟩, ha.trans acts.symm⟩
  all_goals have new := sgdParams_settled rh3.good hsc (fun p hm => ⟨set3 p (by simp [hm]), pok p hm⟩) (sgdStep_inv f3)
  · intro u hu
    have old : u ∈ x' :: y' :: b.params → Settled h6 u := fun hm =>
      (set3 u hm).keep rh3.good k36 ((hlt2 u hm).trans_le (by simp))
    simp only [List.mem_cons] at hu
    rcases hu with rfl | rfl | hu
    · exact old (by simp)
    · exact old (by simp)
    · obtain ⟨p, -, hs, _, w, -, hw, -⟩ := forall₂_mem_right new hu
      obtain ⟨_, hw, -⟩ := dataOf_eq.1 hw
      exact hs.keep rh4.good k46 (getElem?_lt hw)
  · have keep6 := (k123.trans k36).frame
    have old := hr.shapes
    rcases old with _ | ⟨o1, _ | ⟨o2, old⟩⟩
    refine .cons ?_ (.cons ?_ ?_)
    · obtain ⟨v, w, t1, t2, t3⟩ := o1
      exact ⟨v, w, t1, by rw [keep6.dataOf (hxh x' (by simp))]; exact t2, t3⟩
    · obtain ⟨v, w, t1, t2, t3⟩ := o2
      exact ⟨v, w, t1, by rw [keep6.dataOf (hxh y' (by simp))]; exact t2, t3⟩
    · refine forall₂_comp old new fun p q r hq1 hq2 => ?_
      obtain ⟨v, w, t1, t2, t3⟩ := hq1
      obtain ⟨-, w', z, t4, t5, t6⟩ := hq2
      obtain ⟨m, hm, -⟩ := dataOf_eq.1 t2
      rw [k123.frame.dataOf (getElem?_lt hm), t2] at t4
      cases t4
      obtain ⟨m', hm', -⟩ := dataOf_eq.1 t5
      exact ⟨v, z, t1, by rw [k46.frame.dataOf (getElem?_lt hm')]; exact t5, t3.trans t6⟩

/-! ### many steps -/

theorem settled_of_fresh {h : Heap T} (hg : h.Good) {ts : List Nat} (hf : Fresh h ts) (hp : Proper h ts) : ∀ t ∈ ts, Settled h t := by
  intro t ht s hs
  obtain ⟨v, hv, h1, h2⟩ := hp t ht
  obtain ⟨n, hn, rfl⟩ := dataOf_eq.1 hv
  have hd : n.gradFn = none := by
    have := hf.noHistory t ht
    rw [historyOf, hn] at this
    exact Option.some.inj this
  rcases Spec.Feeds.cases hs hn with rfl | ⟨d, hd', -⟩
  · refine ⟨n, hn, ⟨h1, h2, ?_⟩, ?_⟩
    · rw [grad_none hg hn (hf.noGrad s ht)]
      exact nofun
    · rw [hd]
      exact nofun
  · rw [hd] at hd'
    cases hd'

theorem ready_start {g h : Heap T} {ts us : List Nat} (hr : Reachable h) (hf : Fresh h us) (hp : Proper h us) (hs : SameShapes g ts h us) :
    Ready g ts h us := ⟨hr, hf.loose, settled_of_fresh hr.good hf hp, hs⟩

theorem Spec.SameShapes.refl {h : Heap T} {ts : List Nat} (hp : Proper h ts) : SameShapes h ts h ts := by
  induction ts with
  | nil => exact .nil
  | cons t ts ih =>
    obtain ⟨v, hv, -⟩ := hp t (by simp)
    exact .cons ⟨v, v, hv, hv, rfl⟩ (ih fun u hu => hp u (by simp [hu]))

theorem Spec.SameShapes.symm {g h : Heap T} {ts us : List Nat} (hs : SameShapes g ts h us) : SameShapes h us g ts := by
  induction hs with
  | nil => exact .nil
  | cons h1 _ ih =>
    obtain ⟨v, w, h1, h2, h3⟩ := h1
    exact .cons ⟨w, v, h2, h1, h3.symm⟩ ih

theorem ready_rates {a : Mlp T} {x y : Nat} {lr : T} {g g' : Heap T} {a' : Mlp T} (hg : Reachable g) (hs : ∀ l ∈ a.layers, StdAct l.activation)
    (hf : Fresh g (x :: y :: a.params)) (hw : Proper g (x :: y :: a.params)) (e : trainStep a g x y lr = .ok (g', a')) :
    ∀ (lrs : List T) {h : Heap T} {b : Mlp T} {x' y' : Nat}, a.layers.map (·.activation) = b.layers.map (·.activation) →
      Ready g (x :: y :: a.params) h (x' :: y' :: b.params) → ∃ h' b', trainRates b h x' y' lrs = .ok (h', b') ∧
      Ready g (x :: y :: a.params) h' (x' :: y' :: b'.params) ∧ a.layers.map (·.activation) = b'.layers.map (·.activation) := by
  intro lrs
  induction lrs with
  | nil => intro h b x' y' ha hr; exact ⟨h, b, rfl, hr, ha⟩
  | cons r lrs ih =>
    intro h b x' y' ha hr
    obtain ⟨h1, b1, e1, r1, a1⟩ := step_ready (lr' := r) hg hs hf hw e ha hr
    obtain ⟨h2, b2, e2, r2, a2⟩ := ih a1 r1
    exact ⟨h2, b2, by simp only [trainRates, e1, R.bind_ok, e2], r2, a2⟩

theorem trainRates_replicate (mlp : Mlp T) (h : Heap T) (x y : Nat) (lr : T) (n : Nat) :
    trainRates mlp h x y (List.replicate n lr) = train mlp h x y lr n := by
  induction n generalizing mlp h with
  | zero => rfl
  | succ n ih =>
    rw [List.replicate_succ, trainRates, train]
    congr 1
    funext p
    exact ih _ _

end RL
