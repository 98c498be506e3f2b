import Verif.SpecWork
import Verif.Lemmas.ForwardShapes
import Verif.Lemmas.Minibatch
import Verif.Lemmas.MachineTrain

/-!
# The shapes of the tensors that training makes
-/

namespace RL

open Spec

variable {T : Type} [Zero T] [One T] [Add T] [Mul T] [Sub T] [Neg T] [LT T] [DecidableLT T] [LE T] [DecidableLE T] [RealFn T]
variable {h h' : Heap T} {P : List Nat → Prop}

theorem multiplies_prodShape {s t p : List Nat} (hm : Multiplies s t p) : p = prodShape s t := by
  cases hm with
  | matrix => rfl
  | batch => rfl
  | row a m k n => rcases a with - | a <;> rfl

theorem Sound.shapeAt {t : Nat} {s : List Nat} (hs : Sound h t s) : ShapeAt h t s := by
  obtain ⟨n, hn, h1, -⟩ := hs.node
  exact ⟨n, hn, h1⟩

theorem Sound.last {v : Raw T} {g : Option Nat} {d : Option Deriv} {p : List Nat} (hs : Sound (h ++ [⟨v, g, d⟩]) h.length p) : v.shape = p := by
  obtain ⟨n, hn, h1, -⟩ := hs.node
  simp only [List.getElem?_concat_length, Option.some.injEq] at hn
  subst hn
  exact h1

theorem bmmT_work {l r z : Nat} {s t : List Nat} (hg : h.Good) (hz : Sized P h) (hl : Sound h l s) (hr : Sound h r t) (hP : P (prodShape s t))
    (e : bmmT h l r = .ok (h', z)) : Grown P h h' ∧ Sound h' z (prodShape s t) := by
  obtain ⟨-, p, hm, hs⟩ := (bmmT_yields hl hr).sound _ _ e
  obtain rfl := multiplies_prodShape hm
  refine ⟨?_, hs⟩
  have e' := e
  simp only [bmmT, R.bind_eq_ok, Heap.node_eq_ok, R.pure_eq_ok, Heap.alloc] at e'
  obtain ⟨ln, hln, rn, hrn, v, hv, e'⟩ := e'
  cases e'
  exact .op (op := .bmm l r) hg hz (run_of_fst e) rfl (by rw [hs.last]; exact hP) rfl

theorem addT_work {l r z : Nat} {s t : List Nat} (hg : h.Good) (hz : Sized P h) (hl : Sound h l s) (hr : Sound h r t) (hP : P (bshape s t))
    (e : addT h l r = .ok (h', z)) : Grown P h h' ∧ Sound h' z (bshape s t) := by
  obtain ⟨-, p, ⟨-, rfl⟩, hs⟩ := (addT_yields hl hr).sound _ _ e
  refine ⟨?_, hs⟩
  obtain ⟨ln, rn, v, h1, h2, hv, rfl, rfl⟩ := addT_inv e
  exact .op (op := .add l r) hg hz (run_of_fst e) rfl (by rw [hs.last]; exact hP) rfl

theorem unary_work {t z : Nat} {s : List Nat} {op : Op T} {k : JvpKind} {o : T → T} {f : Heap T → Nat → R (Heap T × Nat)} (hg : h.Good) (hz : Sized P h)
    (ht : Sound h t s) (hf : f = fun h t => do
      let n ← h.node t
      let val ← genericUnaryOp (.raw n.val) o
      return h.alloc { val, grad := none, gradFn := some { inputs := [t], kind := k } })
    (e : f h t = .ok (h', z)) (hop : op.run h = .ok h') : Grown P h h' ∧ Sound h' z s := by
  obtain ⟨-, p, rfl, hs⟩ := (unary_yields ht k o f hf).sound _ _ e
  refine ⟨?_, hs⟩
  rw [hf] at e
  simp only [R.bind_eq_ok, Heap.node_eq_ok, R.pure_eq_ok, Heap.alloc] at e
  obtain ⟨n, hn, v, hv, e⟩ := e
  cases e
  refine .op (op := op) hg hz hop rfl (n := ⟨v, none, some ⟨[t], k⟩⟩) ?_ rfl
  obtain ⟨m, hm, h1, -⟩ := ht.node
  have := hz.shapes hm
  rw [h1] at this
  rw [show v.shape = p from hs.last]
  exact this

theorem act_work {t z : Nat} {s : List Nat} (hg : h.Good) (hz : Sized P h) (ht : Sound h t s) {f : Activation T} (hf : StdAct f)
    (e : f h t = .ok (h', z)) : Grown P h h' ∧ Sound h' z s := by
  rcases hf with rfl | rfl | rfl
  · cases e
    exact ⟨.refl hg hz, ht⟩
  · exact unary_work (f := reluT) hg hz ht rfl e (op := .relu t) (run_of_fst e)
  · exact unary_work (f := tanhT) hg hz ht rfl e (op := .tanh t) (run_of_fst e)

theorem Frame.sound {t : Nat} {s : List Nat} (hf : Frame h h') (hs : Sound h t s) : Sound h' t s := by
  obtain ⟨v, h1, h2⟩ := hs
  refine ⟨v, ?_, h2⟩
  obtain ⟨n, hn, -⟩ := dataOf_eq.1 h1
  rw [hf.dataOf (getElem?_lt hn)]
  exact h1

theorem forward_work : ∀ {ls : List (Linear T)} {h h' : Heap T} {x z : Nat} {s sy : List Nat} {ss : List (List Nat × List Nat)}, h.Good → Sized P h →
    (∀ l ∈ ls, StdAct l.activation) → Sound h x s → SoundLayers h ls ss → (∀ p ∈ workShapes s ss sy, P p) →
    (⟨ls⟩ : Mlp T).forward h x = .ok (h', z) → Grown P h h' ∧ ∃ o, Sound h' z o ∧ P (bshape o sy) := by
  intro ls
  induction ls with
  | nil =>
    intro h h' x z s sy ss hg hz _ hx hl hP e
    cases hl
    cases e
    exact ⟨.refl hg hz, s, hx, hP _ (by simp [workShapes])⟩
  | cons l ls ih =>
    intro h h' x z s sy ss hg hz hf hx hl hP e
    rcases hl with _ | @⟨_, ⟨sw, sb⟩, _, ss, ⟨hw, hb⟩, hl⟩
    simp only [Mlp.forward, List.foldlM_cons] at e
    rw [R.bind_eq_ok] at e
    obtain ⟨⟨hc, c⟩, e1, e2⟩ := e
    simp only [Linear.forward, R.bind_eq_ok, Prod.exists] at e1
    obtain ⟨ha, a, e3, hd, d, e4, e5⟩ := e1
    have hout : P (bshape (prodShape s sw) sb) := by
      refine hP _ ?_
      rw [workShapes]
      cases ss <;> simp [workShapes]
    obtain ⟨g1, s1⟩ := bmmT_work hg hz hx hw (hP _ (by simp [workShapes])) e3
    obtain ⟨g2, s2⟩ := addT_work g1.good g1.sized s1 (g1.frame.sound hb) hout e4
    obtain ⟨g3, s3⟩ := act_work g2.good g2.sized s2 (hf l (by simp)) e5
    have g := (g1.trans g2).trans g3
    obtain ⟨g4, s4⟩ := ih (sy := sy) g3.good g3.sized (fun l hm => hf l (by simp [hm])) s3
      (hl.imp fun _ _ h2 => ⟨g.frame.sound h2.1, g.frame.sound h2.2⟩) (fun p hp => hP p (by simp [workShapes, hp])) e2
    exact ⟨g.trans g4, s4⟩

theorem loss_work {mlp : Mlp T} {x y l : Nat} {s sy : List Nat} {ss : List (List Nat × List Nat)} (hg : h.Good) (hz : Sized P h) (h0 : P [])
    (hf : ∀ l ∈ mlp.layers, StdAct l.activation) (hx : Sound h x s) (hy : Sound h y sy) (hl : SoundLayers h mlp.layers ss)
    (hP : ∀ p ∈ workShapes s ss sy, P p) (e : trainLoss mlp h x y = .ok (h', l)) : Grown P h h' := by
  simp only [trainLoss, subT, R.bind_eq_ok, Prod.exists] at e
  obtain ⟨ha, a, e1, hb, b, ⟨hn, n, e5, e2⟩, hc, c, e3, e4⟩ := e
  obtain ⟨g1, o, s1, p1⟩ := forward_work (sy := sy) hg hz hf hx hl hP e1
  obtain ⟨g2, s2⟩ := unary_work (f := negT) g1.good g1.sized (g1.frame.sound hy) rfl e5 (op := .neg y) (run_of_fst e5)
  obtain ⟨g3, s3⟩ := addT_work g2.good g2.sized (g2.frame.sound s1) s2 p1 e2
  obtain ⟨g4, s4⟩ := unary_work (f := absT) g3.good g3.sized s3 rfl e3 (op := .abs b) (run_of_fst e3)
  refine (g1.trans g2).trans ((g3.trans g4).trans ?_)
  have hfr := Op.run_frame (op := .sum c) g4.good (run_of_fst e4)
  obtain ⟨n, v, hn, hv, e5, _⟩ := sumT_inv e4
  refine ⟨hfr.1, hfr.2, ?_⟩
  rw [e5]
  have h1 : Sized P (hc ++ [leafNode (Raw.newWithFiller n.val.shape 1)]) :=
    g4.sized.leaf (n := leafNode (Raw.newWithFiller n.val.shape 1)) g4.good
      (by show P (Raw.newWithFiller n.val.shape (1 : T)).shape; rw [Raw.newWithFiller_eq]; exact g4.sized.shapes hn) rfl
  exact h1.append ((Allocs.leaf _ _).2 g4.good) (by rw [sum_shape hv]; exact h0) (fun _ _ _ _ => .inr (sum_shape hv)) (by simp)

theorem sgdParams_work {s : Nat} : ∀ {ps : List Nat} {h h' : Heap T} {qs : List Nat}, h.Good → Sized P h →
    (∀ p ∈ ps, p < h.length ∧ ∀ v g, dataOf h p = some v → gradOf h p = some g → g.shape = v.shape) → ShapeAt h s [] →
    sgdParams h s ps = .ok (h', qs) → Grown P h h' := by
  intro ps
  induction ps with
  | nil =>
    intro h h' qs hg hs _ _ e
    cases e
    exact .refl hg hs
  | cons p ps ih =>
    intro h h' qs hg hs hp hst e
    rw [sgdParams_cons, R.bind_eq_ok] at e
    obtain ⟨⟨h1, q⟩, e1, e⟩ := e
    simp only [R.bind_eq_ok] at e
    obtain ⟨⟨h2, qs'⟩, e2, e3⟩ := e
    rw [R.pure_eq_ok] at e3
    cases e3
    have g1 : Grown P h h1 ∧ ∃ ns, h1 = h ++ ns := by
      obtain ⟨ops, eo⟩ := sgdParam_runOps e1
      obtain ⟨hf, hg'⟩ := runOps_frame hg eo
      obtain ⟨pn, gn, sn, g, delta, neg, val, h1, h2, h3, h4, h5, h6, h7, rfl, e'⟩ := sgdParam_inv e1
      have hgs : gn.val.shape = pn.val.shape := (hp p (by simp)).2 _ _ (dataOf_eq.2 ⟨pn, h1, rfl⟩) (gradOf_some h1 h2 h3)
      have hd : delta.shape = pn.val.shape := by rw [mulRaw_scalar_shape h5 (hst.get h4)]; exact hgs
      have hn : neg.shape = pn.val.shape := (genericUnaryOp_shape h6).trans hd
      have hv : val.shape = pn.val.shape := by
        rw [(genericBinopRaw_post _ _ _ val h7).1]
        show maxShape pn.val.shape neg.shape = _
        rw [hn, maxShape_self]
      have hP : P pn.val.shape := hs.shapes h1
      subst e'
      refine ⟨⟨hf, hg', hs.leafs hg ?_⟩, _, rfl⟩
      simp only [List.mem_cons, List.not_mem_nil, or_false, forall_eq_or_imp, forall_eq, leafNode, hd, hn, hv, hP, true_and, and_self]
    obtain ⟨g1, ns, rfl⟩ := g1
    refine g1.trans (ih g1.good g1.sized (fun p hm => ?_) (hst.frame g1.frame) e2)
    obtain ⟨h3, h4⟩ := hp p (by simp [hm])
    refine ⟨h3.trans_le (by simp), fun v g hv hgr => h4 v g ?_ ?_⟩
    · rwa [g1.frame.dataOf h3] at hv
    · rwa [gradOf_append hg h3] at hgr

theorem Trainee.sound {data params : List Nat} (ht : Trainee h data params) {t : Nat} (hm : t ∈ data ++ params) {s : List Nat}
    (hs : HasShape h t s) : Sound h t s := by
  obtain ⟨v, h1, h2⟩ := hs
  obtain ⟨n, hn, st⟩ := ht.node hm
  rw [dataOf, hn] at h1
  cases h1
  exact ⟨n.val, by rw [dataOf, hn]; rfl, st.wf, h2 ▸ st.pos, h2⟩

/-- A training step makes tensors with shapes in `P` only. -/
theorem step_work {mlp mlp' : Mlp T} {data : List Nat} {x y : Nat} {lr : T} {s sy : List Nat} {ss : List (List Nat × List Nat)}
    (ht : Trainee h data mlp.params) (hx : x ∈ data) (hy : y ∈ data) (hu : ∀ l ∈ mlp.layers, StdAct l.activation)
    (hxs : HasShape h x s) (hys : HasShape h y sy) (hl : LayerShapes h mlp ss) (hz : Sized P h) (h0 : P []) (hP : ∀ p ∈ workShapes s ss sy, P p)
    (e : trainStep mlp h x y lr = .ok (h', mlp')) : Grown P h h' := by
  have hr := ht.reach
  have hl' : SoundLayers h mlp.layers ss := by
    have mem : ∀ l ∈ mlp.layers, l.weights ∈ data ++ mlp.params ∧ l.bias ∈ data ++ mlp.params := by
      intro l hm
      simp only [Mlp.params, List.mem_append, List.mem_flatMap, Linear.params]
      exact ⟨.inr ⟨l, hm, by simp⟩, .inr ⟨l, hm, by simp⟩⟩
    unfold LayerShapes at hl
    clear hu e hP
    generalize mlp.layers = ls at hl mem
    induction hl with
    | nil => exact .nil
    | cons h1 _ ih =>
      obtain ⟨m1, m2⟩ := mem _ List.mem_cons_self
      exact .cons ⟨ht.sound m1 h1.1, ht.sound m2 h1.2⟩ (ih fun l hm => mem l (by simp [hm]))
  simp only [trainStep, R.bind_eq_ok, Prod.exists] at e
  obtain ⟨h1, l, e1, h2, e2, h3, mlp3, e3, h4, e4, h5, e5, e6⟩ := e
  rw [R.pure_eq_ok] at e6
  cases e6
  have sx := ht.sound (by simp [hx]) hxs
  have sy' := ht.sound (by simp [hy]) hys
  have g1 := loss_work hr.good hz h0 hu sx sy' hl' hP e1
  obtain ⟨⟨ns, rfl⟩, -⟩ := (trainLoss_yields hu sx sy' hl').sound _ _ e1
  have hf2 := Op.run_frame (op := .backward l) g1.good e2
  have g2 : Grown P (h ++ ns) h2 := ⟨hf2.1, hf2.2, backward_sized g1.good g1.sized e2⟩
  have g2' : Grown P h2 (h2.leaf (Raw.scalar lr)).1 := .op (op := .scalar lr) g2.good g2.sized rfl (n := leafNode (Raw.scalar lr)) rfl h0 rfl
  have hst : ShapeAt (h2.leaf (Raw.scalar lr)).1 (h2.leaf (Raw.scalar lr)).2 [] := shapeAt_last h2 (leafNode (Raw.scalar lr))
  have g3 : Grown P (h2.leaf (Raw.scalar lr)).1 h3 := by
    refine sgdParams_work g2'.good g2'.sized (fun p hm => ?_) hst (sgdStep_inv e3)
    have hlt := ht.lt (t := p) (by simp [hm])
    obtain ⟨n, hn, -⟩ := ht.node (t := p) (by simp [hm])
    have hlt2 := hlt.trans_le (g1.trans g2).frame.len
    refine ⟨hlt2.trans_le g2'.frame.len, fun v g hv hgr => ?_⟩
    rw [((g1.trans g2).trans g2').frame.dataOf hlt, dataOf, hn] at hv
    cases hv
    have hgr' : gradOf h2 p = some g := by
      rw [← gradOf_append (ns := [leafNode (Raw.scalar lr)]) g2.good hlt2]
      exact hgr
    refine (backward_fits g1.good e2 (by rw [List.getElem?_append_left hlt, hn]) ?_ g hgr').1
    rw [gradOf_append hr.good hlt]
    exact fun g hg => ht.fits p hm n.val g (dataOf_eq.2 ⟨n, hn, rfl⟩) hg
  have g4 := zeroGrad_grown g3.good g3.sized e4
  have g5 := zeroGrad_grown g4.good g4.sized e5
  exact ((g1.trans g2).trans g2').trans ((g3.trans g4).trans g5)

theorem each_work : ∀ (bs : List (Nat × Nat × T)) {h h' : Heap T} {mlp mlp' : Mlp T} {data : List Nat} {ss : List (List Nat × List Nat)},
    Trainee h data mlp.params → (∀ l ∈ mlp.layers, StdAct l.activation) → LayerShapes h mlp ss → (∀ b ∈ bs, b.1 ∈ data ∧ b.2.1 ∈ data) →
    Sized P h → P [] → (∀ b ∈ bs, ∀ p ∈ workShapes (shapeOf h b.1) ss (shapeOf h b.2.1), P p) → trainEach mlp h bs = .ok (h', mlp') → Grown P h h' := by
  intro bs
  induction bs with
  | nil =>
    intro h h' mlp mlp' data ss ht _ _ _ hz _ _ e
    cases e
    exact .refl ht.reach.good hz
  | cons b bs ih =>
    obtain ⟨x, y, lr⟩ := b
    intro h h' mlp mlp' data ss ht ha hl hb hz h0 hP e
    obtain ⟨hx, hy⟩ := hb (x, y, lr) (by simp)
    obtain ⟨s1, s2⟩ := step_trains lr ht hx hy ha (hasShape_of ht hx) (hasShape_of ht hy) hl
    rw [trainEach, R.bind_eq_ok] at e
    obtain ⟨⟨h1, mlp1⟩, e1, e2⟩ := e
    obtain ⟨_, _, e1', q1, q2, q3, q4⟩ := s2 (s1 ⟨_, e1⟩)
    rw [e1] at e1'
    cases e1'
    have g1 := step_work ht hx hy ha (hasShape_of ht hx) (hasShape_of ht hy) hl hz h0 (hP (x, y, lr) (by simp)) e1
    refine g1.trans (ih q1 (stdAct_of_map q2 ha) q4 (fun b hm => hb b (by simp [hm])) g1.sized h0 (fun b hm => ?_) e2)
    have : shapeOf h1 b.1 = shapeOf h b.1 ∧ shapeOf h1 b.2.1 = shapeOf h b.2.1 :=
      ⟨by rw [shapeOf, q3 _ (hb b (by simp [hm])).1]; rfl, by rw [shapeOf, q3 _ (hb b (by simp [hm])).2]; rfl⟩
    rw [this.1, this.2]
    exact hP b (by simp [hm])

/-! ## With 64-bit numbers -/

namespace Kit

def each (K : Kit T) (mlp : Mlp T) (h : Heap T) : List (Nat × Nat × T) → R (Heap T × Mlp T)
  | [] => return (h, mlp)
  | (x, y, lr) :: bs => do
    let (h, mlp) ← K.step mlp h x y lr
    each K mlp h bs

end Kit

theorem natKit_each (mlp : Mlp T) (h : Heap T) (bs : List (Nat × Nat × T)) : natKit.each mlp h bs = trainEach mlp h bs := by
  induction bs generalizing mlp h with
  | nil => rfl
  | cons b bs ih =>
    obtain ⟨x, y, lr⟩ := b
    rw [Kit.each, trainEach]
    exact congrArg _ (funext fun r => ih r.2 r.1)

theorem kitU_each (p : Profile) (mlp : Mlp T) (h : Heap T) (bs : List (Nat × Nat × T)) : (kitU p).each mlp h bs = trainEachU p mlp h bs := by
  induction bs generalizing mlp h with
  | nil => rfl
  | cons b bs ih =>
    obtain ⟨x, y, lr⟩ := b
    rw [Kit.each, trainEachU]
    exact congrArg _ (funext fun r => ih r.2 r.1)

theorem Moves.each {A B : Kit T} {J Q : Heap T → Prop} (M : Moves A B J Q) : ∀ {bs : List (Nat × Nat × T)} {mlp mlp' nlp : Mlp T} {h h' : Heap T},
    LayersMatch A B mlp.layers nlp.layers → J h → A.each mlp h bs = .ok (h', mlp') →
    J h' ∧ ∃ nlp', LayersMatch A B mlp'.layers nlp'.layers ∧ (Q h' → Q h ∧ B.each nlp h bs = .ok (h', nlp')) := by
  intro bs
  induction bs with
  | nil => intro mlp mlp' nlp h h' hm hj e; cases e; exact ⟨hj, nlp, hm, fun hq => ⟨hq, rfl⟩⟩
  | cons b bs ih =>
    obtain ⟨x, y, lr⟩ := b
    intro mlp mlp' nlp h h' hm hj e
    rw [Kit.each, R.bind_eq_ok] at e
    obtain ⟨⟨h1, mlp1⟩, e1, e2⟩ := e
    obtain ⟨j1, nlp1, m1, q1⟩ := M.step hm hj e1
    obtain ⟨j2, nlp2, m2, q2⟩ := ih m1 j1 e2
    refine ⟨j2, nlp2, m2, fun hq => ?_⟩
    obtain ⟨r2, f2⟩ := q2 hq
    obtain ⟨r1, f1⟩ := q1 r2
    exact ⟨r1, by rw [Kit.each, f1, R.bind_ok]; exact f2⟩

/-- Success that carries over from `A` to `B` and always from `B` to `C` carries over from `A` to `C`. -/
theorem Moves.comp {A B C : Kit T} {J Q : Heap T → Prop} (M : Moves A B J Q) (N : Moves B C (fun _ => True) fun _ => True) : Moves A C J Q where
  bmm hj e := ⟨(M.bmm hj e).1, fun hq => ⟨((M.bmm hj e).2 hq).1, ((N.bmm trivial ((M.bmm hj e).2 hq).2).2 trivial).2⟩⟩
  add hj e := ⟨(M.add hj e).1, fun hq => ⟨((M.add hj e).2 hq).1, ((N.add trivial ((M.add hj e).2 hq).2).2 trivial).2⟩⟩
  sub hj e := ⟨(M.sub hj e).1, fun hq => ⟨((M.sub hj e).2 hq).1, ((N.sub trivial ((M.sub hj e).2 hq).2).2 trivial).2⟩⟩
  abs hj e := ⟨(M.abs hj e).1, fun hq => ⟨((M.abs hj e).2 hq).1, ((N.abs trivial ((M.abs hj e).2 hq).2).2 trivial).2⟩⟩
  sum hj e := ⟨(M.sum hj e).1, fun hq => ⟨((M.sum hj e).2 hq).1, ((N.sum trivial ((M.sum hj e).2 hq).2).2 trivial).2⟩⟩
  act hj e := ⟨(M.act hj e).1, fun hq => ⟨((M.act hj e).2 hq).1, ((N.act trivial ((M.act hj e).2 hq).2).2 trivial).2⟩⟩
  mul hj hq hs hg e := N.mul trivial trivial hs hg (M.mul hj hq hs hg e)
  backward hj e := ⟨(M.backward hj e).1, fun hq => ⟨((M.backward hj e).2 hq).1, ((N.backward trivial ((M.backward hj e).2 hq).2).2 trivial).2⟩⟩
  leaf := M.leaf
  zeroGrad := M.zeroGrad

end RL
