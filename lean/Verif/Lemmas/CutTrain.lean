import Verif.SpecDetach
import Verif.Lemmas.Cut
import Verif.Lemmas.TrainTree

/-!
# Training on tensors whose history is forgotten
-/

namespace RL

open Spec

variable {T : Type} [Zero T] [One T] [Add T] [Mul T] [Sub T] [Neg T] [LT T] [DecidableLT T] [LE T] [DecidableLE T] [RealFn T]
variable {β β' : Nat → Nat → Prop} {S : Nat → Prop} {g h : Heap T}

/-! ### networks -/

/-- The same network on corresponding tensors. -/
structure NetSim (β : Nat → Nat → Prop) (a b : Mlp T) : Prop where
  acts : a.layers.map (·.activation) = b.layers.map (·.activation)
  params : List.Forall₂ β a.params b.params

theorem NetSim.ext (hb : Ext β β') {a b : Mlp T} (hn : NetSim β a b) : NetSim β' a b := ⟨hn.acts, hn.params.imp hb⟩

theorem NetSim.cons {l l' : Linear T} {ls ls' : List (Linear T)} (hn : NetSim β ⟨l :: ls⟩ ⟨l' :: ls'⟩) :
    l.activation = l'.activation ∧ β l.weights l'.weights ∧ β l.bias l'.bias ∧ NetSim β ⟨ls⟩ ⟨ls'⟩ := by
  obtain ⟨h1, h2⟩ := hn
  rw [(C46_params _ _).2, (C46_params _ _).2] at h2
  cases h2 with
  | cons h3 h2 =>
    cases h2 with
    | cons h4 h2 =>
      rw [List.map_cons, List.map_cons, List.cons.injEq] at h1
      exact ⟨h1.1, h3, h4, h1.2, h2⟩

theorem forward_sim : ∀ {ls ls' : List (Linear T)} {β : Nat → Nat → Prop} {g h : Heap T}, CutSim β S g h → NetSim β ⟨ls⟩ ⟨ls'⟩ →
    (∀ l ∈ ls', StdAct l.activation) → ∀ {x x' : Nat}, β x x' → Follows (ResSim β S) ((⟨ls⟩ : Mlp T).forward g x) ((⟨ls'⟩ : Mlp T).forward h x') := by
  intro ls
  induction ls with
  | nil =>
    intro ls' β g h hh hn _ x x' hx
    cases ls' with
    | nil => exact .ok ⟨β, Ext.refl β, hh, hx⟩
    | cons l ls => exact absurd hn.acts (by simp)
  | cons l ls ih =>
    intro ls' β g h hh hn hf x x' hx
    cases ls' with
    | nil => exact absurd hn.acts (by simp)
    | cons l' ls' =>
      obtain ⟨h1, h2, h3, h4⟩ := hn.cons
      rw [Mlp.forward, Mlp.forward, List.foldlM_cons, List.foldlM_cons]
      refine Follows.bind (P := ResSim β S) ?_ ?_
      · simp only [Linear.forward]
        refine (bmmT_sim hh hx h2).bind ?_
        rintro ⟨g1, a⟩ ⟨k1, b⟩ ⟨β1, x1, s1, b1⟩
        refine (addT_sim s1 b1 (x1 _ _ h3)).bind ?_
        rintro ⟨g2, a2⟩ ⟨k2, b2⟩ ⟨β2, x2, s2, b2⟩
        rw [h1]
        exact (act_sim s2 (hf l' (by simp)) b2).mono fun _ _ hr => hr.ext (x1.trans x2)
      · rintro ⟨g1, a⟩ ⟨k1, b⟩ ⟨β1, x1, s1, b1⟩
        exact (ih s1 (h4.ext x1) (fun l hl => hf l (by simp [hl])) b1).mono fun _ _ hr => hr.ext x1

theorem trainLoss_sim (hh : CutSim β S g h) {a b : Mlp T} (hn : NetSim β a b) (hf : ∀ l ∈ b.layers, StdAct l.activation) {x x' y y' : Nat}
    (hx : β x x') (hy : β y y') : Follows (ResSim β S) (trainLoss a g x y) (trainLoss b h x' y') := by
  rw [trainLoss, trainLoss]
  refine (forward_sim (ls := a.layers) (ls' := b.layers) hh hn hf hx).bind ?_
  rintro ⟨g1, p1⟩ ⟨k1, q1⟩ ⟨β1, x1, s1, b1⟩
  refine (subT_sim s1 b1 (x1 _ _ hy)).bind ?_
  rintro ⟨g2, p2⟩ ⟨k2, q2⟩ ⟨β2, x2, s2, b2⟩
  refine (absT_sim s2 b2).bind ?_
  rintro ⟨g3, p3⟩ ⟨k3, q3⟩ ⟨β3, x3, s3, b3⟩
  exact (sumT_sim s3 b3).mono fun _ _ hr => hr.ext (x1.trans (x2.trans x3))

theorem sgdParam_sim (hh : CutSim β S g h) {s s' p p' : Nat} (hs : β s s') (hp : β p p') :
    Follows (ResSim β S) (sgdParam g s p) (sgdParam h s' p') := by
  rw [sgdParam, sgdParam]
  refine (gradT_sim hh hp).bind fun c c' hc => (node_sim hh hc).bind fun cn cn' hcn => (node_sim hh hs).bind fun sn sn' hsn => ?_
  rw [hcn.val, hsn.val]
  refine Follows.same _ fun delta => ?_
  obtain ⟨β1, x1, s1, b1⟩ := leaf_sim hh delta
  refine (subT_sim s1 (x1 _ _ hp) b1).bind ?_
  rintro ⟨g2, p2⟩ ⟨k2, q2⟩ ⟨β2, x2, s2, b2⟩
  refine (zeroGrad_sim s2 b2).bind fun g3 h3 s3 => .ok ⟨β2, x1.trans x2, s3, b2⟩

theorem sgdParams_sim : ∀ {ps ps' : List Nat} {β : Nat → Nat → Prop} {g h : Heap T} {s s' : Nat}, CutSim β S g h → β s s' → List.Forall₂ β ps ps' →
    Follows (fun p q => ∃ β', Ext β β' ∧ CutSim β' S p.1 q.1 ∧ List.Forall₂ β' p.2 q.2) (sgdParams g s ps) (sgdParams h s' ps') := by
  intro ps
  induction ps with
  | nil =>
    intro ps' β g h s s' hh _ hps
    cases hps
    exact .ok ⟨β, Ext.refl β, hh, .nil⟩
  | cons p ps ih =>
    intro ps' β g h s s' hh hs hps
    cases hps with
    | cons hp hps =>
      rw [sgdParams_cons, sgdParams_cons]
      refine (sgdParam_sim hh hs hp).bind ?_
      rintro ⟨g1, p1⟩ ⟨k1, q1⟩ ⟨β1, x1, s1, b1⟩
      refine (ih s1 (x1 _ _ hs) (hps.imp x1)).bind ?_
      rintro ⟨g2, p2⟩ ⟨k2, q2⟩ ⟨β2, x2, s2, b2⟩
      exact .ok ⟨β2, x1.trans x2, s2, .cons (x2 _ _ b1) b2⟩

theorem params_length (m : Mlp T) : m.params.length = 2 * m.layers.length := by
  obtain ⟨ls⟩ := m
  induction ls with
  | nil => rfl
  | cons l ls ih => rw [(C46_params _ _).2]; simp [ih]; omega

theorem sgdStep_sim (hh : CutSim β S g h) {a b : Mlp T} (hn : NetSim β a b) {s s' : Nat} (hs : β s s') :
    Follows (fun p q => ∃ β', Ext β β' ∧ CutSim β' S p.1 q.1 ∧ NetSim β' p.2 q.2) (a.sgdStep g s) (b.sgdStep h s') := by
  rintro ⟨h', b'⟩ e
  have e1 := sgdStep_inv e
  have e2 := sgdStep_acts e
  obtain ⟨⟨g', qs⟩, f1, β1, x1, s1, b1⟩ := sgdParams_sim hh hs hn.params _ e1
  have hl : qs.length = 2 * a.layers.length := by
    rw [← params_length, ← (sgdParams_inv f1).2.length_eq]
  obtain ⟨a', u1, u2, u3⟩ := C46_update a qs hl
  refine ⟨(g', a'), ?_, β1, x1, s1, u3.trans (hn.acts.trans e2.symm), ?_⟩
  · simp only [Mlp.sgdStep, f1, R.bind_ok, u1]
    rfl
  · rw [u2]
    exact b1

/-- the loss is computed by public operations -/
theorem trainLoss_ops {a : Mlp T} (hf : ∀ l ∈ a.layers, StdAct l.activation) (hr : Reachable g) {x y l : Nat} {g' : Heap T} (hx : x < g.length)
    (hy : y < g.length) (hp : ∀ p ∈ a.params, p < g.length) (e : trainLoss a g x y = .ok (g', l)) :
    (∃ ops, runOps g ops = .ok g') ∧ ∀ n, g'[l]? = some n → n.gradFn ≠ none := by
  refine ⟨(trainLoss_ways hr (fun l hl => actCost_spec (stdAct_extends (hf l hl))) (fun p hm => ⟨hp p hm, wayCount_spec hr (hp p hm)⟩) hx hy
    (wayCount_spec hr hx) (wayCount_spec hr hy) e).1, fun n hn => ?_⟩
  simp only [trainLoss, R.bind_eq_ok, Prod.exists] at e
  obtain ⟨_, _, -, _, _, -, h3, _, -, e⟩ := e
  obtain ⟨_, v, -, -, rfl, rfl⟩ := sumT_inv e
  simp at hn
  rw [← hn]
  simp

theorem stdAct_of_map {a b : Mlp T} (h : a.layers.map (·.activation) = b.layers.map (·.activation)) (hf : ∀ l ∈ b.layers, StdAct l.activation) :
    ∀ l ∈ a.layers, StdAct l.activation := acts_of_map (P := StdAct) h hf

theorem NetSim.lt (hh : CutSim β S g h) {a b : Mlp T} (hn : NetSim β a b) : (∀ p ∈ a.params, p < g.length) ∧ ∀ p ∈ b.params, p < h.length := by
  have := hn.params
  generalize a.params = ps, b.params = qs at this
  induction this with
  | nil => simp
  | cons h1 _ ih =>
    simp only [List.mem_cons, forall_eq_or_imp]
    exact ⟨⟨(hh.lt h1).1, ih.1⟩, (hh.lt h1).2, ih.2⟩

theorem trainStep_sim (hh : CutSim β S g h) (hg : Reachable g) (hr : Reachable h) {a b : Mlp T} (hn : NetSim β a b)
    (hf : ∀ l ∈ b.layers, StdAct l.activation) {x x' y y' : Nat} (hx : β x x') (hy : β y y') (lr : T) :
    Follows (fun p q => ∃ β', Ext β β' ∧ CutSim β' S p.1 q.1 ∧ NetSim β' p.2 q.2) (trainStep a g x y lr) (trainStep b h x' y' lr) := by
  rw [trainStep, trainStep]
  refine Follows.bind (P := fun p q => ResSim β S p q ∧ p.1.Good ∧ q.1.Good ∧ ∀ n, p.1[p.2]? = some n → n.gradFn ≠ none) ?_ ?_
  · rintro ⟨h1, l'⟩ e1
    obtain ⟨⟨g1, l⟩, f1, hs⟩ := trainLoss_sim hh hn hf hx hy _ e1
    obtain ⟨lt1, lt2⟩ := hn.lt hh
    obtain ⟨⟨o1, r1⟩, hroot⟩ := trainLoss_ops (stdAct_of_map hn.acts hf) hg (hh.lt hx).1 (hh.lt hy).1 lt1 f1
    obtain ⟨⟨o2, r2⟩, -⟩ := trainLoss_ops hf hr (hh.lt hx).2 (hh.lt hy).2 lt2 e1
    exact ⟨(g1, l), f1, hs, (hg.run r1).good, (hr.run r2).good, hroot⟩
  · rintro ⟨g1, l⟩ ⟨h1, l'⟩ ⟨⟨β1, x1, s1, b1⟩, hg1, hh1, hroot⟩
    refine (backward_sim s1 hg1 hh1 b1 hroot).bind ?_
    rintro g2 h2 ⟨β2, x2, s2⟩
    obtain ⟨β3, x3, s3, b3⟩ := leaf_sim s2 (Raw.scalar lr)
    have x13 := x1.trans (x2.trans x3)
    refine (sgdStep_sim s3 (hn.ext x13) b3).bind ?_
    rintro ⟨g4, a4⟩ ⟨h4, c4⟩ ⟨β4, x4, s4, n4⟩
    have x14 := x13.trans x4
    refine (zeroGrad_sim s4 (x14 _ _ hy)).bind fun g5 h5 s5 => (zeroGrad_sim s5 (x14 _ _ hx)).bind fun g6 h6 s6 => ?_
    exact .ok ⟨β4, x14, s6, n4⟩

/-! ### steps are made of public operations -/

theorem sgdStep_ops {a a' : Mlp T} {s : Nat} {g' : Heap T} (e : a.sgdStep g s = .ok (g', a')) : ∃ ops, runOps g ops = .ok g' :=
  sgdParams_runOps (sgdStep_inv e)

theorem trainStep_ops {a a' : Mlp T} (hf : ∀ l ∈ a.layers, StdAct l.activation) (hr : Reachable g) {x y : Nat} {g' : Heap T} {lr : T}
    (hx : x < g.length) (hy : y < g.length) (hp : ∀ p ∈ a.params, p < g.length) (e : trainStep a g x y lr = .ok (g', a')) :
    ∃ k1 k2 ops1, runOps g ops1 = .ok k1 ∧ a.sgdStep k1 (k1.length - 1) = .ok (k2, a') ∧ runOps k2 [.zeroGrad y, .zeroGrad x] = .ok g' := by
  simp only [trainStep] at e
  rw [R.bind_eq_ok] at e
  obtain ⟨⟨h1, l⟩, e1, e⟩ := e
  simp only [R.bind_eq_ok, Prod.exists] at e
  obtain ⟨h2, e2, h3, mlp1, e3, h4, e4, h5, e5, e6⟩ := e
  rw [R.pure_eq_ok] at e6
  cases e6
  obtain ⟨⟨o1, r1⟩, -⟩ := trainLoss_ops hf hr hx hy hp e1
  refine ⟨(h2.leaf (Raw.scalar lr)).1, h3, o1 ++ [.backward l, .scalar lr], ?_, ?_, ?_⟩
  · rw [runOps_append, r1, R.bind_ok, runOps_cons]
    simp only [Op.run, e2, R.bind_ok]
    rw [runOps_cons]
    rfl
  · have : (h2.leaf (Raw.scalar lr)).1.length - 1 = h2.length := by simp [Heap.leaf, Heap.alloc]
    rw [this]
    exact e3
  · rw [runOps_cons]
    simp only [Op.run, e4, R.bind_ok]
    rw [runOps_cons]
    simp only [Op.run, e5, R.bind_ok]
    rfl

theorem trainStep_reachable {a a' : Mlp T} (hf : ∀ l ∈ a.layers, StdAct l.activation) (hr : Reachable g) {x y : Nat} {g' : Heap T} {lr : T}
    (hx : x < g.length) (hy : y < g.length) (hp : ∀ p ∈ a.params, p < g.length) (e : trainStep a g x y lr = .ok (g', a')) :
    Reachable g' ∧ Frame g g' := by
  obtain ⟨k1, k2, o1, r1, e2, r3⟩ := trainStep_ops hf hr hx hy hp e
  obtain ⟨o2, r2⟩ := sgdStep_ops e2
  have q1 := hr.run r1
  have q2 := q1.run r2
  exact ⟨q2.run r3, ((runOps_frame hr.good r1).1.trans (runOps_frame q1.good r2).1).trans (runOps_frame q2.good r3).1⟩

theorem train_sim {n : Nat} : ∀ {β : Nat → Nat → Prop} {g h : Heap T}, CutSim β S g h → Reachable g → Reachable h → ∀ {a b : Mlp T},
    NetSim β a b → (∀ l ∈ b.layers, StdAct l.activation) → ∀ {x x' y y' : Nat}, β x x' → β y y' → ∀ (lr : T),
    Follows (fun p q => ∃ β', Ext β β' ∧ CutSim β' S p.1 q.1 ∧ NetSim β' p.2 q.2) (train a g x y lr n) (train b h x' y' lr n) := by
  induction n with
  | zero => intro β g h hh _ _ a b hn _ x x' y y' _ _ lr; exact .ok ⟨β, Ext.refl β, hh, hn⟩
  | succ n ih =>
    intro β g h hh hg hr a b hn hf x x' y y' hx hy lr
    rw [train, train]
    rintro ⟨h2, b2⟩ e
    rw [R.bind_eq_ok] at e
    obtain ⟨⟨h1, b1⟩, e1, e2⟩ := e
    obtain ⟨⟨g1, a1⟩, f1, β1, x1, s1, n1⟩ := trainStep_sim hh hg hr hn hf hx hy lr _ e1
    obtain ⟨lt1, lt2⟩ := hn.lt hh
    have r1 := (trainStep_reachable (stdAct_of_map hn.acts hf) hg (hh.lt hx).1 (hh.lt hy).1 lt1 f1).1
    obtain ⟨_, _, _, -, q2, -⟩ := trainStep_ops hf hr (hh.lt hx).2 (hh.lt hy).2 lt2 e1
    have r2 := (trainStep_reachable hf hr (hh.lt hx).2 (hh.lt hy).2 lt2 e1).1
    obtain ⟨⟨g2, a2⟩, f2, β2, x2, s2, n2⟩ := ih s1 r1 r2 n1 (stdAct_of_map (sgdStep_acts q2) hf) (x1 _ _ hx) (x1 _ _ hy) lr _ e2
    exact ⟨(g2, a2), by rw [f1]; exact f2, β2, x1.trans x2, s2, n2⟩

/-! ### the start -/

theorem Spec.Fresh.lt {ts : List Nat} (hf : Fresh g ts) : ∀ t ∈ ts, t < g.length := fun t ht => by
  have := hf.noHistory t ht
  rcases Nat.lt_or_ge t g.length with hl | hl
  · exact hl
  · rw [historyOf, List.getElem?_eq_none hl] at this
    cases this

theorem Spec.Fresh.loose {ts : List Nat} (hf : Fresh g ts) : Loose g ts := by
  refine ⟨hf.nodup, hf.lt, hf.noGrad, fun s _ t ht ha => ?_⟩
  obtain ⟨c, -, n, d, hn, hd, -⟩ := Relation.TransGen.tail'_iff.1 ha
  have := hf.noHistory t ht
  rw [historyOf, hn, Option.map_some, hd] at this
  cases this

theorem grad_none {h : Heap T} (hg : h.Good) {t : Nat} {n : Node T} (hn : h[t]? = some n) (e : gradOf h t = none) : n.grad = none := by
  cases hgr : n.grad with
  | none => rfl
  | some c =>
    have hc := (hg t n hn).grad c hgr
    rw [gradOf_some hn hgr (List.getElem?_eq_getElem hc)] at e
    cases e

/-- The tensors at the same positions of two lists. -/
def Pairs (ts us : List Nat) (i p : Nat) : Prop := (i, p) ∈ ts.zip us

theorem Pairs.mem {ts us : List Nat} {i p : Nat} (hp : Pairs ts us i p) : i ∈ ts ∧ p ∈ us := List.of_mem_zip hp

theorem pairs_left : ∀ {ts us : List Nat} (_ : ts.Nodup) {i p q : Nat}, Pairs ts us i p → Pairs ts us i q → p = q := by
  intro ts
  induction ts with
  | nil => intro us _ i p q h1; simp [Pairs] at h1
  | cons t ts ih =>
    intro us ht i p q h1 h2
    cases us with
    | nil => simp [Pairs] at h1
    | cons u us =>
      simp only [Pairs, List.zip_cons_cons, List.mem_cons, Prod.mk.injEq] at h1 h2
      obtain ⟨h3, h4⟩ := List.nodup_cons.1 ht
      rcases h1 with ⟨rfl, rfl⟩ | h1
      · rcases h2 with ⟨-, rfl⟩ | h2
        · rfl
        · exact absurd (List.of_mem_zip h2).1 h3
      · rcases h2 with ⟨rfl, rfl⟩ | h2
        · exact absurd (List.of_mem_zip h1).1 h3
        · exact ih h4 h1 h2

theorem pairs_swap {ts us : List Nat} {i p : Nat} (hp : Pairs ts us i p) : Pairs us ts p i := by
  have : (i, p) ∈ (us.zip ts).map Prod.swap := by rw [List.zip_swap]; exact hp
  obtain ⟨⟨a, b⟩, h1, h2⟩ := List.mem_map.1 this
  cases h2
  exact h1

theorem pairs_rel {R : Nat → Nat → Prop} {ts us : List Nat} (hr : List.Forall₂ R ts us) {i p : Nat} (hp : Pairs ts us i p) : R i p := by
  induction hr with
  | nil => simp [Pairs] at hp
  | cons h1 _ ih =>
    simp only [Pairs, List.zip_cons_cons, List.mem_cons, Prod.mk.injEq] at hp
    rcases hp with ⟨rfl, rfl⟩ | hp
    · exact h1
    · exact ih hp

theorem pairs_forall : ∀ {ts us : List Nat}, ts.length = us.length → List.Forall₂ (Pairs ts us) ts us := by
  intro ts us hl
  rw [List.forall₂_iff_zip]
  exact ⟨hl, fun h => h⟩

theorem sim_start {ts us : List Nat} (hg : g.Good) (hh : h.Good) (hf : Fresh g ts) (hl : Loose h us) (hd : SameData g ts h us) :
    CutSim (Pairs ts us) (fun s => ∃ u ∈ us, Ancestor h s u) g h := by
  refine ⟨fun i p q => pairs_left hf.nodup, fun i j p h1 h2 => pairs_left hl.nodup (pairs_swap h1) (pairs_swap h2), fun i p hp => ?_,
    fun p hp => ?_, fun i p hp hs => ?_⟩
  · obtain ⟨hi, hp'⟩ := hp.mem
    have hil := hf.lt i hi
    have hpl := hl.exist p hp'
    have h1 := List.getElem?_eq_getElem hil
    have h2 := List.getElem?_eq_getElem hpl
    refine ⟨_, _, h1, h2, ?_, ?_, ?_⟩
    · have : dataOf g i = dataOf h p := pairs_rel hd hp
      rw [dataOf, dataOf, h1, h2] at this
      exact (Option.some.inj this).symm
    · rw [grad_none hg h1 (hf.noGrad i hi), grad_none hh h2 (hl.noGrad p hp')]
      exact .none
    · have h3 := hf.noHistory i hi
      rw [historyOf, h1] at h3
      rw [show g[i].gradFn = none from Option.some.inj h3]
      cases h4 : h[p].gradFn with
      | none => exact .leaf
      | some d => exact .cut fun j hj => ⟨p, hp', isInput_of h2 h4 hj⟩
  · obtain ⟨u, hu, ha⟩ := hp
    have hlt := Spec.Feeds.lt hh (.inr ha) (hl.exist u hu)
    exact ⟨_, List.getElem?_eq_getElem hlt, fun d hd j hj => ⟨u, hu, Relation.TransGen.trans (isInput_of (List.getElem?_eq_getElem hlt) hd hj) ha⟩⟩
  · obtain ⟨u, hu, ha⟩ := hs
    exact hl.apart p hp.mem.2 u hu ha

theorem CutSim.data (hh : CutSim β S g h) {i p : Nat} (hi : β i p) : dataOf g i = dataOf h p := by
  obtain ⟨n, m, h1, h2, h3⟩ := hh.node i p hi
  rw [dataOf, dataOf, h1, h2, Option.map_some, Option.map_some, h3.val]

/-! ### what a step leaves -/

theorem anc_lt {h : Heap T} (hg : h.Good) {a b : Nat} (hab : Ancestor h a b) : a < b := by
  induction hab with
  | single hi => obtain ⟨n, d, h1, h2, h3⟩ := hi; exact (hg _ n h1).older d h2 _ h3
  | tail _ hi ih => obtain ⟨n, d, h1, h2, h3⟩ := hi; exact ih.trans ((hg _ n h1).older d h2 _ h3)

theorem sgdParams_anc {s : Nat} : ∀ {ps : List Nat} {h h' : Heap T} {qs : List Nat}, h.Good → (∀ p ∈ ps, p < h.length) →
    sgdParams h s ps = .ok (h', qs) → ∀ q ∈ qs, ∀ a, Ancestor h' a q →
      (∃ p ∈ ps, Feeds h a p) ∨ h.length ≤ a ∧ ∀ d, historyOf h' a = some (some d) → d.kind ≠ .add := by
  intro ps
  induction ps with
  | nil => intro h h' qs _ _ e; cases e; simp
  | cons p ps ih =>
    intro h h' qs hg hp e
    rw [sgdParams_cons, R.bind_eq_ok] at e
    obtain ⟨⟨h1, q⟩, e1, e⟩ := e
    simp only [R.bind_eq_ok] at e
    obtain ⟨⟨h2, qs'⟩, e2, e3⟩ := e
    rw [R.pure_eq_ok] at e3
    cases e3
    obtain ⟨o1, r1⟩ := sgdParam_runOps e1
    obtain ⟨f1, g1⟩ := runOps_frame hg r1
    obtain ⟨o2, r2⟩ := sgdParams_runOps e2
    obtain ⟨f2, g2⟩ := runOps_frame g1 r2
    have hpl := hp p (by simp)
    intro q' hq' a ha
    rcases List.mem_cons.1 hq' with rfl | hq'
    · obtain ⟨pn, gn, sn, c, delta, neg, val, -, -, -, -, -, -, -, rfl, rfl⟩ := sgdParam_inv e1
      rw [f2.ancestor g1 (by simp)] at ha
      have n2 : (h ++ [leafNode delta, ⟨neg, none, some ⟨[h.length], .neg⟩⟩, ⟨val, none, some ⟨[p, h.length + 1], .add⟩⟩])[h.length + 2]? =
        some ⟨val, none, some ⟨[p, h.length + 1], .add⟩⟩ := by simp
      have n1 : (h ++ [leafNode delta, ⟨neg, none, some ⟨[h.length], .neg⟩⟩, ⟨val, none, some ⟨[p, h.length + 1], .add⟩⟩])[h.length + 1]? =
        some ⟨neg, none, some ⟨[h.length], .neg⟩⟩ := by simp
      have n0 : (h ++ [leafNode delta, ⟨neg, none, some ⟨[h.length], .neg⟩⟩, ⟨val, none, some ⟨[p, h.length + 1], .add⟩⟩])[h.length]? =
        some (leafNode delta) := by simp
      rcases Spec.Feeds.cases (.inr ha) n2 with rfl | ⟨d, hd, b, hb, hab⟩
      · exact absurd (anc_lt g1 ha) (lt_irrefl _)
      · cases hd
        simp only [List.mem_cons, List.not_mem_nil, or_false] at hb
        rcases hb with rfl | rfl
        · exact .inl ⟨b, by simp, (f1.feeds hg hpl).1 hab⟩
        · right
          rcases Spec.Feeds.cases hab n1 with rfl | ⟨d, hd, b, hb, hab⟩
          · refine ⟨by omega, fun d hd => ?_⟩
            rw [f2.historyOf (by simp), historyOf, n1] at hd
            cases hd
            simp
          · cases hd
            simp only [List.mem_cons, List.not_mem_nil, or_false] at hb
            subst hb
            rcases Spec.Feeds.cases hab n0 with rfl | ⟨d, hd, -⟩
            · refine ⟨le_refl _, fun d hd => ?_⟩
              rw [f2.historyOf (by simp), historyOf, n0] at hd
              cases hd
            · cases hd
    · rcases ih g1 (fun p hm => (hp p (by simp [hm])).trans_le f1.len) e2 q' hq' a ha with ⟨p', hp', hf⟩ | hf
      · exact .inl ⟨p', by simp [hp'], (f1.feeds hg (hp p' (by simp [hp']))).1 hf⟩
      · exact .inr ⟨f1.len.trans hf.1, hf.2⟩

theorem zeroGrad_self {h h' : Heap T} {t : Nat} (e : zeroGrad h t = .ok h') : gradOf h' t = none := by
  obtain ⟨n, h1, rfl⟩ := zeroGrad_inv e
  exact gradOf_none (List.getElem?_set_self (getElem?_lt h1)) rfl

theorem zeroGrad_other {h h' : Heap T} (hg : h.Good) {t u : Nat} (e : zeroGrad h t = .ok h') (hu : u < h.length) (hn : gradOf h u = none) :
    gradOf h' u = none := by
  obtain ⟨n, h1, rfl⟩ := zeroGrad_inv e
  by_cases hut : t = u
  · subst hut
    exact gradOf_none (List.getElem?_set_self (getElem?_lt h1)) rfl
  · exact gradOf_none (by rw [List.getElem?_set_ne hut]; exact List.getElem?_eq_getElem hu)
      (grad_none hg (List.getElem?_eq_getElem hu) hn)

theorem step_loose {b b' : Mlp T} (hf : ∀ l ∈ b.layers, StdAct l.activation) (hr : Reachable h) {x y : Nat} {h' : Heap T} {lr : T}
    (hl : Loose h (x :: y :: b.params)) (e : trainStep b h x y lr = .ok (h', b')) : Loose h' (x :: y :: b'.params) := by
  have hx : x < h.length := hl.exist x (by simp)
  have hy : y < h.length := hl.exist y (by simp)
  have hp : ∀ p ∈ b.params, p < h.length := fun p hm => hl.exist p (by simp [hm])
  obtain ⟨k1, k2, o1, r1, e2, r3⟩ := trainStep_ops hf hr hx hy hp e
  obtain ⟨f1, q1⟩ := runOps_frame hr.good r1
  obtain ⟨o2, r2⟩ := sgdStep_ops e2
  obtain ⟨f2, q2⟩ := runOps_frame q1 r2
  obtain ⟨f3, q3⟩ := runOps_frame q2 r3
  have e3 := sgdStep_inv e2
  obtain ⟨-, h4⟩ := sgdParams_inv e3
  have hq : ∀ q ∈ b'.params, k1.length ≤ q ∧ ∃ v p m, k2[q]? = some ⟨v, none, some ⟨[p, m], .add⟩⟩ := by
    generalize b.params = ps, b'.params = qs at h4
    induction h4 with
    | nil => simp
    | cons h5 _ ih =>
      intro q hm
      rcases List.mem_cons.1 hm with rfl | hm
      · obtain ⟨h6, v, m, h7⟩ := h5
        exact ⟨h6, v, _, m, h7⟩
      · exact ih q hm
  have hqn : ∀ q ∈ b'.params, h.length ≤ q := fun q hm => f1.len.trans (hq q hm).1
  have hq2 : ∀ q ∈ b'.params, q < k2.length := fun q hm => by
    obtain ⟨-, v, p, m, h5⟩ := hq q hm
    exact getElem?_lt h5
  have hxy := hl.nodup
  simp only [List.nodup_cons, List.mem_cons, not_or] at hxy
  obtain ⟨⟨nxy, nxp⟩, nyp, -⟩ := hxy
  rw [runOps_cons, R.bind_eq_ok] at r3
  obtain ⟨k3, z1, r3⟩ := r3
  rw [runOps_cons, R.bind_eq_ok] at r3
  obtain ⟨k4, z2, r3⟩ := r3
  cases r3
  have z1' : zeroGrad k2 y = .ok k3 := z1
  have z2' : zeroGrad k3 x = .ok h' := z2
  have q23 : k3.Good := (Op.run_frame q2 z1).2
  have l3 : k3.length = k2.length := by obtain ⟨n, -, rfl⟩ := zeroGrad_inv z1'; simp
  have hx2 : x < k2.length := hx.trans_le (f1.len.trans f2.len)
  have hy2 : y < k2.length := hy.trans_le (f1.len.trans f2.len)
  have old : ∀ t, t < h.length → ∀ a, Ancestor h' a t ↔ Ancestor h a t := fun t ht a => ((f1.trans f2).trans f3).ancestor hr.good ht
  have small : ∀ a ∈ x :: y :: b'.params, a < h.length → a = x ∨ a = y := fun a ha hal => by
    simp only [List.mem_cons] at ha
    rcases ha with rfl | rfl | ha
    · exact .inl rfl
    · exact .inr rfl
    · exact absurd (hqn a ha) (Nat.not_le.2 hal)
  refine ⟨?_, fun t ht => ?_, fun t ht => ?_, fun s hs t ht ha => ?_⟩
  · simp only [List.nodup_cons, List.mem_cons, not_or]
    exact ⟨⟨nxy, fun hm => Nat.not_lt.2 (hqn x hm) hx⟩, fun hm => Nat.not_lt.2 (hqn y hm) hy, sgdParams_nodup e3⟩
  · simp only [List.mem_cons] at ht
    rcases ht with rfl | rfl | ht
    · exact hx2.trans_le f3.len
    · exact hy2.trans_le f3.len
    · exact (hq2 t ht).trans_le f3.len
  · simp only [List.mem_cons] at ht
    rcases ht with rfl | rfl | ht
    · exact zeroGrad_self z2'
    · exact zeroGrad_other q23 z2' (by rw [l3]; exact hy2) (zeroGrad_self z1')
    · obtain ⟨-, v, p, m, h5⟩ := hq t ht
      exact zeroGrad_other q23 z2' (by rw [l3]; exact hq2 t ht) (zeroGrad_other q2 z1' (hq2 t ht) (gradOf_none h5 rfl))
  · have oldt : ∀ t, t < h.length → t ∈ x :: y :: b.params → ¬ Ancestor h' s t := fun t htl htm ha => by
      rw [old t htl] at ha
      have hsl := (anc_lt hr.good ha).trans htl
      rcases small s hs hsl with rfl | rfl
      · exact hl.apart s (by simp) t htm ha
      · exact hl.apart s (by simp) t htm ha
    simp only [List.mem_cons] at ht
    rcases ht with rfl | rfl | ht
    · exact oldt t hx (by simp) ha
    · exact oldt t hy (by simp) ha
    · rw [f3.ancestor q2 (hq2 t ht)] at ha
      rcases sgdParams_anc q1 (fun p hm => (hp p hm).trans_le f1.len) e3 t ht s ha with ⟨p, hm, hfd⟩ | ⟨hkl, hk⟩
      · rw [f1.feeds hr.good (hp p hm)] at hfd
        have hsl := Spec.Feeds.lt hr.good hfd (hp p hm)
        rcases hfd with rfl | hfd
        · rcases small s hs hsl with rfl | rfl
          · exact nxp hm
          · exact nyp hm
        · rcases small s hs hsl with rfl | rfl
          · exact hl.apart s (by simp) p (by simp [hm]) hfd
          · exact hl.apart s (by simp) p (by simp [hm]) hfd
      · have hsl : s ∉ b'.params := fun hm => by
          obtain ⟨-, v, p, m, h5⟩ := hq s hm
          exact hk ⟨[p, m], .add⟩ (by rw [historyOf, h5]; rfl) rfl
        simp only [List.mem_cons] at hs
        rcases hs with rfl | rfl | hs
        · exact absurd (hx.trans_le f1.len) (Nat.not_lt.2 hkl)
        · exact absurd (hy.trans_le f1.len) (Nat.not_lt.2 hkl)
        · exact hsl hs

/-! ### detaching -/

theorem clones_ok : ∀ {ps : List Nat} {h : Heap T} (acc : List Nat), (∀ p ∈ ps, p < h.length) → ∃ vs : List (Raw T),
    List.Forall₂ (fun p v => dataOf h p = some v) ps vs ∧ runOps h (ps.map Op.deepClone) = .ok (h ++ vs.map leafNode) ∧
    ps.foldlM (init := (h, acc)) (fun (h, new) p => do
      let (h, q) ← deepCloneT h p
      return (h, new ++ [q])) = (.ok (h ++ vs.map leafNode, acc ++ List.range' h.length ps.length) : R (Heap T × List Nat)) := by
  intro ps
  induction ps with
  | nil => intro h acc _; exact ⟨[], .nil, by simp [runOps], by simp⟩
  | cons p ps ih =>
    intro h acc hp
    have hpl := hp p (by simp)
    have e1 : deepCloneT h p = .ok (h ++ [leafNode h[p].val], h.length) := by
      simp only [deepCloneT, Heap.node_eq_ok.2 (List.getElem?_eq_getElem hpl), R.bind_ok]
      rfl
    obtain ⟨vs, h1, h2, h3⟩ := ih (h := h ++ [leafNode h[p].val]) (acc ++ [h.length]) fun q hq => by
      have := hp q (by simp [hq])
      simp
      omega
    refine ⟨h[p].val :: vs, .cons (by rw [dataOf, List.getElem?_eq_getElem hpl]; rfl) ?_, ?_, ?_⟩
    · have h4 : ∀ q ∈ ps, q < h.length := fun q hq => hp q (by simp [hq])
      clear h2 h3 ih hp
      induction h1 with
      | nil => exact .nil
      | cons h5 _ ih' =>
        refine .cons ?_ (ih' fun q hq => h4 q (by simp [hq]))
        rw [← h5, dataOf, dataOf, List.getElem?_append_left (h4 _ (by simp))]
    · rw [List.map_cons, runOps_cons]
      simp only [Op.run, e1, R.bind_ok]
      rw [show (pure (h ++ [leafNode h[p].val]) : R (Heap T)) = .ok (h ++ [leafNode h[p].val]) from rfl, R.bind_ok, h2]
      simp
    · rw [List.foldlM_cons]
      simp only [e1, R.bind_ok]
      rw [show (pure (h ++ [leafNode h[p].val], acc ++ [h.length]) : R (Heap T × List Nat)) = .ok _ from rfl, R.bind_ok, h3]
      simp [List.range'_succ]

theorem detach_ok {a : Mlp T} (hp : ∀ p ∈ a.params, p < g.length) : ∃ a' ops, ∃ vs : List (Raw T),
    detach a g = .ok (g ++ vs.map leafNode, a') ∧ runOps g ops = .ok (g ++ vs.map leafNode) ∧
    List.Forall₂ (fun p v => dataOf g p = some v) a.params vs ∧ a'.params = List.range' g.length vs.length ∧
    a'.layers.map (·.activation) = a.layers.map (·.activation) := by
  obtain ⟨vs, h1, h2, h3⟩ := clones_ok [] hp
  obtain ⟨a', u1, u2, u3⟩ := C46_update a (List.range' g.length a.params.length) (by rw [List.length_range', params_length])
  refine ⟨a', _, vs, ?_, h2, h1, by rw [u2, h1.length_eq], u3⟩
  rw [List.nil_append] at h3
  simp only [detach, h3, R.bind_ok, u1]
  rfl

theorem cloned_data : ∀ {ps : List Nat} {vs : List (Raw T)}, List.Forall₂ (fun p v => dataOf g p = some v) ps vs → ∀ (k : Heap T),
    SameData (k ++ vs.map leafNode) (List.range' k.length vs.length) g ps := by
  intro ps vs h1
  induction h1 with
  | nil => intro k; exact .nil
  | @cons p v ps vs h2 _ ih =>
    intro k
    rw [List.length_cons, List.range'_succ]
    refine .cons ?_ ?_
    · rw [h2, dataOf, List.getElem?_append_right (le_refl _)]
      simp [leafNode]
    · have := ih (k ++ [leafNode v])
      simpa [SameData] using this

theorem detach_fresh {a : Mlp T} (hr : Reachable g) {x y : Nat} (hf : Fresh g [x, y]) (hp : ∀ p ∈ a.params, p < g.length) :
    ∃ g' a', detach a g = .ok (g', a') ∧ Reachable g' ∧ Fresh g' (x :: y :: a'.params) ∧ SameData g' (x :: y :: a'.params) g (x :: y :: a.params) ∧
      a'.layers.map (·.activation) = a.layers.map (·.activation) := by
  obtain ⟨a', ops, vs, h1, h2, h3, h4, h5⟩ := detach_ok hp
  obtain ⟨f1, q1⟩ := runOps_frame hr.good h2
  have hx := hf.lt x (by simp)
  have hy := hf.lt y (by simp)
  have new : ∀ t ∈ a'.params, g.length ≤ t ∧ ∃ v, (g ++ vs.map leafNode)[t]? = some (leafNode v) := fun t ht => by
    rw [h4, List.mem_range'_1] at ht
    refine ⟨ht.1, vs[t - g.length], ?_⟩
    rw [List.getElem?_append_right ht.1, List.getElem?_map, List.getElem?_eq_getElem]
    rfl
  have hold : ∀ t ∈ [x, y], (g ++ vs.map leafNode)[t]? = g[t]? := fun t ht => List.getElem?_append_left (hf.lt t ht)
  refine ⟨_, a', h1, hr.run h2, ⟨?_, fun t ht => ?_, fun t ht => ?_⟩, ?_, h5⟩
  · have := hf.nodup
    simp only [List.nodup_cons, List.mem_cons, List.not_mem_nil, or_false, not_false_eq_true, List.nodup_nil, and_true] at this
    simp only [List.nodup_cons, List.mem_cons, not_or]
    refine ⟨⟨this, fun hm => Nat.not_lt.2 (new x hm).1 hx⟩, fun hm => Nat.not_lt.2 (new y hm).1 hy, ?_⟩
    rw [h4]
    exact List.nodup_range'
  · by_cases hm : t ∈ [x, y]
    · rw [historyOf, hold t hm]
      exact hf.noHistory t hm
    · obtain ⟨-, v, hv⟩ := new t (by simp only [List.mem_cons, List.not_mem_nil, or_false] at ht hm; tauto)
      rw [historyOf, hv]
      rfl
  · by_cases hm : t ∈ [x, y]
    · have hn := List.getElem?_eq_getElem (hf.lt t hm)
      exact gradOf_none ((hold t hm).trans hn) (grad_none hr.good hn (hf.noGrad t hm))
    · obtain ⟨-, v, hv⟩ := new t (by simp only [List.mem_cons, List.not_mem_nil, or_false] at ht hm; tauto)
      exact gradOf_none hv rfl
  · refine .cons ?_ (.cons ?_ ?_)
    · rw [dataOf, dataOf, hold x (by simp)]
    · rw [dataOf, dataOf, hold y (by simp)]
    · rw [h4]
      exact cloned_data h3 g

theorem SameData.trans {k : Heap T} {ts us vs : List Nat} (h1 : SameData g ts h us) (h2 : SameData h us k vs) : SameData g ts k vs := by
  induction h1 generalizing vs with
  | nil => cases h2; exact .nil
  | cons h3 _ ih =>
    cases h2 with
    | cons h4 h5 => exact .cons (h3.trans h4) (ih h5)

theorem SameData.refl (h : Heap T) (ts : List Nat) : SameData h ts h ts := List.forall₂_same.2 fun _ _ => rfl

theorem step_acts {b b' : Mlp T} (hs : ∀ l ∈ b.layers, StdAct l.activation) (hr : Reachable h) {x y : Nat} {h' : Heap T} {lr : T}
    (hl : Loose h (x :: y :: b.params)) (e : trainStep b h x y lr = .ok (h', b')) :
    b'.layers.map (·.activation) = b.layers.map (·.activation) := by
  obtain ⟨k1, k2, o1, -, e2, -⟩ := trainStep_ops hs hr (hl.exist x (by simp)) (hl.exist y (by simp)) (fun p hm => hl.exist p (by simp [hm])) e
  exact sgdStep_acts e2

theorem step_reachable {b b' : Mlp T} (hs : ∀ l ∈ b.layers, StdAct l.activation) (hr : Reachable h) {x y : Nat} {h' : Heap T} {lr : T}
    (hl : Loose h (x :: y :: b.params)) (e : trainStep b h x y lr = .ok (h', b')) : Reachable h' ∧ Frame h h' :=
  trainStep_reachable hs hr (hl.exist x (by simp)) (hl.exist y (by simp)) (fun p hm => hl.exist p (by simp [hm])) e

theorem train_loose {n : Nat} : ∀ {h h' : Heap T} {b b' : Mlp T} {x y : Nat} {lr : T}, Reachable h → (∀ l ∈ b.layers, StdAct l.activation) →
    Loose h (x :: y :: b.params) → train b h x y lr n = .ok (h', b') →
    Reachable h' ∧ Loose h' (x :: y :: b'.params) ∧ b'.layers.map (·.activation) = b.layers.map (·.activation) := by
  induction n with
  | zero => intro h h' b b' x y lr hr _ hl e; cases e; exact ⟨hr, hl, rfl⟩
  | succ n ih =>
    intro h h' b b' x y lr hr hs hl e
    simp only [train, R.bind_eq_ok, Prod.exists] at e
    obtain ⟨h1, b1, e1, e⟩ := e
    have ha := step_acts hs hr hl e1
    obtain ⟨t1, t2, t3⟩ := ih (step_reachable hs hr hl e1).1 (stdAct_of_map ha hs) (step_loose hs hr hl e1) e
    exact ⟨t1, t2, t3.trans ha⟩

theorem step_fresh {a a' : Mlp T} (hs : ∀ l ∈ a.layers, StdAct l.activation) (hr : Reachable g) {x y : Nat} {g' : Heap T} {lr : T}
    (hf : Fresh g (x :: y :: a.params)) (e : trainStep a g x y lr = .ok (g', a')) : Fresh g' [x, y] := by
  have r1 := step_reachable hs hr hf.loose e
  have l1 := step_loose hs hr hf.loose e
  refine ⟨?_, fun t ht => ?_, fun t ht => l1.noGrad t (by simp only [List.mem_cons, List.not_mem_nil, or_false] at ht ⊢; tauto)⟩
  · have := hf.nodup
    simp only [List.nodup_cons, List.mem_cons, not_or] at this
    simp [this.1.1]
  · have hm : t ∈ x :: y :: a.params := by simp only [List.mem_cons, List.not_mem_nil, or_false] at ht ⊢; tauto
    rw [r1.2.historyOf (hf.lt t hm)]
    exact hf.noHistory t hm

theorem detached_fresh {n : Nat} : ∀ {g g' : Heap T} {a a' : Mlp T} {x y : Nat} {lr : T}, Reachable g → (∀ l ∈ a.layers, StdAct l.activation) →
    Fresh g (x :: y :: a.params) → trainDetached a g x y lr n = .ok (g', a') →
    Reachable g' ∧ Fresh g' (x :: y :: a'.params) ∧ a'.layers.map (·.activation) = a.layers.map (·.activation) := by
  induction n with
  | zero => intro g g' a a' x y lr hr _ hf e; cases e; exact ⟨hr, hf, rfl⟩
  | succ n ih =>
    intro g g' a a' x y lr hr hs hf e
    simp only [trainDetached, R.bind_eq_ok, Prod.exists] at e
    obtain ⟨g1, a1, e1, g2, a2, e2, e⟩ := e
    have r1 := step_reachable hs hr hf.loose e1
    have l1 := step_loose hs hr hf.loose e1
    obtain ⟨g3, a3, d1, d2, d3, -, d5⟩ := detach_fresh (a := a1) r1.1 (step_fresh hs hr hf e1) fun p hm => l1.exist p (by simp [hm])
    cases d1.symm.trans e2
    have ha := d5.trans (step_acts hs hr hf.loose e1)
    obtain ⟨t1, t2, t3⟩ := ih d2 (stdAct_of_map ha hs) d3 e
    exact ⟨t1, t2, t3.trans ha⟩

theorem detached_sim {n : Nat} : ∀ {g h h' : Heap T} {a b b' : Mlp T} {x x' y y' : Nat} {lr : T}, Reachable g → Reachable h →
    (∀ l ∈ b.layers, StdAct l.activation) → a.layers.map (·.activation) = b.layers.map (·.activation) →
    Fresh g (x :: y :: a.params) → Loose h (x' :: y' :: b.params) → SameData g (x :: y :: a.params) h (x' :: y' :: b.params) →
    train b h x' y' lr n = .ok (h', b') → ∃ g' a', trainDetached a g x y lr n = .ok (g', a') ∧ Reachable g' ∧
      Fresh g' (x :: y :: a'.params) ∧ a'.layers.map (·.activation) = b'.layers.map (·.activation) ∧
      SameData g' (x :: y :: a'.params) h' (x' :: y' :: b'.params) := by
  induction n with
  | zero => intro g h h' a b b' x x' y y' lr hg _ _ ha hf _ hd e; cases e; exact ⟨g, a, rfl, hg, hf, ha, hd⟩
  | succ n ih =>
    intro g h h' a b b' x x' y y' lr hg hr hs ha hf hl hd e
    simp only [train, R.bind_eq_ok, Prod.exists] at e
    obtain ⟨h1, b1, e1, e⟩ := e
    have sim := sim_start hg.good hr.good hf hl hd
    have hp := pairs_forall hd.length_eq
    generalize hP : Pairs (x :: y :: a.params) (x' :: y' :: b.params) = β at sim hp
    cases hp with
    | cons p1 hp =>
      cases hp with
      | cons p2 hp =>
        obtain ⟨⟨g1, a1⟩, f1, β1, x1, s1, n1⟩ := trainStep_sim sim hg hr ⟨ha, hp⟩ hs p1 p2 lr _ e1
        have ha' := stdAct_of_map ha hs
        have r1 := step_reachable ha' hg hf.loose f1
        have r2 := step_reachable hs hr hl e1
        have l1 := step_loose ha' hg hf.loose f1
        have l2 := step_loose hs hr hl e1
        obtain ⟨g2, a2, d1, d2, d3, d4, d5⟩ := detach_fresh (a := a1) r1.1 (step_fresh ha' hg hf f1) fun p hm => l1.exist p (by simp [hm])
        have sd : SameData g1 (x :: y :: a1.params) h1 (x' :: y' :: b1.params) :=
          .cons (s1.data (x1 _ _ p1)) (.cons (s1.data (x1 _ _ p2)) (n1.params.imp fun _ _ h => s1.data h))
        have hs1 := stdAct_of_map (step_acts hs hr hl e1) hs
        obtain ⟨g', a', t1, t2, t3, t4, t5⟩ := ih d2 r2.1 hs1 (d5.trans n1.acts) d3 l2 (SameData.trans d4 sd) e
        refine ⟨g', a', ?_, t2, t3, t4, t5⟩
        simp only [trainDetached, f1, R.bind_ok, d1]
        exact t1

end RL
