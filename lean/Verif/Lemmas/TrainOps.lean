import Verif.SpecPrecision
import Verif.Lemmas.ParamIfRun
import Verif.Lemmas.Sgd

/-!
# Two runs of training with the same network are runs of the same public operations
-/

namespace RL

open Spec

variable {T S : Type} {rel : T → S → Prop}
  [Zero T] [One T] [Add T] [Mul T] [Neg T] [Zero S] [One S] [Add S] [Mul S] [Neg S]
  [Sub T] [LT T] [DecidableLT T] [LE T] [DecidableLE T] [RealFn T] [Sub S] [LT S] [DecidableLT S] [LE S] [DecidableLE S] [RealFn S]

/-- Both are the identity, `relu` or `tanh`. -/
def SameAct (f : Activation T) (g : Activation S) : Prop :=
  f = Activation.identity ∧ g = Activation.identity ∨ f = reluT ∧ g = reluT ∨ f = tanhT ∧ g = tanhT

/-- Networks with the same tensors and the same activations. -/
def SameNet (a : Mlp T) (b : Mlp S) : Prop :=
  List.Forall₂ (fun l l' => l.weights = l'.weights ∧ l.bias = l'.bias ∧ SameAct l.activation l'.activation) a.layers b.layers

/-- The same graph, whatever the elements are. -/
abbrev SameGraph (g : Heap T) (h : Heap S) : Prop := HeapAll (fun _ _ => True) g h

theorem any_arith : Arith (fun _ => True) (fun (_ : T) (_ : S) => True) := ⟨trivial, trivial, fun _ _ => trivial, fun _ _ => trivial, fun _ _ _ _ => trivial⟩

theorem any_functions : Functions (fun _ => True) (fun (_ : T) (_ : S) => True) :=
  ⟨fun _ _ _ _ => ⟨trivial, trivial⟩, fun _ _ _ _ => ⟨trivial, trivial⟩, fun _ _ _ _ => ⟨trivial, trivial⟩⟩

/-- Related operations lead from the one pair of heaps to the other. -/
def Reaches (rel : T → S → Prop) (g : Heap T) (h : Heap S) (g' : Heap T) (h' : Heap S) : Prop :=
  ∃ ops ops', List.Forall₂ (OpRel (fun _ => True) rel) ops ops' ∧ runOps g ops = .ok g' ∧ runOps h ops' = .ok h'

theorem Reaches.refl (g : Heap T) (h : Heap S) : Reaches rel g h g h := ⟨[], [], .nil, rfl, rfl⟩

theorem Reaches.trans {g g' g'' : Heap T} {h h' h'' : Heap S} (h1 : Reaches rel g h g' h') (h2 : Reaches rel g' h' g'' h'') : Reaches rel g h g'' h'' := by
  obtain ⟨o, o', a1, a2, a3⟩ := h1
  obtain ⟨p, p', b1, b2, b3⟩ := h2
  exact ⟨o ++ p, o' ++ p', forall₂_append a1 b1, by rw [runOps_append, a2]; exact b2, by rw [runOps_append, a3]; exact b3⟩

theorem Reaches.one {g g' : Heap T} {h h' : Heap S} {o : Op T} {o' : Op S} (ho : OpRel (fun _ => True) rel o o') (e : o.run g = .ok g') (e' : o'.run h = .ok h') :
    Reaches rel g h g' h' :=
  ⟨[o], [o'], .cons ho .nil, by rw [runOps_cons, e]; rfl, by rw [runOps_cons, e']; rfl⟩

/-- Results with the same tensor, reached by related operations. -/
def ResReaches (rel : T → S → Prop) (g : Heap T) (h : Heap S) (p : Heap T × Nat) (q : Heap S × Nat) : Prop :=
  SameGraph p.1 q.1 ∧ p.2 = q.2 ∧ Reaches rel g h p.1 q.1

theorem res_leads {g : Heap T} {h : Heap S} {o : Op T} {o' : Op S} (ho : OpRel (fun _ => True) rel o o') {x : R (Heap T × Nat)} {y : R (Heap S × Nat)}
    (hx : o.run g = (do return (← x).1)) (hy : o'.run h = (do return (← y).1)) (hxy : SameOutcome (ResAll fun _ _ => True) x y) :
    SameOutcome (ResReaches rel g h) x y := by
  rcases x with e | p <;> rcases y with e' | q
  · exact hxy
  · exact hxy.elim
  · exact hxy.elim
  · exact ⟨hxy.1, hxy.2, .one ho hx hy⟩

theorem ResReaches.bind {g : Heap T} {h : Heap S} {x : R (Heap T × Nat)} {y : R (Heap S × Nat)} {f : Heap T × Nat → R (Heap T × Nat)}
    {f' : Heap S × Nat → R (Heap S × Nat)} (hxy : SameOutcome (ResReaches rel g h) x y)
    (hf : ∀ g1 h1 t, SameGraph g1 h1 → SameOutcome (ResReaches rel g1 h1) (f (g1, t)) (f' (h1, t))) :
    SameOutcome (ResReaches rel g h) (x >>= f) (y >>= f') := by
  refine Spec.SameOutcome.bind hxy ?_
  rintro ⟨g1, t⟩ ⟨h1, t'⟩ ⟨k1, k2, k3⟩
  cases k2
  exact (hf g1 h1 t k1).mono fun p q hpq => ⟨hpq.1, hpq.2.1, k3.trans hpq.2.2⟩

variable {g : Heap T} {h : Heap S} (hh : SameGraph g h)

include hh

theorem addT_leads (l r : Nat) : SameOutcome (ResReaches rel g h) (addT g l r) (addT h l r) :=
  res_leads (.add l r trivial) rfl rfl (addT_rel any_arith hh trivial l r)

theorem subT_leads (l r : Nat) : SameOutcome (ResReaches rel g h) (subT g l r) (subT h l r) :=
  res_leads (.sub l r trivial trivial) rfl rfl (subT_rel any_arith hh trivial trivial l r)

theorem act_leads {f : Activation T} {f' : Activation S} (hf : SameAct f f') (t : Nat) : SameOutcome (ResReaches rel g h) (f g t) (f' h t) := by
  rcases hf with ⟨rfl, rfl⟩ | ⟨rfl, rfl⟩ | ⟨rfl, rfl⟩
  · exact ⟨hh, rfl, .refl _ _⟩
  · exact res_leads (.relu t trivial) rfl rfl (reluT_rel any_arith any_functions hh trivial t)
  · exact res_leads (.tanh t trivial) rfl rfl (tanhT_rel any_arith any_functions hh trivial t)

theorem Linear.forward_leads {a : Linear T} {b : Linear S} (hw : a.weights = b.weights) (hb : a.bias = b.bias) (ha : SameAct a.activation b.activation) (t : Nat) :
    SameOutcome (ResReaches rel g h) (a.forward g t) (b.forward h t) := by
  rw [Linear.forward, Linear.forward, hw, hb]
  refine ResReaches.bind (res_leads (.bmm t _ trivial) rfl rfl (bmmT_rel any_arith hh trivial _ _)) fun g1 h1 t1 k1 => ?_
  exact ResReaches.bind (addT_leads k1 _ _) fun g2 h2 t2 k2 => act_leads k2 ha t2

theorem Mlp.forward_leads {a : Mlp T} {b : Mlp S} (hab : SameNet a b) (t : Nat) : SameOutcome (ResReaches rel g h) (a.forward g t) (b.forward h t) := by
  rw [Mlp.forward, Mlp.forward]
  refine SameOutcome.foldlM hab ?_ (⟨hh, rfl, .refl _ _⟩ : ResReaches rel g h (g, t) (h, t))
  rintro ⟨g1, n⟩ ⟨h1, n'⟩ l l' ⟨k1, k2, k3⟩ ⟨l1, l2, l3⟩
  cases k2
  exact (Linear.forward_leads k1 l1 l2 l3 n).mono fun p q hpq => ⟨hpq.1, hpq.2.1, k3.trans hpq.2.2⟩

theorem trainLoss_leads {a : Mlp T} {b : Mlp S} (hab : SameNet a b) (x y : Nat) :
    SameOutcome (ResReaches rel g h) (trainLoss a g x y) (trainLoss b h x y) := by
  rw [trainLoss, trainLoss]
  refine ResReaches.bind (Mlp.forward_leads hh hab x) fun g1 h1 t k1 => ResReaches.bind (subT_leads k1 _ _) fun g2 h2 t k2 => ?_
  refine ResReaches.bind (res_leads (.abs t trivial) rfl rfl (absT_rel any_arith any_functions k2 trivial t)) fun g3 h3 t k3 => ?_
  exact res_leads (.sum t trivial) rfl rfl (sumT_rel any_arith k3 trivial t)

theorem sgdParam_leads (s p : Nat) : SameOutcome (ResReaches rel g h) (sgdParam g s p) (sgdParam h s p) := by
  have h0 := sgdParam_rel any_arith hh trivial trivial s p
  cases e1 : sgdParam g s p with
  | error e =>
    cases e2 : sgdParam h s p with
    | error e' => rw [e1, e2] at h0; exact h0
    | ok q => rw [e1, e2] at h0; exact h0.elim
  | ok p1 =>
    cases e2 : sgdParam h s p with
    | error e' => rw [e1, e2] at h0; exact h0.elim
    | ok q1 =>
      rw [e1, e2] at h0
      refine ⟨h0.1, h0.2, ?_⟩
      obtain ⟨g', q⟩ := p1
      obtain ⟨h', q'⟩ := q1
      obtain ⟨h1, h2⟩ := h0
      cases h2
      have key : ∀ {T : Type} [Zero T] [One T] [Add T] [Mul T] [Sub T] [Neg T] [LT T] [DecidableLT T] [LE T] [DecidableLE T] [RealFn T]
          {h h' : Heap T} {q : Nat}, sgdParam h s p = .ok (h', q) → ∃ n i, h[p]? = some n ∧ n.grad = some i ∧ runOps h [.mul s i, .sub p h.length, .zeroGrad q] = .ok h' := by
        intro T _ _ _ _ _ _ _ _ _ _ _ h h' q e
        simp only [sgdParam, gradT, R.bind_eq_ok, Heap.node_eq_ok, unwrapO_eq_ok, R.pure_eq_ok] at e
        obtain ⟨g, ⟨pn, hpn, hg⟩, gn, hgn, sn, hsn, delta, hd, ⟨h1, q1⟩, e1, h2, e2, e3⟩ := e
        simp only [Prod.mk.injEq] at e3
        obtain ⟨rfl, rfl⟩ := e3
        refine ⟨pn, g, hpn, hg, ?_⟩
        have m1 : mulT h s g = .ok (h.leaf delta) := by
          simp only [mulT, Heap.node_eq_ok.2 hsn, Heap.node_eq_ok.2 hgn, R.bind_ok, hd]
          rfl
        have e1' : subT (h.leaf delta).1 p h.length = .ok (h1, q1) := e1
        simp only [runOps, List.foldlM_cons, List.foldlM_nil, Op.run, m1, R.bind_ok, pure_bind, e1', e2]
        rfl
      obtain ⟨n, i, a1, a2, a3⟩ := key e1
      obtain ⟨n', i', b1, b2, b3⟩ := key e2
      obtain ⟨n'', c1, c2⟩ := forall₂_get hh a1
      rw [b1] at c1
      cases c1
      rw [c2.2.1, b2] at a2
      cases a2
      rw [forall₂_length hh] at a3
      exact ⟨_, _, .cons (.mul s i) (.cons (.sub p _ trivial trivial) (.cons (.zeroGrad q) .nil)), a3, b3⟩

theorem sgdParams_leads (s : Nat) (ps : List Nat) :
    SameOutcome (fun p q => SameGraph p.1 q.1 ∧ p.2 = q.2 ∧ Reaches rel g h p.1 q.1) (sgdParams g s ps) (sgdParams h s ps) := by
  rw [sgdParams, sgdParams]
  refine SameOutcome.foldlM_same _ ?_ ⟨hh, rfl, .refl _ _⟩
  rintro ⟨g1, n⟩ ⟨h1, n'⟩ p ⟨k1, k2, k3⟩
  cases k2
  refine (sgdParam_leads (rel := rel) k1 s p).bind ?_
  rintro ⟨g2, n⟩ ⟨h2, n'⟩ ⟨j1, j2, j3⟩
  cases j2
  exact ⟨j1, rfl, k3.trans j3⟩

omit hh in
theorem SameNet.params {a : Mlp T} {b : Mlp S} (hab : SameNet a b) : a.params = b.params := by
  obtain ⟨a⟩ := a
  obtain ⟨b⟩ := b
  unfold SameNet at hab
  dsimp only at hab
  induction hab with
  | nil => rfl
  | cons h _ ih =>
    simp only [Mlp.params, Linear.params, List.flatMap_cons] at ih ⊢
    rw [ih, h.1, h.2.1]

omit hh in
theorem SameNet.updateParams {a : Mlp T} {b : Mlp S} (hab : SameNet a b) (ps : List Nat) :
    SameOutcome SameNet (a.updateParams ps) (b.updateParams ps) := by
  rw [Mlp.updateParams, Mlp.updateParams]
  have key : ∀ {l : List (Linear T)} {l' : List (Linear S)}, List.Forall₂ (fun l l' => l.weights = l'.weights ∧ l.bias = l'.bias ∧ SameAct l.activation l'.activation) l l' →
      ∀ (ps : List Nat) {c : List (Linear T)} {d : List (Linear S)},
      List.Forall₂ (fun l l' => l.weights = l'.weights ∧ l.bias = l'.bias ∧ SameAct l.activation l'.activation) c d →
      SameOutcome (List.Forall₂ fun l l' => l.weights = l'.weights ∧ l.bias = l'.bias ∧ SameAct l.activation l'.activation) (mlpUpdateLoop l ps c) (mlpUpdateLoop l' ps d) := by
    intro l l' hl
    induction hl with
    | nil => intro ps c d hcd; exact hcd
    | cons h _ ih =>
      intro ps c d hcd
      rw [mlpUpdateLoop, mlpUpdateLoop]
      refine SameOutcome.same _ fun _ => SameOutcome.same _ fun _ => SameOutcome.bind (P := fun l l' => l.weights = l'.weights ∧ l.bias = l'.bias ∧ SameAct l.activation l'.activation)
        ?_ fun _ _ h1 => ih _ (.cons h1 hcd)
      rw [Linear.updateParams, Linear.updateParams]
      exact SameOutcome.same _ fun _ => SameOutcome.same _ fun _ => ⟨rfl, rfl, h.2.2⟩
  exact (key (forall₂_reverse' hab) _ .nil).bind fun _ _ h => h

/-- Results of training steps. -/
def NetReaches (rel : T → S → Prop) (g : Heap T) (h : Heap S) (p : Heap T × Mlp T) (q : Heap S × Mlp S) : Prop :=
  SameGraph p.1 q.1 ∧ SameNet p.2 q.2 ∧ Reaches rel g h p.1 q.1

theorem trainStep_leads {a : Mlp T} {b : Mlp S} (hab : SameNet a b) (x y : Nat) {lr : T} {lr' : S} (hl : rel lr lr') :
    SameOutcome (NetReaches rel g h) (trainStep a g x y lr) (trainStep b h x y lr') := by
  rw [trainStep, trainStep]
  refine (trainLoss_leads (rel := rel) hh hab x y).bind ?_
  rintro ⟨g1, n⟩ ⟨h1, n'⟩ ⟨a1, a2, a3⟩
  cases a2
  refine (backward_rel any_arith any_functions trivial a1 n).bind_ok fun g2 h2 e1 e2 a4 => ?_
  have a5 : Reaches rel g1 h1 g2 h2 := .one (.backward n trivial) e1 e2
  have a6 := leaf_rel a4 (Raw.scalar_rel (rel := fun (_ : T) (_ : S) => True) (x := lr) (y := lr') trivial)
  have a7 : (g2.leaf (Raw.scalar lr)).2 = (h2.leaf (Raw.scalar lr')).2 := a6.2
  have a8 : Reaches rel g2 h2 (g2.leaf (Raw.scalar lr)).1 (h2.leaf (Raw.scalar lr')).1 := .one (.scalar hl) rfl rfl
  simp only [a7]
  rw [Mlp.sgdStep, Mlp.sgdStep, SameNet.params hab, bind_assoc, bind_assoc]
  refine (sgdParams_leads (rel := rel) a6.1 _ _).bind ?_
  rintro ⟨g3, ps⟩ ⟨h3, ps'⟩ ⟨b1, b2, b3⟩
  cases b2
  simp only [bind_assoc, pure_bind]
  refine (SameNet.updateParams hab ps).bind fun a' b' hab' => ?_
  refine (zeroGrad_rel b1 y).bind_ok fun g4 h4 e3 e4 b4 => (zeroGrad_rel b4 x).bind_ok fun g5 h5 e5 e6 b5 => ?_
  refine ⟨b5, hab', ?_⟩
  exact (((((a3.trans a5).trans a8).trans b3).trans (.one (.zeroGrad y) e3 e4)).trans (.one (.zeroGrad x) e5 e6))

/-- Training is a run of public operations, the same ones whatever the elements are. -/
theorem train_leads {a : Mlp T} {b : Mlp S} (hab : SameNet a b) (x y : Nat) {lr : T} {lr' : S} (hl : rel lr lr') (n : Nat) :
    SameOutcome (NetReaches rel g h) (train a g x y lr n) (train b h x y lr' n) := by
  induction n generalizing g h a b with
  | zero => exact ⟨hh, hab, .refl _ _⟩
  | succ n ih =>
    rw [train, train]
    refine (trainStep_leads hh hab x y hl).bind ?_
    rintro ⟨g1, a1⟩ ⟨h1, b1⟩ ⟨k1, k2, k3⟩
    exact (ih k1 k2).mono fun p q hpq => ⟨hpq.1, hpq.2.1, k3.trans hpq.2.2⟩

end RL
