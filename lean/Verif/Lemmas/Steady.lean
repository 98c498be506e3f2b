import Verif.Lemmas.CutTrain
import Verif.Lemmas.ParamBase
import Verif.Lemmas.TrainShapes
import Verif.Props.Accept

/-!
# The loss on tensors of the same shapes
-/

namespace RL

open Spec

variable {T : Type}

/-- Operations other than the products. -/
def NoProduct (k : JvpKind) : Prop := k ≠ .dot ∧ k ≠ .bmm

/-- Histories: a tensor without history may stand for one whose history leads to tensors in `S`. -/
inductive HistLike (β : Nat → Nat → Prop) (S : Nat → Prop) : Option Deriv → Option Deriv → Prop where
  | leaf : HistLike β S none none
  | cut {d : Deriv} : NoProduct d.kind → (∀ j ∈ d.inputs, S j) → HistLike β S none (some d)
  | both {is js : List Nat} {k : JvpKind} : List.Forall₂ β is js → HistLike β S (some ⟨is, k⟩) (some ⟨js, k⟩)

/-- Well-formed data without zero-length dimensions, and a gradient to which can be added. -/
structure Sturdy (h : Heap T) (n : Node T) : Prop where
  wf : WF n.val
  pos : Pos n.val.shape
  takes : ∀ o, n.grad = some o → ∃ m, h[o]? = some m ∧ WF m.val ∧ (m.val.shape = n.val.shape ∨ n.val.shape = [] ∧ Pos m.val.shape)

theorem Sturdy.append {h : Heap T} {n : Node T} (hs : Sturdy h n) (ns : Heap T) : Sturdy (h ++ ns) n := by
  refine ⟨hs.wf, hs.pos, fun o ho => ?_⟩
  obtain ⟨m, h1, h2⟩ := hs.takes o ho
  exact ⟨m, by rw [List.getElem?_append_left (getElem?_lt h1), h1], h2⟩

/-- Tensors of `g` and `h` of the same shapes, corresponding by `β`; `S` is what forgotten histories lead to. -/
structure ShapeSim (β : Nat → Nat → Prop) (S : Nat → Prop) (g h : Heap T) : Prop where
  left : ∀ i p q, β i p → β i q → p = q
  node : ∀ i p, β i p → ∃ n m, g[i]? = some n ∧ h[p]? = some m ∧ Sturdy g n ∧ Sturdy h m ∧ n.val.shape = m.val.shape ∧ HistLike β S n.gradFn m.gradFn
  shadow : ∀ p, S p → ∃ m, h[p]? = some m ∧ Sturdy h m ∧ ∀ d, m.gradFn = some d → NoProduct d.kind ∧ ∀ j ∈ d.inputs, S j

/-- Results of functions that return a tensor. -/
def LikeRes (β : Nat → Nat → Prop) (S : Nat → Prop) (p q : Heap T × Nat) : Prop := ∃ β', Ext β β' ∧ ShapeSim β' S p.1 q.1 ∧ β' p.2 q.2

theorem HistLike.ext {β β' : Nat → Nat → Prop} {S : Nat → Prop} (hb : Ext β β') {a b : Option Deriv} (hh : HistLike β S a b) : HistLike β' S a b := by
  cases hh with
  | leaf => exact .leaf
  | cut h1 hd => exact .cut h1 hd
  | both hd => exact .both (hd.imp hb)

theorem LikeRes.ext {β β' : Nat → Nat → Prop} {S : Nat → Prop} {p q : Heap T × Nat} (hb : Ext β β') (hr : LikeRes β' S p q) : LikeRes β S p q := by
  obtain ⟨b, h1, h2⟩ := hr
  exact ⟨b, hb.trans h1, h2⟩

/-- `x` succeeds only if `y` does, with a related result. -/
def Leads {α β : Type} (P : α → β → Prop) (x : R α) (y : R β) : Prop := ∀ a, x = .ok a → ∃ b, y = .ok b ∧ P a b

section leads

variable {α α' β β' : Type} {P : α → α' → Prop} {Q : β → β' → Prop}

theorem Leads.ok {a : α} {b : α'} (h : P a b) : Leads P (.ok a) (.ok b) := fun c e => by cases e; exact ⟨b, rfl, h⟩

theorem Leads.bind {x : R α} {y : R α'} {f : α → R β} {g : α' → R β'} (h : Leads P x y) (hf : ∀ a b, P a b → Leads Q (f a) (g b)) :
    Leads Q (x >>= f) (y >>= g) := fun c e => by
  rw [R.bind_eq_ok] at e
  obtain ⟨a, e1, e2⟩ := e
  obtain ⟨b, rfl, h1⟩ := h a e1
  exact hf a b h1 c e2

theorem Leads.mono {P' : α → α' → Prop} {x : R α} {y : R α'} (h : Leads P x y) (hp : ∀ a b, P a b → P' a b) : Leads P' x y :=
  fun b e => by
    obtain ⟨a, h1, h2⟩ := h b e
    exact ⟨a, h1, hp _ _ h2⟩

theorem Spec.SameOutcome.leads {x : R α} {y : R α'} (h : SameOutcome P x y) : Leads P x y := by
  intro a e
  subst e
  cases y with
  | error => exact h.elim
  | ok b => exact ⟨b, rfl, h⟩

end leads

theorem rawRel_any {a b : Raw T} (ha : WF a) (hb : WF b) (hs : a.shape = b.shape) : RawRel (fun _ _ : T => True) a b := by
  refine ⟨?_, hs⟩
  have : a.array.length = b.array.length := by rw [ha, hb, hs]
  generalize a.array = l, b.array = l' at this
  clear ha hb hs
  induction l generalizing l' with
  | nil => cases l' with
    | nil => exact .nil
    | cons => simp at this
  | cons x l ih => cases l' with
    | nil => simp at this
    | cons y l' => exact .cons trivial (ih l' (by simpa using this))

variable {β β' : Nat → Nat → Prop} {S : Nat → Prop} {g h : Heap T}

section structural

variable (hh : ShapeSim β S g h)

include hh

theorem ShapeSim.lt {i p : Nat} (hi : β i p) : i < g.length ∧ p < h.length := by
  obtain ⟨n, m, h1, h2, -⟩ := hh.node i p hi
  exact ⟨getElem?_lt h1, getElem?_lt h2⟩

theorem ShapeSim.extra (ns ms : Heap T) : ShapeSim β S (g ++ ns) (h ++ ms) := by
  refine ⟨hh.left, fun i p hi => ?_, fun p hp => ?_⟩
  · obtain ⟨n, m, h1, h2, h3, h4, h5⟩ := hh.node i p hi
    exact ⟨n, m, by rw [List.getElem?_append_left (getElem?_lt h1), h1], by rw [List.getElem?_append_left (getElem?_lt h2), h2],
      h3.append _, h4.append _, h5⟩
  · obtain ⟨m, h1, h2, h3⟩ := hh.shadow p hp
    exact ⟨m, by rw [List.getElem?_append_left (getElem?_lt h1), h1], h2.append _, h3⟩

theorem alloc_like {n m : Node T} (h1 : Sturdy g n) (h2 : Sturdy h m) (hs : n.val.shape = m.val.shape) (hd : HistLike β S n.gradFn m.gradFn) :
    LikeRes β S (g.alloc n) (h.alloc m) := by
  have hb : Ext β fun i p => β i p ∨ (i = g.length ∧ p = h.length) := fun i p => .inl
  refine ⟨_, hb, ⟨?_, fun i p hi => ?_, (hh.extra [n] [m]).shadow⟩, .inr ⟨rfl, rfl⟩⟩
  · rintro i p q (q1 | ⟨rfl, rfl⟩) (q2 | ⟨q3, rfl⟩)
    · exact hh.left i p q q1 q2
    · exact absurd (hh.lt q1).1 (by omega)
    · exact absurd (hh.lt q2).1 (by omega)
    · rfl
  rcases hi with hi | ⟨rfl, rfl⟩
  · obtain ⟨n', m', q1, q2, q3, q4, q5, q6⟩ := (hh.extra [n] [m]).node i p hi
    exact ⟨n', m', q1, q2, q3, q4, q5, q6.ext hb⟩
  · exact ⟨n, m, by simp [Heap.alloc], by simp [Heap.alloc], h1.append _, h2.append _, hs, hd.ext hb⟩

theorem node_like {i p : Nat} (hi : β i p) :
    Leads (fun n m => WF n.val ∧ WF m.val ∧ Pos n.val.shape ∧ n.val.shape = m.val.shape) (g.node i) (h.node p) := by
  obtain ⟨n, m, h1, h2, h3, h4, h5, -⟩ := hh.node i p hi
  intro b e
  rw [Heap.node_eq_ok, h1] at e
  cases e
  exact ⟨m, Heap.node_eq_ok.2 h2, h3.wf, h4.wf, h3.pos, h5⟩

theorem unary_like (k : JvpKind) (f : Raw T → R (Raw T))
    (hf : ∀ a b, WF a → WF b → Pos a.shape → a.shape = b.shape → Leads (fun v w => WF v ∧ WF w ∧ Pos v.shape ∧ v.shape = w.shape) (f a) (f b))
    {t u : Nat} (ht : β t u) :
    Leads (LikeRes β S) (do
      let n ← g.node t
      let val ← f n.val
      return g.alloc { val, grad := none, gradFn := some { inputs := [t], kind := k } }) (do
      let n ← h.node u
      let val ← f n.val
      return h.alloc { val, grad := none, gradFn := some { inputs := [u], kind := k } }) :=
  (node_like hh ht).bind fun n m hn => (hf _ _ hn.1 hn.2.1 hn.2.2.1 hn.2.2.2).bind fun v w hv =>
    .ok (alloc_like hh ⟨hv.1, hv.2.2.1, nofun⟩ ⟨hv.2.1, hv.2.2.2 ▸ hv.2.2.1, nofun⟩ hv.2.2.2 (.both (.cons ht .nil)))

theorem binary_like (k : JvpKind) (f : Raw T → Raw T → R (Raw T))
    (hf : ∀ a b c d, WF a → WF b → WF c → WF d → Pos a.shape → Pos c.shape → a.shape = b.shape → c.shape = d.shape →
      Leads (fun v w => WF v ∧ WF w ∧ Pos v.shape ∧ v.shape = w.shape) (f a c) (f b d)) {l r l' r' : Nat} (hl : β l l') (hr : β r r') :
    Leads (LikeRes β S) (do
      let ln ← g.node l
      let rn ← g.node r
      let val ← f ln.val rn.val
      return g.alloc { val, grad := none, gradFn := some { inputs := [l, r], kind := k } }) (do
      let ln ← h.node l'
      let rn ← h.node r'
      let val ← f ln.val rn.val
      return h.alloc { val, grad := none, gradFn := some { inputs := [l', r'], kind := k } }) :=
  (node_like hh hl).bind fun n m hn => (node_like hh hr).bind fun n' m' hn' =>
    (hf _ _ _ _ hn.1 hn.2.1 hn'.1 hn'.2.1 hn.2.2.1 hn'.2.2.1 hn.2.2.2 hn'.2.2.2).bind fun v w hv =>
    .ok (alloc_like hh ⟨hv.1, hv.2.2.1, nofun⟩ ⟨hv.2.1, hv.2.2.2 ▸ hv.2.2.1, nofun⟩ hv.2.2.2 (.both (.cons hl (.cons hr .nil))))

end structural

section arith

variable [Zero T] [One T] [Add T] [Mul T] [Sub T] [Neg T] [LT T] [DecidableLT T] [LE T] [DecidableLE T] [RealFn T]

theorem Sturdy.gradTakes {h : Heap T} {t : Nat} {n : Node T} (hn : h[t]? = some n) (hs : Sturdy h n) : GradTakes h t := by
  intro n' g hn' hg
  rw [hn] at hn'
  cases hn'
  cases ho : n.grad with
  | none => rw [gradOf_none hn ho] at hg; cases hg
  | some o =>
    obtain ⟨m, h1, h2⟩ := hs.takes o ho
    rw [gradOf_some hn ho h1] at hg
    cases hg
    exact h2

theorem addRaw_like {a b c d : Raw T} (ha : WF a) (hb : WF b) (hc : WF c) (hd : WF d) (h1 : a.shape = b.shape) (h2 : c.shape = d.shape) :
    Leads (fun v w => WF v ∧ WF w ∧ Pos v.shape ∧ v.shape = w.shape) (addRaw (.raw a) (.raw c)) (addRaw (.raw b) (.raw d)) := by
  intro v e
  have h3 : SameOutcome (RawRel fun _ _ : T => True) (addRaw (.raw a) (.raw c)) (addRaw (.raw b) (.raw d)) :=
    genericBinopRaw_rel trivial (.raw (rawRel_any ha hb h1)) (.raw (rawRel_any hc hd h2)) fun _ _ => trivial
  obtain ⟨w, hw, h4⟩ := h3.leads v e
  refine ⟨w, hw, (genericBinopRaw_post _ _ _ v e).2, (genericBinopRaw_post _ _ _ w hw).2, ?_, h4.2⟩
  have e' := e
  unfold addRaw genericBinopRaw at e'
  rw [R.bind_eq_ok] at e'
  obtain ⟨_, _, e'⟩ := e'
  rw [(genericBinopRaw_post _ _ _ v e).1]
  exact forIndices_ok_pos e'

theorem bmmRaw_like {a b c d : Raw T} (ha : WF a) (hb : WF b) (hc : WF c) (hd : WF d) (pa : Pos a.shape) (pc : Pos c.shape)
    (h1 : a.shape = b.shape) (h2 : c.shape = d.shape) :
    Leads (fun v w => WF v ∧ WF w ∧ Pos v.shape ∧ v.shape = w.shape) (bmmRaw (.raw a) (.raw c)) (bmmRaw (.raw b) (.raw d)) := by
  intro v e
  have h3 : SameOutcome (RawRel fun _ _ : T => True) (bmmRaw (.raw a) (.raw c)) (bmmRaw (.raw b) (.raw d)) :=
    bmmRaw_rel trivial (fun _ _ => trivial) (fun _ _ => trivial) (.raw (rawRel_any ha hb h1)) (.raw (rawRel_any hc hd h2))
  obtain ⟨w, hw, h4⟩ := h3.leads v e
  refine ⟨w, hw, bmmRaw_post _ _ v e, bmmRaw_post _ _ w hw, ?_, h4.2⟩
  obtain ⟨_, _, _, ⟨m, n, q1, q2, -, -, q3⟩ | ⟨m, k, n, q1, q2, q3, -, -, q4⟩⟩ := bmmRaw_shape e
  · rw [q3]
    intro x hx
    simp only [List.mem_cons, List.not_mem_nil, or_false] at hx
    rcases hx with rfl | rfl
    · exact pa _ (List.mem_of_getElem? q1)
    · exact pc _ (List.mem_of_getElem? q2)
  · rw [q4]
    intro x hx
    simp only [List.mem_cons, List.not_mem_nil, or_false] at hx
    rcases hx with rfl | rfl | rfl
    · exact pa _ (List.mem_of_getElem? q1)
    · exact pa _ (List.mem_of_getElem? q2)
    · exact pc _ (List.mem_of_getElem? q3)

theorem unaryRaw_like (f : T → T) {a b : Raw T} (ha : WF a) (hb : WF b) (pa : Pos a.shape) (h1 : a.shape = b.shape) :
    Leads (fun v w => WF v ∧ WF w ∧ Pos v.shape ∧ v.shape = w.shape) (genericUnaryOp (.raw a) f) (genericUnaryOp (.raw b) f) := by
  intro v e
  have h3 : SameOutcome (RawRel fun _ _ : T => True) (genericUnaryOp (.raw a) f) (genericUnaryOp (.raw b) f) :=
    genericUnaryOp_rel (.raw (rawRel_any ha hb h1)) fun _ _ _ => trivial
  obtain ⟨w, hw, h4⟩ := h3.leads v e
  refine ⟨w, hw, genericUnaryOp_post _ _ v e, genericUnaryOp_post _ _ w hw, ?_, h4.2⟩
  rw [genericUnaryOp_shape e]
  exact pa

theorem addT_like (hh : ShapeSim β S g h) {l r l' r' : Nat} (hl : β l l') (hr : β r r') : Leads (LikeRes β S) (addT g l r) (addT h l' r') :=
  binary_like hh .add (fun a c => addRaw (.raw a) (.raw c)) (fun _ _ _ _ ha hb hc hd _ _ h1 h2 => addRaw_like ha hb hc hd h1 h2) hl hr

theorem bmmT_like (hh : ShapeSim β S g h) {l r l' r' : Nat} (hl : β l l') (hr : β r r') : Leads (LikeRes β S) (bmmT g l r) (bmmT h l' r') :=
  binary_like hh .bmm (fun a c => bmmRaw (.raw a) (.raw c)) (fun _ _ _ _ ha hb hc hd pa pc h1 h2 => bmmRaw_like ha hb hc hd pa pc h1 h2) hl hr

theorem negT_like (hh : ShapeSim β S g h) {t u : Nat} (ht : β t u) : Leads (LikeRes β S) (negT g t) (negT h u) :=
  unary_like hh .neg (fun a => negRaw (.raw a)) (fun _ _ ha hb pa h1 => unaryRaw_like _ ha hb pa h1) ht

theorem absT_like (hh : ShapeSim β S g h) {t u : Nat} (ht : β t u) : Leads (LikeRes β S) (absT g t) (absT h u) :=
  unary_like hh .abs (fun a => absRaw (.raw a)) (fun _ _ ha hb pa h1 => unaryRaw_like _ ha hb pa h1) ht

theorem act_like (hh : ShapeSim β S g h) {f : Activation T} (hf : StdAct f) {t u : Nat} (ht : β t u) : Leads (LikeRes β S) (f g t) (f h u) := by
  rcases hf with rfl | rfl | rfl
  · exact .ok ⟨β, Ext.refl β, hh, ht⟩
  · exact unary_like hh .relu (fun a => reluRaw (.raw a)) (fun _ _ ha hb pa h1 => unaryRaw_like _ ha hb pa h1) ht
  · exact unary_like hh .tanh (fun a => tanhRaw (.raw a)) (fun _ _ ha hb pa h1 => unaryRaw_like _ ha hb pa h1) ht

theorem subT_like (hh : ShapeSim β S g h) {l r l' r' : Nat} (hl : β l l') (hr : β r r') : Leads (LikeRes β S) (subT g l r) (subT h l' r') := by
  rw [subT, subT]
  refine (negT_like hh hr).bind ?_
  rintro ⟨g1, a⟩ ⟨h1, b⟩ ⟨β1, e1, s1, hb⟩
  exact (addT_like s1 (e1 _ _ hl) hb).mono fun _ _ hr => hr.ext e1

theorem sumT_like (hh : ShapeSim β S g h) {t u : Nat} (ht : β t u) : Leads (LikeRes β S) (sumT g t) (sumT h u) := by
  obtain ⟨n, m, h1, h2, h3, h4, h5, -⟩ := hh.node t u ht
  rintro ⟨g', id⟩ e
  obtain ⟨n', v, hn, hv, rfl, rfl⟩ := sumT_inv e
  rw [h1] at hn
  cases hn
  obtain ⟨w, hw, h6⟩ := (TLRel.sum (rel := fun _ _ : T => True) trivial (fun _ _ => trivial) (.raw (rawRel_any h3.wf h4.wf h5))).leads v hv
  have hs : ∀ {k : Heap T} {n : Node T} {v : Raw T}, Sturdy k n → (TL.raw n.val).sum = .ok v →
      Sturdy (k ++ [leafNode (Raw.newWithFiller n.val.shape 1)]) ⟨v, some k.length, some ⟨[t], .sum⟩⟩ := by
    intro k n v hn hv
    obtain ⟨q1, q2⟩ := sum_post _ v hv
    refine ⟨q2, by rw [q1]; intro x hx; simp at hx, fun o ho => ?_⟩
    cases ho
    refine ⟨leafNode (Raw.newWithFiller n.val.shape 1), by simp, Raw.newWithFiller_wf _ _, .inr ⟨q1, ?_⟩⟩
    show Pos (Raw.newWithFiller n.val.shape (1 : T)).shape
    rw [Raw.newWithFiller_eq]
    exact hn.pos
  have hl := hh.extra [leafNode (Raw.newWithFiller n.val.shape 1)] [leafNode (Raw.newWithFiller m.val.shape 1)]
  have h7 := hs h3 hv
  have h8 := hs h4 hw
  refine ⟨(h ++ [leafNode (Raw.newWithFiller m.val.shape 1)] ++ [⟨w, some h.length, some ⟨[u], .sum⟩⟩], h.length + 1), ?_, ?_⟩
  · simp only [sumT, Heap.node_eq_ok.2 h2, R.bind_ok, hw]
    simp [Heap.leaf, Heap.alloc, leafNode]
  · have := alloc_like hl (n := ⟨v, some g.length, some ⟨[t], .sum⟩⟩) (m := ⟨w, some h.length, some ⟨[u], .sum⟩⟩) h7
      ⟨h8.wf, h8.pos, h8.takes⟩ h6.2 (.both (.cons ht .nil))
    simpa [Heap.alloc] using this

theorem forward_like : ∀ {ls ls' : List (Linear T)} {β : Nat → Nat → Prop} {g h : Heap T}, ShapeSim β S g h → NetSim β ⟨ls⟩ ⟨ls'⟩ →
    (∀ l ∈ ls', StdAct l.activation) → ∀ {x x' : Nat}, β x x' → Leads (LikeRes β S) ((⟨ls⟩ : Mlp T).forward g x) ((⟨ls'⟩ : Mlp T).forward h x') := by
  intro ls
  induction ls with
  | nil =>
    intro ls' β g h hh hn _ x x' hx
    cases ls' with
    | nil => exact .ok ⟨β, Ext.refl β, hh, hx⟩
    | cons l ls => exact absurd hn.acts (by simp)
  | cons l ls ih =>
    intro ls' β g h hh hn hf x x' hx
    cases ls' with
    | nil => exact absurd hn.acts (by simp)
    | cons l' ls' =>
      obtain ⟨h1, h2, h3, h4⟩ := hn.cons
      rw [Mlp.forward, Mlp.forward, List.foldlM_cons, List.foldlM_cons]
      refine Leads.bind (P := LikeRes β S) ?_ ?_
      · simp only [Linear.forward]
        refine (bmmT_like hh hx h2).bind ?_
        rintro ⟨g1, a⟩ ⟨k1, b⟩ ⟨β1, x1, s1, b1⟩
        refine (addT_like s1 b1 (x1 _ _ h3)).bind ?_
        rintro ⟨g2, a2⟩ ⟨k2, b2⟩ ⟨β2, x2, s2, b3⟩
        rw [h1]
        exact (act_like s2 (hf l' (by simp)) b3).mono fun _ _ hr => hr.ext (x1.trans x2)
      · rintro ⟨g1, a⟩ ⟨k1, b⟩ ⟨β1, x1, s1, b1⟩
        exact (ih s1 (h4.ext x1) (fun l hl => hf l (by simp [hl])) b1).mono fun _ _ hr => hr.ext x1

theorem trainLoss_like (hh : ShapeSim β S g h) {a b : Mlp T} (hn : NetSim β a b) (hf : ∀ l ∈ b.layers, StdAct l.activation) {x x' y y' : Nat}
    (hx : β x x') (hy : β y y') : Leads (LikeRes β S) (trainLoss a g x y) (trainLoss b h x' y') := by
  rw [trainLoss, trainLoss]
  refine (forward_like (ls := a.layers) (ls' := b.layers) hh hn hf hx).bind ?_
  rintro ⟨g1, p1⟩ ⟨k1, q1⟩ ⟨β1, x1, s1, b1⟩
  refine (subT_like s1 b1 (x1 _ _ hy)).bind ?_
  rintro ⟨g2, p2⟩ ⟨k2, q2⟩ ⟨β2, x2, s2, b2⟩
  refine (absT_like s2 b2).bind ?_
  rintro ⟨g3, p3⟩ ⟨k3, q3⟩ ⟨β3, x3, s3, b3⟩
  exact (sumT_like s3 b3).mono fun _ _ hr => hr.ext (x1.trans (x2.trans x3))

/-! ### what the loss was computed from -/

theorem anc_back (hh : ShapeSim β S g h) {l l' a : Nat} (hl : β l l') (ha : Ancestor h a l') : (∃ i, β i a ∧ Ancestor g i l) ∨ S a := by
  have key : ∀ {i c a : Nat}, β i c → IsInput h a c → (∃ j, β j a ∧ IsInput g j i) ∨ S a := by
    rintro i c a hi ⟨m', d, hm, hd, hin⟩
    obtain ⟨n, m, h1, h2, -, -, -, h3⟩ := hh.node i c hi
    rw [hm] at h2
    cases h2
    rw [hd] at h3
    generalize hn : n.gradFn = o at h3
    cases h3 with
    | cut _ h4 => exact .inr (h4 a hin)
    | both h4 =>
      obtain ⟨j, hj, hb⟩ := forall₂_mem_right h4 hin
      exact .inl ⟨j, hb, n, _, h1, hn, hj⟩
  induction ha using Relation.TransGen.head_induction_on with
  | single h1 =>
    rcases key hl h1 with ⟨j, hb, hj⟩ | hs
    · exact .inl ⟨j, hb, .single hj⟩
    · exact .inr hs
  | head h1 _ ih =>
    rcases ih with ⟨i, hi, hil⟩ | hs
    · rcases key hi h1 with ⟨j, hb, hj⟩ | hs
      · exact .inl ⟨j, hb, .head hj hil⟩
      · exact .inr hs
    · obtain ⟨m, h2, -, h3⟩ := hh.shadow _ hs
      obtain ⟨m', d, hm, hd, hin⟩ := h1
      rw [hm] at h2
      cases h2
      exact .inr ((h3 d hd).2 _ hin)

theorem anc_forth (hh : ShapeSim β S g h) {l l' i : Nat} (hl : β l l') (ha : Ancestor g i l) : ∃ a, β i a ∧ Ancestor h a l' := by
  have key : ∀ {i c j : Nat}, β i c → IsInput g j i → ∃ a, β j a ∧ IsInput h a c := by
    rintro i c j hi ⟨n', d, hn, hd, hin⟩
    obtain ⟨n, m, h1, h2, -, -, -, h3⟩ := hh.node i c hi
    rw [hn] at h1
    cases h1
    rw [hd] at h3
    generalize hm : m.gradFn = o at h3
    cases h3 with
    | both h4 =>
      obtain ⟨a, ha, hb⟩ := forall₂_mem_left h4 hin
      exact ⟨a, hb, m, _, h2, hm, ha⟩
  induction ha using Relation.TransGen.head_induction_on with
  | single h1 =>
    obtain ⟨a, h2, h3⟩ := key hl h1
    exact ⟨a, h2, .single h3⟩
  | head h1 _ ih =>
    obtain ⟨c, hc, hcl⟩ := ih
    obtain ⟨a, h2, h3⟩ := key hc h1
    exact ⟨a, h2, .head h3 hcl⟩

/-- `backward` succeeds on tensors of the same shapes. -/
theorem backward_like (hh : ShapeSim β S g h) (hg : Reachable g) (hr : Reachable h) {l l' : Nat} (hl : β l l') {n : Node T} {i : Nat}
    (hn : g[l]? = some n) (hd : n.gradFn = some ⟨[i], .sum⟩) {g' : Heap T} (e : backward g l = .ok g') : ∃ h', backward h l' = .ok h' := by
  obtain ⟨n', m, h1, h2, s1, s2, h3, h4⟩ := hh.node l l' hl
  rw [hn] at h1
  cases h1
  obtain ⟨_, _, _, h5, hone, -⟩ := backward_inv hg.good e
  rw [hn] at h5
  cases h5
  rw [hd] at h4
  generalize hm : m.gradFn = o at h4
  cases h4 with
  | @both _ js _ hjs =>
  have hone' : m.val.array.length = 1 := by rw [s2.wf, ← h3, ← s1.wf]; exact hone
  have hk : (⟨[i], .sum⟩ : Deriv).kind ≠ .dot ∧ (⟨[i], .sum⟩ : Deriv).kind ≠ .abs ∧ (⟨[i], .sum⟩ : Deriv).kind ≠ .bmm := by simp
  have fine : ∀ {k : Heap T} {a : Nat} {q : Node T} {w : Raw T}, k[a]? = some q → Sturdy k q → dataOf k a = some w →
      WF w ∧ Pos w.shape ∧ ∀ g, gradOf k a = some g → WF g ∧ (g.shape = w.shape ∨ w.shape = [] ∧ Pos g.shape) := by
    intro k a q w hq hs hw
    rw [dataOf, hq] at hw
    cases hw
    exact ⟨hs.wf, hs.pos, fun g hg => hs.gradTakes hq q g hq hg⟩
  have H := (C39_exact g hg l n.val ⟨[i], .sum⟩ (dataOf_eq.2 ⟨n, hn, rfl⟩) hone (historyOf_eq.2 ⟨n, hn, hd⟩) hk.1 (by
    intro a w ha hw
    obtain ⟨p, hp, -⟩ := anc_forth hh hl ha
    obtain ⟨q, _, q1, -, q2, -⟩ := hh.node a p hp
    exact fine q1 q2 hw)).1 ⟨g', e⟩
  refine (C39_exact h hr l' m.val ⟨js, .sum⟩ (dataOf_eq.2 ⟨m, h2, rfl⟩) hone' (historyOf_eq.2 ⟨m, h2, hm⟩) (by simp) (by
    intro a w ha hw
    rcases anc_back hh hl ha with ⟨j, hj, -⟩ | hs
    · obtain ⟨_, q, -, q1, -, q2, -⟩ := hh.node j a hj
      exact fine q1 q2 hw
    · obtain ⟨q, q1, q2, -⟩ := hh.shadow a hs
      exact fine q1 q2 hw)).2 ⟨by simp, by simp, fun a d ha hd' => ?_⟩
  obtain ⟨q, hq, hd'⟩ := historyOf_eq.1 hd'
  have np : NoProduct d.kind → (d.kind = .dot → ∀ i ∈ d.inputs, ∀ w, dataOf h i = some w → w.shape = [] ∨ w.shape = [1, 1]) ∧
      (d.kind = .bmm → ∀ i w, d.inputs[0]? = some i → dataOf h i = some w → w.shape.length = 2 ∨ ∀ x ∈ w.shape, x = 1) :=
    fun hk => ⟨fun h0 => absurd h0 hk.1, fun h0 => absurd h0 hk.2⟩
  rcases anc_back hh hl ha with ⟨j, hj, hja⟩ | hs
  · obtain ⟨r, q', q1, q2, -, -, -, q3⟩ := hh.node j a hj
    rw [hq] at q2
    cases q2
    rw [hd'] at q3
    generalize hr' : r.gradFn = o at q3
    cases q3 with
    | cut h5 => exact np h5
    | @both is js k h5 =>
      obtain ⟨t1, t2⟩ := H.2.2 j ⟨is, k⟩ hja (historyOf_eq.2 ⟨r, q1, hr'⟩)
      have shp : ∀ {b b' : Nat}, β b b' → ∀ {w}, dataOf h b' = some w → ∃ v, dataOf g b = some v ∧ v.shape = w.shape := by
        intro b b' hb w hw
        obtain ⟨u, u', u1, u2, -, -, u3, -⟩ := hh.node b b' hb
        rw [dataOf, u2] at hw
        cases hw
        exact ⟨u.val, dataOf_eq.2 ⟨u, u1, rfl⟩, u3⟩
      refine ⟨fun h0 b' hb' w hw => ?_, fun h0 b' w hb' hw => ?_⟩
      · obtain ⟨b, hb, hbb⟩ := forall₂_mem_right h5 hb'
        obtain ⟨v, hv, hs⟩ := shp hbb hw
        rw [← hs]
        exact t1 h0 b hb v hv
      · cases h5 with
        | nil => simp at hb'
        | cons h6 _ =>
          simp only [List.getElem?_cons_zero, Option.some.injEq] at hb'
          subst hb'
          obtain ⟨v, hv, hs⟩ := shp h6 hw
          rw [← hs]
          exact t2 h0 _ v rfl hv
  · obtain ⟨q', q1, -, q2⟩ := hh.shadow a hs
    rw [hq] at q1
    cases q1
    exact np (q2 d hd').1

end arith

end RL
