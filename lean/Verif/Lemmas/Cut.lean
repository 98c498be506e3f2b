import Verif.SpecTrain
import Verif.Lemmas.Cost
import Verif.Lemmas.Nan
import Verif.Props.Cost
import Verif.Props.Tying

/-!
# The same program on tensors whose history is forgotten
-/

namespace RL

open Spec

/-- If `y` succeeds then so does `x`, with a related result. -/
def Follows {α β : Type} (P : α → β → Prop) (x : R α) (y : R β) : Prop := ∀ b, y = .ok b → ∃ a, x = .ok a ∧ P a b

section follows

variable {α α' β β' : Type} {P : α → α' → Prop} {Q : β → β' → Prop}

theorem Follows.ok {a : α} {b : α'} (h : P a b) : Follows P (.ok a) (.ok b) := fun c e => by cases e; exact ⟨a, rfl, h⟩

theorem Follows.bind {x : R α} {y : R α'} {f : α → R β} {g : α' → R β'} (h : Follows P x y) (hf : ∀ a b, P a b → Follows Q (f a) (g b)) :
    Follows Q (x >>= f) (y >>= g) := fun c e => by
  rw [R.bind_eq_ok] at e
  obtain ⟨b, e1, e2⟩ := e
  obtain ⟨a, rfl, h1⟩ := h b e1
  exact hf a b h1 c e2

theorem Follows.same (x : R α) {f : α → R β} {g : α → R β'} (hf : ∀ a, Follows Q (f a) (g a)) : Follows Q (x >>= f) (x >>= g) :=
  Follows.bind (P := fun a b => a = b) (fun b e => ⟨b, e, rfl⟩) fun a b h => by cases h; exact hf a

theorem Follows.mono {P' : α → α' → Prop} {x : R α} {y : R α'} (h : Follows P x y) (hp : ∀ a b, P a b → P' a b) : Follows P' x y :=
  fun b e => by
    obtain ⟨a, h1, h2⟩ := h b e
    exact ⟨a, h1, hp a b h2⟩

end follows

variable {T : Type}

/-- Histories: a tensor without history may stand for one whose history leads to tensors in `S`. -/
inductive HistSim (β : Nat → Nat → Prop) (S : Nat → Prop) : Option Deriv → Option Deriv → Prop where
  | leaf : HistSim β S none none
  | cut {d : Deriv} : (∀ j ∈ d.inputs, S j) → HistSim β S none (some d)
  | both {is js : List Nat} {k : JvpKind} : List.Forall₂ β is js → HistSim β S (some ⟨is, k⟩) (some ⟨js, k⟩)

/-- Corresponding tensors. -/
structure NodeSim (β : Nat → Nat → Prop) (S : Nat → Prop) (n m : Node T) : Prop where
  val : m.val = n.val
  grad : Option.Rel β n.grad m.grad
  hist : HistSim β S n.gradFn m.gradFn

/-- The tensors of `g` and `h` that correspond to each other by `β`; `S` is what forgotten histories lead to. -/
structure CutSim (β : Nat → Nat → Prop) (S : Nat → Prop) (g h : Heap T) : Prop where
  left : ∀ i p q, β i p → β i q → p = q
  right : ∀ i j p, β i p → β j p → i = j
  node : ∀ i p, β i p → ∃ n m, g[i]? = some n ∧ h[p]? = some m ∧ NodeSim β S n m
  shadow : ∀ p, S p → ∃ m, h[p]? = some m ∧ ∀ d, m.gradFn = some d → ∀ j ∈ d.inputs, S j
  apart : ∀ i p, β i p → ¬ S p

/-- More corresponding tensors. -/
def Ext (β β' : Nat → Nat → Prop) : Prop := ∀ i p, β i p → β' i p

theorem Ext.refl (β : Nat → Nat → Prop) : Ext β β := fun _ _ h => h

theorem Ext.trans {a b c : Nat → Nat → Prop} (h1 : Ext a b) (h2 : Ext b c) : Ext a c := fun i p h => h2 i p (h1 i p h)

/-- Results of functions that return a tensor. -/
def ResSim (β : Nat → Nat → Prop) (S : Nat → Prop) (p q : Heap T × Nat) : Prop := ∃ β', Ext β β' ∧ CutSim β' S p.1 q.1 ∧ β' p.2 q.2

/-- Results of functions that return no tensor. -/
def HeapSim (β : Nat → Nat → Prop) (S : Nat → Prop) (p q : Heap T) : Prop := ∃ β', Ext β β' ∧ CutSim β' S p q

variable {β β' : Nat → Nat → Prop} {S : Nat → Prop} {g h : Heap T}

theorem ResSim.ext {p q : Heap T × Nat} (hb : Ext β β') (hr : ResSim β' S p q) : ResSim β S p q := by
  obtain ⟨b, h1, h2⟩ := hr
  exact ⟨b, hb.trans h1, h2⟩

theorem HeapSim.ext {p q : Heap T} (hb : Ext β β') (hr : HeapSim β' S p q) : HeapSim β S p q := by
  obtain ⟨b, h1, h2⟩ := hr
  exact ⟨b, hb.trans h1, h2⟩

theorem HistSim.ext (hb : Ext β β') {a b : Option Deriv} (hh : HistSim β S a b) : HistSim β' S a b := by
  cases hh with
  | leaf => exact .leaf
  | cut hd => exact .cut hd
  | both hd => exact .both (hd.imp hb)

theorem NodeSim.ext (hb : Ext β β') {n m : Node T} (hn : NodeSim β S n m) : NodeSim β' S n m := by
  refine ⟨hn.val, ?_, hn.hist.ext hb⟩
  have := hn.grad
  generalize n.grad = a, m.grad = b at this
  cases this with
  | some h => exact .some (hb _ _ h)
  | none => exact .none

section structural

variable (hh : CutSim β S g h)

include hh

theorem CutSim.lt {i p : Nat} (hi : β i p) : i < g.length ∧ p < h.length := by
  obtain ⟨n, m, h1, h2, -⟩ := hh.node i p hi
  exact ⟨getElem?_lt h1, getElem?_lt h2⟩

theorem node_sim {i p : Nat} (hi : β i p) : Follows (NodeSim β S) (g.node i) (h.node p) := by
  obtain ⟨n, m, h1, h2, h3⟩ := hh.node i p hi
  intro b e
  rw [Heap.node_eq_ok, h2] at e
  cases e
  exact ⟨n, Heap.node_eq_ok.2 h1, h3⟩

theorem alloc_sim {n m : Node T} (hn : NodeSim β S n m) : ResSim β S (g.alloc n) (h.alloc m) := by
  refine ⟨fun i p => β i p ∨ (i = g.length ∧ p = h.length), fun i p => .inl, ?_, .inr ⟨rfl, rfl⟩⟩
  have hb : Ext β fun i p => β i p ∨ (i = g.length ∧ p = h.length) := fun i p => .inl
  refine ⟨fun i p q h1 h2 => ?_, fun i j p h1 h2 => ?_, fun i p h1 => ?_, fun p h1 => ?_, fun i p h1 h2 => ?_⟩
  · rcases h1 with h1 | ⟨rfl, rfl⟩
    · rcases h2 with h2 | ⟨rfl, rfl⟩
      · exact hh.left i p q h1 h2
      · exact absurd (hh.lt h1).1 (lt_irrefl _)
    · rcases h2 with h2 | ⟨-, rfl⟩
      · exact absurd (hh.lt h2).1 (lt_irrefl _)
      · rfl
  · rcases h1 with h1 | ⟨rfl, rfl⟩
    · rcases h2 with h2 | ⟨rfl, rfl⟩
      · exact hh.right i j p h1 h2
      · exact absurd (hh.lt h1).2 (lt_irrefl _)
    · rcases h2 with h2 | ⟨rfl, -⟩
      · exact absurd (hh.lt h2).2 (lt_irrefl _)
      · rfl
  · rcases h1 with h1 | ⟨rfl, rfl⟩
    · obtain ⟨n', m', h2, h3, h4⟩ := hh.node i p h1
      refine ⟨n', m', ?_, ?_, h4.ext hb⟩
      · change (g ++ [n])[i]? = _
        rw [List.getElem?_append_left (getElem?_lt h2), h2]
      · change (h ++ [m])[p]? = _
        rw [List.getElem?_append_left (getElem?_lt h3), h3]
    · exact ⟨n, m, by simp [Heap.alloc], by simp [Heap.alloc], hn.ext hb⟩
  · obtain ⟨m', h2, h3⟩ := hh.shadow p h1
    refine ⟨m', ?_, h3⟩
    change (h ++ [m])[p]? = _
    rw [List.getElem?_append_left (getElem?_lt h2), h2]
  · rcases h1 with h1 | ⟨rfl, rfl⟩
    · exact hh.apart i p h1 h2
    · obtain ⟨m', h2, -⟩ := hh.shadow _ h2
      exact absurd (getElem?_lt h2) (lt_irrefl _)

theorem leaf_sim (v : Raw T) : ResSim β S (g.leaf v) (h.leaf v) := alloc_sim hh ⟨rfl, .none, .leaf⟩

/-- a tensor that corresponds to none -/
theorem extra_sim (ns ms : Heap T) : CutSim β S (g ++ ns) (h ++ ms) := by
  refine ⟨hh.left, hh.right, fun i p h1 => ?_, fun p h1 => ?_, hh.apart⟩
  · obtain ⟨n, m', h2, h3, h4⟩ := hh.node i p h1
    exact ⟨n, m', by rw [List.getElem?_append_left (getElem?_lt h2), h2], by rw [List.getElem?_append_left (getElem?_lt h3), h3], h4⟩
  · obtain ⟨m', h2, h3⟩ := hh.shadow p h1
    exact ⟨m', by rw [List.getElem?_append_left (getElem?_lt h2), h2], h3⟩

theorem set_sim {t u : Nat} {n m : Node T} (ht : β t u) (hn : g[t]? = some n) (hm : h[u]? = some m) {a b : Option Nat}
    (hab : Option.Rel β a b) : CutSim β S (g.set t { n with grad := a }) (h.set u { m with grad := b }) := by
  refine ⟨hh.left, hh.right, fun i p h1 => ?_, fun p h1 => ?_, hh.apart⟩
  · by_cases e : t = i
    · subst e
      have := hh.left _ _ _ ht h1
      subst this
      obtain ⟨n', m', h2, h3, h4⟩ := hh.node t u h1
      rw [hn] at h2
      rw [hm] at h3
      cases h2
      cases h3
      exact ⟨_, _, List.getElem?_set_self (getElem?_lt hn), List.getElem?_set_self (getElem?_lt hm), h4.val, hab, h4.hist⟩
    · obtain ⟨n', m', h2, h3, h4⟩ := hh.node i p h1
      have e' : u ≠ p := fun e' => e (hh.right t i p (e' ▸ ht) h1)
      exact ⟨n', m', by rw [List.getElem?_set_ne e, h2], by rw [List.getElem?_set_ne e', h3], h4⟩
  · obtain ⟨m', h2, h3⟩ := hh.shadow p h1
    have e : u ≠ p := fun e => hh.apart t u ht (e ▸ h1)
    exact ⟨m', by rw [List.getElem?_set_ne e, h2], h3⟩

/-- a change of a gradient in `S` -/
theorem shadow_sim {u : Nat} (hu : S u) {m : Node T} (hm : h[u]? = some m) (b : Option Nat) : CutSim β S g (h.set u { m with grad := b }) := by
  refine ⟨hh.left, hh.right, fun i p h1 => ?_, fun p h1 => ?_, hh.apart⟩
  · obtain ⟨n', m', h2, h3, h4⟩ := hh.node i p h1
    have e : u ≠ p := fun e => hh.apart i p h1 (e ▸ hu)
    exact ⟨n', m', h2, by rw [List.getElem?_set_ne e, h3], h4⟩
  · obtain ⟨m', h2, h3⟩ := hh.shadow p h1
    by_cases e : u = p
    · subst e
      rw [hm] at h2
      cases h2
      exact ⟨_, List.getElem?_set_self (getElem?_lt hm), h3⟩
    · exact ⟨m', by rw [List.getElem?_set_ne e, h2], h3⟩

theorem gradT_sim {t u : Nat} (ht : β t u) : Follows β (gradT g t) (gradT h u) := by
  rw [gradT, gradT]
  refine (node_sim hh ht).bind fun n m hn => ?_
  have := hn.grad
  generalize n.grad = a, m.grad = b at this
  cases this with
  | none => intro b e; cases e
  | some h => exact .ok h

theorem zeroGrad_sim {t u : Nat} (ht : β t u) : Follows (CutSim β S) (zeroGrad g t) (zeroGrad h u) := by
  obtain ⟨n, m, h2, h3, h4⟩ := hh.node t u ht
  intro b e
  simp only [zeroGrad, Heap.node_eq_ok.2 h3, R.bind_ok] at e
  cases e
  refine ⟨g.set t { n with grad := none }, ?_, set_sim hh ht h2 h3 .none⟩
  simp only [zeroGrad, Heap.node_eq_ok.2 h2, R.bind_ok]
  rfl

theorem unary_sim (k : JvpKind) (f : Raw T → R (Raw T)) {t u : Nat} (ht : β t u) :
    Follows (ResSim β S) (do
      let n ← g.node t
      let val ← f n.val
      return g.alloc { val, grad := none, gradFn := some { inputs := [t], kind := k } }) (do
      let n ← h.node u
      let val ← f n.val
      return h.alloc { val, grad := none, gradFn := some { inputs := [u], kind := k } }) :=
  (node_sim hh ht).bind fun n m hn => by
    rw [hn.val]
    exact Follows.same _ fun v => .ok (alloc_sim hh ⟨rfl, .none, .both (.cons ht .nil)⟩)

theorem binary_sim (k : JvpKind) (f : Raw T → Raw T → R (Raw T)) {l r l' r' : Nat} (hl : β l l') (hr : β r r') :
    Follows (ResSim β S) (do
      let ln ← g.node l
      let rn ← g.node r
      let val ← f ln.val rn.val
      return g.alloc { val, grad := none, gradFn := some { inputs := [l, r], kind := k } }) (do
      let ln ← h.node l'
      let rn ← h.node r'
      let val ← f ln.val rn.val
      return h.alloc { val, grad := none, gradFn := some { inputs := [l', r'], kind := k } }) :=
  (node_sim hh hl).bind fun n m hn => (node_sim hh hr).bind fun n' m' hn' => by
    rw [hn.val, hn'.val]
    exact Follows.same _ fun v => .ok (alloc_sim hh ⟨rfl, .none, .both (.cons hl (.cons hr .nil))⟩)

theorem sumT_sim [Zero T] [One T] [Add T] {t u : Nat} (ht : β t u) : Follows (ResSim β S) (sumT g t) (sumT h u) := by
  rw [sumT, sumT]
  refine (node_sim hh ht).bind fun n m hn => ?_
  rw [hn.val]
  refine Follows.same _ fun v => ?_
  obtain ⟨b1, h1, h2, h3⟩ := leaf_sim hh (Raw.newWithFiller n.val.shape 1)
  exact .ok ((alloc_sim h2 (n := ⟨v, some g.length, some ⟨[t], .sum⟩⟩) (m := ⟨v, some h.length, some ⟨[u], .sum⟩⟩)
    ⟨rfl, .some h3, .both (.cons (h1 _ _ ht) .nil)⟩).ext h1)

end structural

section arith

variable [Zero T] [One T] [Add T] [Mul T] [Sub T] [Neg T] [LT T] [DecidableLT T] [LE T] [DecidableLE T] [RealFn T]

theorem addT_sim (hh : CutSim β S g h) {l r l' r' : Nat} (hl : β l l') (hr : β r r') : Follows (ResSim β S) (addT g l r) (addT h l' r') :=
  binary_sim hh .add (fun a c => addRaw (.raw a) (.raw c)) hl hr

theorem bmmT_sim (hh : CutSim β S g h) {l r l' r' : Nat} (hl : β l l') (hr : β r r') : Follows (ResSim β S) (bmmT g l r) (bmmT h l' r') :=
  binary_sim hh .bmm (fun a c => bmmRaw (.raw a) (.raw c)) hl hr

theorem negT_sim (hh : CutSim β S g h) {t u : Nat} (ht : β t u) : Follows (ResSim β S) (negT g t) (negT h u) :=
  unary_sim hh .neg (fun a => negRaw (.raw a)) ht

theorem absT_sim (hh : CutSim β S g h) {t u : Nat} (ht : β t u) : Follows (ResSim β S) (absT g t) (absT h u) :=
  unary_sim hh .abs (fun a => absRaw (.raw a)) ht

theorem act_sim (hh : CutSim β S g h) {f : Activation T} (hf : StdAct f) {t u : Nat} (ht : β t u) : Follows (ResSim β S) (f g t) (f h u) := by
  rcases hf with rfl | rfl | rfl
  · exact .ok ⟨β, Ext.refl β, hh, ht⟩
  · exact unary_sim hh .relu (fun a => reluRaw (.raw a)) ht
  · exact unary_sim hh .tanh (fun a => tanhRaw (.raw a)) ht

theorem subT_sim (hh : CutSim β S g h) {l r l' r' : Nat} (hl : β l l') (hr : β r r') : Follows (ResSim β S) (subT g l r) (subT h l' r') := by
  rw [subT, subT]
  refine (negT_sim hh hr).bind ?_
  rintro ⟨g1, a⟩ ⟨h1, b⟩ ⟨β1, e1, s1, hb⟩
  exact (addT_sim s1 (e1 _ _ hl) hb).mono fun _ _ hr => hr.ext e1

theorem updateGrad_sim (hh : CutSim β S g h) {t u c c' : Nat} (ht : β t u) (hc : β c c') :
    Follows (HeapSim β S) (updateGrad g t c) (updateGrad h u c') := by
  obtain ⟨n, m, h2, h3, h4⟩ := hh.node t u ht
  intro b e
  simp only [updateGrad, Heap.node_eq_ok.2 h3, R.bind_ok] at e
  have hgr := h4.grad
  generalize hn : n.grad = a, hm : m.grad = a' at hgr
  rw [hm] at e
  cases hgr with
  | none =>
    cases e
    refine ⟨g.set t { n with grad := some c }, ?_, β, Ext.refl β, set_sim hh ht h2 h3 (.some hc)⟩
    simp only [updateGrad, Heap.node_eq_ok.2 h2, R.bind_ok, hn]
    rfl
  | @some o o' ho =>
    simp only [R.bind_eq_ok, Prod.exists] at e
    obtain ⟨k, q, e1, e2⟩ := e
    cases e2
    obtain ⟨⟨g1, a⟩, f1, β1, x1, s1, hb⟩ := addT_sim hh ho hc _ e1
    have key : ∀ {x x' : Heap T} {i j r v : Nat} {n : Node T}, addT x i j = .ok (x', r) → x[v]? = some n → x'[v]? = some n := by
      intro x x' i j r v n e hv
      simp only [addT, R.bind_eq_ok, R.pure_eq_ok, Heap.alloc] at e
      obtain ⟨_, _, _, _, _, _, e⟩ := e
      cases e
      rw [List.getElem?_append_left (getElem?_lt hv), hv]
    refine ⟨g1.set t { n with grad := some a }, ?_, β1, x1, set_sim s1 (x1 _ _ ht) (key f1 h2) (key e1 h3) (.some hb)⟩
    simp only [updateGrad, Heap.node_eq_ok.2 h2, R.bind_ok, hn, f1]
    rfl

/-- an update of a gradient in `S` -/
theorem updateGrad_shadow (hh : CutSim β S g h) {u c : Nat} (hu : S u) {h' : Heap T} (e : updateGrad h u c = .ok h') : CutSim β S g h' := by
  obtain ⟨m, h2, -⟩ := hh.shadow u hu
  simp only [updateGrad, Heap.node_eq_ok.2 h2, R.bind_ok] at e
  cases hm : m.grad with
  | none =>
    rw [hm] at e
    cases e
    exact shadow_sim hh hu h2 _
  | some o =>
    rw [hm] at e
    simp only [R.bind_eq_ok, Prod.exists] at e
    obtain ⟨k, q, e1, e2⟩ := e
    cases e2
    simp only [addT, R.bind_eq_ok, R.pure_eq_ok, Heap.alloc] at e1
    obtain ⟨_, _, _, _, v, _, e1⟩ := e1
    cases e1
    have := extra_sim hh [] [⟨v, none, some ⟨[o, c], .add⟩⟩]
    rw [List.append_nil] at this
    exact shadow_sim this hu (by rw [List.getElem?_append_left (getElem?_lt h2), h2]) _

/-- `compute_jvp` on a forgotten history -/
theorem computeJvp_shadow (fuel : Nat) : ∀ {h h' : Heap T} {d : Deriv} {gs : List (Raw T)}, CutSim β S g h → (∀ j ∈ d.inputs, S j) →
    computeJvp fuel h d gs = .ok h' → CutSim β S g h' := by
  induction fuel with
  | zero => intro h h' d gs _ _ e; cases e
  | succ fuel ih =>
    intro h h' d gs hh hd e
    rw [computeJvp, R.bind_eq_ok] at e
    obtain ⟨ins, -, e⟩ := e
    rw [R.bind_eq_ok] at e
    obtain ⟨sg, -, e⟩ := e
    have hz : ∀ x ∈ sg.zip d.inputs, S x.2 := fun x hx => hd x.2 (List.of_mem_zip hx).2
    generalize sg.zip d.inputs = l at e hz
    induction l generalizing h with
    | nil => cases e; exact hh
    | cons x l ihl =>
      rw [List.foldlM_cons, R.bind_eq_ok] at e
      obtain ⟨h1, e1, e2⟩ := e
      refine ihl ?_ e2 fun y hy => hz y (List.mem_cons_of_mem _ hy)
      obtain ⟨grad, i⟩ := x
      have hi : S i := hz (grad, i) (by simp)
      simp only [R.bind_eq_ok, Heap.node_eq_ok] at e1
      obtain ⟨n, hn, -, -, s, -, h2, e3, e4⟩ := e1
      have s1 : CutSim β S g (h.leaf s).1 := by
        have := extra_sim hh [] [leafNode s]
        rwa [List.append_nil] at this
      have s2 := updateGrad_shadow s1 hi e3
      obtain ⟨m, h3, h4⟩ := hh.shadow i hi
      rw [hn] at h3
      cases h3
      cases hd' : n.gradFn with
      | none => rw [hd'] at e4; cases e4; exact s2
      | some d' => rw [hd'] at e4; exact ih s2 (h4 d' hd') e4

theorem computeJvp_sim (fuel : Nat) : ∀ {β : Nat → Nat → Prop} {g h : Heap T} {is js : List Nat} {k : JvpKind} {gs : List (Raw T)},
    CutSim β S g h → List.Forall₂ β is js → Follows (HeapSim β S) (computeJvp fuel g ⟨is, k⟩ gs) (computeJvp fuel h ⟨js, k⟩ gs) := by
  induction fuel with
  | zero => intro β g h is js k gs _ _ b e; cases e
  | succ fuel ih =>
    intro β g h is js k gs hh hij
    rw [computeJvp, computeJvp]
    refine Follows.bind (P := fun a c => a = c) ?_ fun ins _ hi => ?_
    · simp only
      induction hij with
      | nil => exact .ok rfl
      | cons h1 _ ih1 =>
        rw [List.mapM_cons, List.mapM_cons]
        refine Follows.bind (P := fun a c => a = c) ((node_sim hh h1).bind fun n m hn => .ok hn.val.symm) fun v _ hv => ?_
        cases hv
        exact ih1.bind fun vs _ hvs => by cases hvs; exact .ok rfl
    · cases hi
      refine Follows.same _ fun sg => ?_
      simp only
      induction is generalizing js sg β g h with
      | nil =>
        cases hij
        rw [List.zip_nil_right]
        exact .ok ⟨β, Ext.refl β, hh⟩
      | cons i is ih1 =>
        cases hij with
        | @cons _ j _ js h1 hij =>
        cases sg with
        | nil => exact .ok ⟨β, Ext.refl β, hh⟩
        | cons grad sg =>
          rw [List.zip_cons_cons, List.zip_cons_cons, List.foldlM_cons, List.foldlM_cons]
          refine Follows.bind (P := HeapSim β S) ?_ ?_
          · refine (node_sim hh h1).bind fun n m hn => ?_
            rw [hn.val]
            refine Follows.same _ fun _ => Follows.same _ fun s => ?_
            obtain ⟨β1, x1, s1, hb⟩ := leaf_sim hh s
            refine (updateGrad_sim s1 (x1 _ _ h1) hb).bind ?_
            rintro g2 h2 ⟨β2, x2, s2⟩
            have hx := x1.trans x2
            have hist := hn.hist
            generalize n.gradFn = a, m.gradFn = c at hist
            cases hist with
            | leaf => exact .ok ⟨β2, hx, s2⟩
            | cut hd =>
              intro h3 e3
              exact ⟨g2, rfl, β2, hx, computeJvp_shadow fuel s2 hd e3⟩
            | both hd => exact (ih s2 (hd.imp hx)).mono fun _ _ hr => hr.ext hx
          · rintro g1 h1' ⟨β1, x1, s1⟩
            exact (ih1 s1 (hij.imp x1) sg).mono fun _ _ hr => hr.ext x1

theorem backward_sim (hh : CutSim β S g h) (hg : g.Good) (hgh : h.Good) {t u : Nat} (ht : β t u) (hroot : ∀ n, g[t]? = some n → n.gradFn ≠ none) :
    Follows (HeapSim β S) (backward g t) (backward h u) := by
  obtain ⟨n, m, h2, h3, h4⟩ := hh.node t u ht
  rw [backward, backward, Heap.node_eq_ok.2 h2, Heap.node_eq_ok.2 h3, R.bind_ok, R.bind_ok, h4.val]
  refine Follows.same _ fun _ => ?_
  have hist := h4.hist
  have hr := hroot n h2
  generalize ha : n.gradFn = a, hc : m.gradFn = c at hist hr
  cases hist with
  | leaf => exact absurd rfl hr
  | cut => exact absurd rfl hr
  | @both is js k hd =>
    change Follows _ (computeJvp (g.length + 1) g ⟨is, k⟩ [Raw.scalar 1]) (computeJvp (h.length + 1) h ⟨js, k⟩ [Raw.scalar 1])
    have l1 := getElem?_lt h2
    have l2 := getElem?_lt h3
    rw [(computeJvp_fuel hg g.length (g.length + h.length) (d := ⟨is, k⟩) (gs := [Raw.scalar (1 : T)]) (Frame.refl g) fun i hi => by
      have := (hg t _ h2).older _ ha i hi
      omega).1, (computeJvp_fuel hgh h.length (g.length + h.length) (d := ⟨js, k⟩) (gs := [Raw.scalar (1 : T)]) (Frame.refl h) fun i hi => by
      have := (hgh u _ h3).older _ hc i hi
      omega).1]
    exact computeJvp_sim _ hh hd

end arith

end RL
