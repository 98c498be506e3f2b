import Verif.SpecPlace
import Verif.Lemmas.ParamBase
import Verif.Lemmas.Accum

/-!
# The same program with its tensors at other places: lemmas
-/

namespace RL

open Spec

variable {T : Type} {w : Nat → Nat} {b g h : Heap T}

/-- Results of functions that return a tensor. -/
def ResAt (w : Nat → Nat) (b : Heap T) (p q : Heap T × Nat) : Prop := Placed w b p.1 q.1 ∧ w p.2 = q.2

section structural

variable (hh : Placed w b g h)

include hh

theorem Spec.Placed.lt {i : Nat} (hi : i < g.length) : w i < h.length :=
  getElem?_lt (hh.same i _ (List.getElem?_eq_getElem hi))

theorem node_at (t : Nat) : SameOutcome (fun n m => m = movedNode w n) (g.node t) (h.node (w t)) := by
  unfold Heap.node idxR
  rcases Nat.lt_or_ge t g.length with ht | ht
  · rw [hh.same t _ (List.getElem?_eq_getElem ht), List.getElem?_eq_getElem ht]
    exact rfl
  · rw [List.getElem?_eq_none ht, List.getElem?_eq_none (by rw [hh.next t ht]; omega)]
    exact rfl

theorem alloc_at (n : Node T) : ResAt w b (g.alloc n) (h.alloc (movedNode w n)) := by
  have hl : w g.length = h.length := by rw [hh.next _ (le_refl _)]; omega
  refine ⟨⟨fun i hi => ?_, hh.inj, fun i m hm => ?_, fun p hp => ?_⟩, hl⟩
  · simp only [Heap.alloc, List.length_append, List.length_cons, List.length_nil] at hi ⊢
    rw [hh.next i (by omega)]
    omega
  · change (h ++ [movedNode w n])[w i]? = _
    change (g ++ [n])[i]? = some m at hm
    rcases Nat.lt_trichotomy i g.length with hi | hi | hi
    · rw [List.getElem?_append_left hi] at hm
      rw [List.getElem?_append_left (hh.lt hi)]
      exact hh.same i m hm
    · subst hi
      simp at hm
      subst hm
      rw [hl]
      simp
    · rw [List.getElem?_eq_none (by simp; omega)] at hm
      cases hm
  · change (h ++ [movedNode w n])[p]? = _
    rcases Nat.lt_or_ge p h.length with hi | hi
    · rw [List.getElem?_append_left hi]
      exact hh.rest p hp
    · exact absurd (by rw [hh.next _ (by omega : g.length ≤ g.length + (p - h.length))]; omega) (hp (g.length + (p - h.length)))

theorem leaf_at (v : Raw T) : ResAt w b (g.leaf v) (h.leaf v) := alloc_at hh (leafNode v)

theorem set_at {t : Nat} (n : Node T) (ht : t < g.length) : Placed w b (g.set t n) (h.set (w t) (movedNode w n)) := by
  refine ⟨fun i hi => ?_, hh.inj, fun i m hm => ?_, fun p hp => ?_⟩
  · simp only [List.length_set] at hi ⊢
    exact hh.next i hi
  · by_cases e : t = i
    · subst e
      rw [List.getElem?_set_self ht] at hm
      cases hm
      rw [List.getElem?_set_self (hh.lt ht)]
    · rw [List.getElem?_set_ne e] at hm
      rw [List.getElem?_set_ne fun e' => e (hh.inj _ _ e')]
      exact hh.same i m hm
  · rw [List.getElem?_set_ne (hp t)]
    exact hh.rest p hp

theorem deepCloneT_at (t : Nat) : SameOutcome (ResAt w b) (deepCloneT g t) (deepCloneT h (w t)) := by
  rw [deepCloneT, deepCloneT]
  exact (node_at hh t).bind fun n _ h1 => by subst h1; exact alloc_at hh ⟨n.val, none, none⟩

theorem rawCloneT_at (t : Nat) : SameOutcome (ResAt w b) (rawCloneT g t) (rawCloneT h (w t)) := by
  rw [rawCloneT, rawCloneT]
  exact (node_at hh t).bind fun n _ h1 => by subst h1; exact alloc_at hh n

theorem gradT_at (t : Nat) : SameOutcome (fun a c => w a = c) (gradT g t) (gradT h (w t)) := by
  rw [gradT, gradT]
  refine (node_at hh t).bind fun n _ h1 => ?_
  subst h1
  cases e : n.grad with
  | none => simp only [movedNode, e]; exact rfl
  | some a => simp only [movedNode, e]; exact rfl

theorem zeroGrad_at (t : Nat) : SameOutcome (Placed w b) (zeroGrad g t) (zeroGrad h (w t)) := by
  rw [zeroGrad, zeroGrad]
  have := node_at hh t
  cases e : g.node t with
  | error x =>
    rw [e] at this
    cases e' : h.node (w t) with
    | error y => rw [e'] at this; exact this
    | ok y => rw [e'] at this; exact this.elim
  | ok n =>
    rw [e] at this
    cases e' : h.node (w t) with
    | error y => rw [e'] at this; exact this.elim
    | ok m =>
      rw [e'] at this
      cases this
      exact set_at hh ⟨n.val, none, n.gradFn⟩ (getElem?_lt (Heap.node_eq_ok.1 e))

theorem VExpr.eval_at (v : VExpr) : v.eval g = (movedView w v).eval h := by
  induction v with
  | view t ranges =>
    rw [movedView, VExpr.eval, VExpr.eval]
    have := node_at hh t
    cases e : g.node t <;> cases e' : h.node (w t) <;> rw [e, e'] at this
    · cases this; rfl
    · exact this.elim
    · exact this.elim
    · cases this; rfl
  | reshape v shape ih => rw [movedView, VExpr.eval, VExpr.eval, ih]
  | slice v ranges ih => rw [movedView, VExpr.eval, VExpr.eval, ih]

theorem Opnd.eval_at (x : Opnd) : x.eval g = (movedOpnd w x).eval h := by
  cases x with
  | tensor t =>
    rw [movedOpnd, Opnd.eval, Opnd.eval]
    have := node_at hh t
    cases e : g.node t <;> cases e' : h.node (w t) <;> rw [e, e'] at this
    · cases this; rfl
    · exact this.elim
    · exact this.elim
    · cases this; rfl
  | view v => rw [movedOpnd, Opnd.eval, Opnd.eval, VExpr.eval_at hh v]

/-- an operation on one tensor with a history -/
theorem unary_at (k : JvpKind) (f : Raw T → R (Raw T)) (t : Nat) :
    SameOutcome (ResAt w b) (do
      let n ← g.node t
      let val ← f n.val
      return g.alloc { val, grad := none, gradFn := some { inputs := [t], kind := k } }) (do
      let n ← h.node (w t)
      let val ← f n.val
      return h.alloc { val, grad := none, gradFn := some { inputs := [w t], kind := k } }) :=
  (node_at hh t).bind fun n _ h1 => by
    subst h1
    exact SameOutcome.same _ fun v => alloc_at hh ⟨v, none, some ⟨[t], k⟩⟩

/-- an operation on two tensors with a history -/
theorem binary_at (k : JvpKind) (f : Raw T → Raw T → R (Raw T)) (l r : Nat) :
    SameOutcome (ResAt w b) (do
      let ln ← g.node l
      let rn ← g.node r
      let val ← f ln.val rn.val
      return g.alloc { val, grad := none, gradFn := some { inputs := [l, r], kind := k } }) (do
      let ln ← h.node (w l)
      let rn ← h.node (w r)
      let val ← f ln.val rn.val
      return h.alloc { val, grad := none, gradFn := some { inputs := [w l, w r], kind := k } }) :=
  (node_at hh l).bind fun n _ h1 => (node_at hh r).bind fun m _ h2 => by
    subst h1 h2
    exact SameOutcome.same _ fun v => alloc_at hh ⟨v, none, some ⟨[l, r], k⟩⟩

/-- an operation on two tensors without history -/
theorem binary_leaf_at (f : Raw T → Raw T → R (Raw T)) (l r : Nat) :
    SameOutcome (ResAt w b) (do
      let ln ← g.node l
      let rn ← g.node r
      let val ← f ln.val rn.val
      return g.leaf val) (do
      let ln ← h.node (w l)
      let rn ← h.node (w r)
      let val ← f ln.val rn.val
      return h.leaf val) :=
  (node_at hh l).bind fun n _ h1 => (node_at hh r).bind fun m _ h2 => by
    subst h1 h2
    exact SameOutcome.same _ fun v => leaf_at hh v

theorem rawUnaryT_at (f : T → T) (x : Opnd) : SameOutcome (ResAt w b) (rawUnaryT g f x) (rawUnaryT h f (movedOpnd w x)) := by
  rw [rawUnaryT, rawUnaryT, Opnd.eval_at hh x]
  exact SameOutcome.same _ fun _ => SameOutcome.same _ fun v => leaf_at hh v

theorem viewToTensorT_at (v : VExpr) : SameOutcome (ResAt w b) (viewToTensorT g v) (viewToTensorT h (movedView w v)) := by
  rw [viewToTensorT, viewToTensorT, VExpr.eval_at hh v]
  exact SameOutcome.same _ fun _ => SameOutcome.same _ fun v => leaf_at hh v

theorem rawSumT_at [Zero T] [One T] [Add T] (t : Nat) : SameOutcome (ResAt w b) (rawSumT g t) (rawSumT h (w t)) := by
  rw [rawSumT, rawSumT]
  refine (node_at hh t).bind fun n _ h1 => ?_
  subst h1
  refine SameOutcome.same _ fun v => ?_
  obtain ⟨h3, h4⟩ := leaf_at hh (Raw.newWithFiller n.val.shape 1)
  have := alloc_at h3 ⟨v, some (g.leaf (Raw.newWithFiller n.val.shape 1)).2, none⟩
  simp only [movedNode, Option.map, h4] at this
  exact this

theorem sumT_at [Zero T] [One T] [Add T] (t : Nat) : SameOutcome (ResAt w b) (sumT g t) (sumT h (w t)) := by
  rw [sumT, sumT]
  refine (node_at hh t).bind fun n _ h1 => ?_
  subst h1
  refine SameOutcome.same _ fun v => ?_
  obtain ⟨h3, h4⟩ := leaf_at hh (Raw.newWithFiller n.val.shape 1)
  have := alloc_at h3 ⟨v, some (g.leaf (Raw.newWithFiller n.val.shape 1)).2, some ⟨[t], .sum⟩⟩
  simp only [movedNode, Option.map, h4] at this
  exact this

end structural

section arith

variable [Zero T] [Add T] [Mul T] [Neg T] (hh : Placed w b g h)

include hh

theorem addT_at (l r : Nat) : SameOutcome (ResAt w b) (addT g l r) (addT h (w l) (w r)) :=
  binary_at hh .add (fun a c => addRaw (.raw a) (.raw c)) l r

theorem negT_at (t : Nat) : SameOutcome (ResAt w b) (negT g t) (negT h (w t)) := unary_at hh .neg (fun a => negRaw (.raw a)) t

theorem subT_at (l r : Nat) : SameOutcome (ResAt w b) (subT g l r) (subT h (w l) (w r)) := by
  rw [subT, subT]
  refine (negT_at hh r).bind ?_
  rintro ⟨g, n⟩ ⟨g', n'⟩ ⟨h1, h2⟩
  cases h2
  exact addT_at h1 l n

theorem bmmT_at (l r : Nat) : SameOutcome (ResAt w b) (bmmT g l r) (bmmT h (w l) (w r)) :=
  binary_at hh .bmm (fun a c => bmmRaw (.raw a) (.raw c)) l r

theorem dotT_at (l r : Nat) : SameOutcome (ResAt w b) (dotT g l r) (dotT h (w l) (w r)) :=
  binary_at hh .dot (fun a c => dotRaw (.raw a) (.raw c)) l r

theorem mulT_at (l r : Nat) : SameOutcome (ResAt w b) (mulT g l r) (mulT h (w l) (w r)) :=
  binary_leaf_at hh (fun a c => mulRaw a (.raw c)) l r

theorem rawSubT_at (l r : Nat) : SameOutcome (ResAt w b) (rawSubT g l r) (rawSubT h (w l) (w r)) :=
  binary_leaf_at hh (fun a c => subRaw (.raw a) (.raw c)) l r

theorem leftMulT_at (s : T) (x : Opnd) : SameOutcome (ResAt w b) (leftMulT g s x) (leftMulT h s (movedOpnd w x)) := by
  rw [leftMulT, leftMulT, Opnd.eval_at hh x]
  exact SameOutcome.same _ fun x => leaf_at hh _

theorem rightMulT_at (x : Opnd) (s : T) : SameOutcome (ResAt w b) (rightMulT g x s) (rightMulT h (movedOpnd w x) s) := by
  rw [rightMulT, rightMulT, Opnd.eval_at hh x]
  exact SameOutcome.same _ fun x => leaf_at hh _

theorem rawBinT_at (k : RawBin) (l r : Opnd) : SameOutcome (ResAt w b) (rawBinT g k l r) (rawBinT h k (movedOpnd w l) (movedOpnd w r)) := by
  rw [rawBinT, rawBinT, Opnd.eval_at hh l, Opnd.eval_at hh r]
  exact SameOutcome.same _ fun _ => SameOutcome.same _ fun _ => SameOutcome.same _ fun v => leaf_at hh v

theorem viewSumT_at (v : VExpr) : SameOutcome (ResAt w b) (viewSumT g v) (viewSumT h (movedView w v)) := by
  rw [viewSumT, viewSumT, VExpr.eval_at hh v]
  exact SameOutcome.same _ fun _ => SameOutcome.same _ fun v => leaf_at hh v

theorem bmmViewT_at (l : Nat) (v : VExpr) : SameOutcome (ResAt w b) (bmmViewT g l v) (bmmViewT h (w l) (movedView w v)) := by
  rw [bmmViewT, bmmViewT, VExpr.eval_at hh v]
  refine (node_at hh l).bind fun n _ h1 => ?_
  subst h1
  refine SameOutcome.same _ fun v => SameOutcome.same _ fun val => SameOutcome.same _ fun rv => ?_
  obtain ⟨h3, h4⟩ := leaf_at hh rv
  have := alloc_at h3 ⟨val, none, some ⟨[l, (g.leaf rv).2], .bmm⟩⟩
  simp only [movedNode, movedDeriv, Option.map, List.map_cons, List.map_nil, h4] at this
  exact this

theorem viewBmmT_at (v : VExpr) (r : Nat) : SameOutcome (ResAt w b) (viewBmmT g v r) (viewBmmT h (movedView w v) (w r)) := by
  rw [viewBmmT, viewBmmT, VExpr.eval_at hh v]
  refine SameOutcome.same _ fun v => (node_at hh r).bind fun n _ h1 => ?_
  subst h1
  exact SameOutcome.same _ fun v => leaf_at hh v

theorem viewBmmViewT_at (v v' : VExpr) :
    SameOutcome (ResAt w b) (viewBmmViewT g v v') (viewBmmViewT h (movedView w v) (movedView w v')) := by
  rw [viewBmmViewT, viewBmmViewT, VExpr.eval_at hh v, VExpr.eval_at hh v']
  exact SameOutcome.same _ fun _ => SameOutcome.same _ fun _ => SameOutcome.same _ fun v => leaf_at hh v

theorem mulViewT_at (l : Nat) (v : VExpr) : SameOutcome (ResAt w b) (mulViewT g l v) (mulViewT h (w l) (movedView w v)) := by
  rw [mulViewT, mulViewT, VExpr.eval_at hh v]
  refine (node_at hh l).bind fun n _ h1 => ?_
  subst h1
  exact SameOutcome.same _ fun _ => SameOutcome.same _ fun v => leaf_at hh v

theorem updateGrad_at (t c : Nat) : SameOutcome (Placed w b) (updateGrad g t c) (updateGrad h (w t) (w c)) := by
  rw [updateGrad, updateGrad]
  have := node_at hh t
  cases e : g.node t with
  | error x =>
    rw [e] at this
    cases e' : h.node (w t) with
    | error y => rw [e'] at this; exact this
    | ok y => rw [e'] at this; exact this.elim
  | ok n =>
    rw [e] at this
    cases e' : h.node (w t) with
    | error y => rw [e'] at this; exact this.elim
    | ok m =>
      rw [e'] at this
      cases this
      have ht : t < g.length := getElem?_lt (Heap.node_eq_ok.1 e)
      simp only [R.bind_ok]
      obtain ⟨nv, ng, nf⟩ := n
      cases ng with
      | none => exact set_at hh ⟨nv, some c, nf⟩ ht
      | some o =>
        have h1 := addT_at hh o c
        simp only [movedNode, Option.map]
        cases e1 : addT g o c <;> cases e2 : addT h (w o) (w c) <;> rw [e1, e2] at h1
        · exact h1
        · exact h1.elim
        · exact h1.elim
        · next p q =>
          obtain ⟨g1, a⟩ := p
          obtain ⟨h1', a'⟩ := q
          obtain ⟨h2, h3⟩ := h1
          cases h3
          have hl : g.length ≤ g1.length := by
            simp only [addT, R.bind_eq_ok, R.pure_eq_ok, Heap.alloc] at e1
            obtain ⟨_, _, _, _, _, _, e1⟩ := e1
            cases e1
            simp
          exact set_at h2 ⟨nv, some a, nf⟩ (Nat.lt_of_lt_of_le ht hl)

end arith

section backward

variable [Zero T] [One T] [Add T] [Mul T] [Sub T] [Neg T] [LT T] [DecidableLT T] [LE T] [DecidableLE T] [RealFn T]

theorem computeJvp_at (n : Nat) {g h : Heap T} (hh : Placed w b g h) (d : Deriv) (gs : List (Raw T)) :
    SameOutcome (Placed w b) (computeJvp n g d gs) (computeJvp n h (movedDeriv w d) gs) := by
  induction n generalizing g h d gs with
  | zero => exact rfl
  | succ n ih =>
    rw [computeJvp, computeJvp]
    refine SameOutcome.bind (P := fun a c => a = c) ?_ fun ins _ hi => ?_
    · have : SameOutcome (List.Forall₂ fun a c => a = c) (d.inputs.mapM fun i => do return (← g.node i).val)
          ((movedDeriv w d).inputs.mapM fun i => do return (← h.node i).val) := by
        refine SameOutcome.mapM (P := fun i j => w i = j) ?_ fun i _ e => ?_
        · change List.Forall₂ _ d.inputs (d.inputs.map w)
          generalize d.inputs = l
          induction l with
          | nil => exact .nil
          | cons a l ih => exact .cons rfl ih
        · cases e
          exact (node_at hh i).bind fun _ _ h1 => by subst h1; exact rfl
      refine this.mono fun x y hxy => ?_
      induction hxy with
      | nil => rfl
      | cons h1 _ ih => rw [h1, ih]
    · cases hi
      refine SameOutcome.same _ fun sg => ?_
      refine SameOutcome.foldlM (P := fun p q => p.1 = q.1 ∧ w p.2 = q.2) ?_ ?_ hh
      · change List.Forall₂ _ (sg.zip d.inputs) (sg.zip (d.inputs.map w))
        generalize d.inputs = l
        induction sg generalizing l with
        | nil => exact .nil
        | cons a sg ih1 =>
          cases l with
          | nil => exact .nil
          | cons x l => exact .cons ⟨rfl, rfl⟩ (ih1 l)
      · rintro g h ⟨grad, i⟩ ⟨_, _⟩ hgh ⟨rfl, rfl⟩
        refine (node_at hgh i).bind fun m _ hm => ?_
        subst hm
        refine SameOutcome.same _ fun _ => SameOutcome.same _ fun s => ?_
        obtain ⟨h3, h4⟩ := leaf_at hgh s
        have := updateGrad_at h3 i (g.leaf s).2
        rw [h4] at this
        refine this.bind fun k k' hk => ?_
        obtain ⟨mv, mg, mf⟩ := m
        cases mf with
        | none => exact hk
        | some d' => exact ih hk d' _

theorem Spec.Placed.length_le {g h : Heap T} (hh : Placed w b g h) : g.length ≤ h.length := by
  have := Finset.card_le_card_of_injOn (s := Finset.range g.length) (t := Finset.range h.length) w
    (fun i hi => by simpa using hh.lt (by simpa using hi)) (fun i _ j _ e => hh.inj i j e)
  simpa using this

theorem backward_at {g h : Heap T} (hh : Placed w b g h) (hg : g.Good) (t : Nat) : SameOutcome (Placed w b) (backward g t) (backward h (w t)) := by
  rw [backward, backward]
  have := node_at hh t
  cases e : g.node t with
  | error x =>
    rw [e] at this
    cases e' : h.node (w t) with
    | error y => rw [e'] at this; exact this
    | ok y => rw [e'] at this; exact this.elim
  | ok n =>
    rw [e] at this
    cases e' : h.node (w t) with
    | error y => rw [e'] at this; exact this.elim
    | ok m =>
      rw [e'] at this
      cases this
      simp only [R.bind_ok]
      refine SameOutcome.same _ fun _ => ?_
      have hn := Heap.node_eq_ok.1 e
      obtain ⟨nv, ng, nf⟩ := n
      cases nf with
      | none => exact rfl
      | some d =>
        have hle := hh.length_le
        have ht := getElem?_lt hn
        have hfuel := (computeJvp_fuel hg g.length h.length (d := d) (gs := [Raw.scalar (1 : T)]) (Frame.refl g) fun i hi => by
          have := (hg t _ hn).older d rfl i hi
          omega).1
        change SameOutcome _ (computeJvp (g.length + 1) g d [Raw.scalar 1]) (computeJvp (h.length + 1) h (movedDeriv w d) [Raw.scalar 1])
        rw [hfuel]
        exact computeJvp_at _ hh d _

theorem Op.run_at {g h : Heap T} (hh : Placed w b g h) (hg : g.Good) (o : Op T) : SameOutcome (Placed w b) (o.run g) ((movedOp w o).run h) := by
  have fst : ∀ {x y : R (Heap T × Nat)}, SameOutcome (ResAt w b) x y →
      SameOutcome (Placed w b) (do return (← x).1) (do return (← y).1) := fun h => h.bind fun _ _ h1 => h1.1
  cases o with
  | new array shape => exact SameOutcome.same _ fun v => (leaf_at hh v).1
  | filler shape v => exact (leaf_at hh _).1
  | scalar v => exact (leaf_at hh _).1
  | default => exact (leaf_at hh _).1
  | add l r => exact fst (addT_at hh l r)
  | sub l r => exact fst (subT_at hh l r)
  | neg t => exact fst (negT_at hh t)
  | mul l r => exact fst (mulT_at hh l r)
  | relu t => exact fst (unary_at hh .relu (fun a => reluRaw (.raw a)) t)
  | tanh t => exact fst (unary_at hh .tanh (fun a => tanhRaw (.raw a)) t)
  | abs t => exact fst (unary_at hh .abs (fun a => absRaw (.raw a)) t)
  | sum t => exact fst (sumT_at hh t)
  | bmm l r => exact fst (bmmT_at hh l r)
  | dot l r => exact fst (dotT_at hh l r)
  | viewToTensor v => exact fst (viewToTensorT_at hh v)
  | viewSum v => exact fst (viewSumT_at hh v)
  | bmmView l v => exact fst (bmmViewT_at hh l v)
  | viewBmm v r => exact fst (viewBmmT_at hh v r)
  | viewBmmView v v' => exact fst (viewBmmViewT_at hh v v')
  | mulView l v => exact fst (mulViewT_at hh l v)
  | rawBin k l r => exact fst (rawBinT_at hh k l r)
  | rawSub l r => exact fst (rawSubT_at hh l r)
  | rawUnary f x => exact fst (rawUnaryT_at hh f x)
  | leftMul s x => exact fst (leftMulT_at hh s x)
  | rightMul x s => exact fst (rightMulT_at hh x s)
  | rawSum t => exact fst (rawSumT_at hh t)
  | deepClone t => exact fst (deepCloneT_at hh t)
  | rawClone t => exact fst (rawCloneT_at hh t)
  | updateGrad t c => exact (node_at hh c).bind fun _ _ _ => updateGrad_at hh t c
  | zeroGrad t => exact zeroGrad_at hh t
  | backward t => exact backward_at hh hg t

theorem runOps_at {g h : Heap T} (hh : Placed w b g h) (hg : g.Good) (ops : List (Op T)) :
    SameOutcome (Placed w b) (runOps g ops) (runOps h (ops.map (movedOp w))) := by
  induction ops generalizing g h with
  | nil => exact hh
  | cons o ops ih =>
    have h1 := Op.run_at hh hg o
    rw [List.map_cons, runOps, runOps, List.foldlM_cons, List.foldlM_cons]
    cases e1 : o.run g <;> cases e2 : (movedOp w o).run h <;> rw [e1, e2] at h1
    · exact h1
    · exact h1.elim
    · exact h1.elim
    · exact ih h1 (Op.run_frame hg e1).2

end backward

/-! ### two programs taking turns -/

section mix

theorem movedDeriv_congr {w w' : Nat → Nat} {d : Deriv} (hw : ∀ i ∈ d.inputs, w i = w' i) : movedDeriv w d = movedDeriv w' d := by
  simp only [movedDeriv, Deriv.mk.injEq, and_true]
  exact List.map_congr_left hw

variable [Zero T] [One T] [Add T] [Mul T] [Sub T] [Neg T] [LT T] [DecidableLT T] [LE T] [DecidableLE T] [RealFn T]

theorem movedNode_congr {g : Heap T} (hg : g.Good) {w w' : Nat → Nat} (hw : ∀ i < g.length, w i = w' i) {i : Nat} {n : Node T}
    (hn : g[i]? = some n) : movedNode w n = movedNode w' n := by
  have hok := hg i n hn
  have hi := getElem?_lt hn
  obtain ⟨v, gr, gf⟩ := n
  simp only [movedNode, Node.mk.injEq, true_and]
  refine ⟨?_, ?_⟩
  · cases gr with
    | none => rfl
    | some c => exact congrArg some (hw c (hok.grad c rfl))
  · cases gf with
    | none => rfl
    | some d => exact congrArg some (movedDeriv_congr fun j hj => hw j ((hok.older d rfl j hj).trans hi))

/-- The tensors of `g` are at the places `ws` of `h`. -/
structure At (ws : List Nat) (g h : Heap T) : Prop where
  len : ws.length = g.length
  placed : Placed (placeOf ws h.length) h g h
  good : g.Good

theorem placeOf_lt {ws : List Nat} {n i : Nat} (hi : i < ws.length) : placeOf ws n i = ws[i] := by
  rw [placeOf, if_pos hi, List.getD_eq_getElem?_getD, List.getElem?_eq_getElem hi]
  rfl

theorem placeOf_ge {ws : List Nat} {n i : Nat} (hi : ws.length ≤ i) : placeOf ws n i = n + (i - ws.length) := by
  rw [placeOf, if_neg (by omega)]

theorem placeOf_append {ws : List Nat} {n k : Nat} : placeOf (ws ++ List.range' n k) (n + k) = placeOf ws n := by
  funext i
  rcases Nat.lt_or_ge i ws.length with hi | hi
  · rw [placeOf_lt hi, placeOf_lt (by simp; omega), List.getElem_append_left hi]
  · rw [placeOf_ge hi]
    rcases Nat.lt_or_ge i (ws.length + k) with hk | hk
    · rw [placeOf_lt (by simpa using hk), List.getElem_append_right hi]
      simp
    · rw [placeOf_ge (by simpa using hk)]
      simp only [List.length_append, List.length_range']
      omega

theorem At.lt {ws : List Nat} {g h : Heap T} (ha : At ws g h) {p : Nat} (hp : p ∈ ws) : p < h.length := by
  obtain ⟨i, hi, rfl⟩ := List.mem_iff_getElem.1 hp
  have := ha.placed.lt (i := i) (by rw [← ha.len]; exact hi)
  rwa [placeOf_lt hi] at this

/-- The program that runs. -/
theorem At.run {ws : List Nat} {g h h' : Heap T} (ha : At ws g h) {o : Op T} (e : (movedOp (placeOf ws h.length) o).run h = .ok h') :
    ∃ g', o.run g = .ok g' ∧ h.length ≤ h'.length ∧ At (ws ++ List.range' h.length (h'.length - h.length)) g' h' ∧
      ∀ p < h.length, p ∉ ws → h'[p]? = h[p]? := by
  have h1 := Op.run_at ha.placed ha.good o
  rw [e] at h1
  cases e1 : o.run g with
  | error x => rw [e1] at h1; exact h1.elim
  | ok g' =>
    rw [e1] at h1
    have hp : Placed (placeOf ws h.length) h g' h' := h1
    obtain ⟨hf, hgood⟩ := Op.run_frame ha.good e1
    have h2 := hp.next g'.length (le_refl _)
    rw [placeOf_ge (by rw [ha.len]; exact hf.len), ha.len] at h2
    have h3 := hf.len
    refine ⟨g', rfl, by omega, ⟨?_, ?_, hgood⟩, fun p hp1 hp2 => hp.rest p fun i hi => ?_⟩
    · simp only [List.length_append, List.length_range', ha.len]
      omega
    · have : placeOf (ws ++ List.range' h.length (h'.length - h.length)) h'.length = placeOf ws h.length := by
        have := placeOf_append (ws := ws) (n := h.length) (k := h'.length - h.length)
        rwa [show h.length + (h'.length - h.length) = h'.length by omega] at this
      rw [this]
      exact ⟨hp.next, hp.inj, hp.same, fun _ _ => rfl⟩
    · rcases Nat.lt_or_ge i ws.length with h5 | h5
      · rw [placeOf_lt h5] at hi
        exact hp2 (hi ▸ List.getElem_mem h5)
      · rw [placeOf_ge h5] at hi
        omega

/-- The program that waits. -/
theorem At.wait {ws : List Nat} {g h h' : Heap T} (ha : At ws g h) (hl : h.length ≤ h'.length)
    (hs : ∀ p ∈ ws, h'[p]? = h[p]?) : At ws g h' := by
  have hw : ∀ i < g.length, placeOf ws h.length i = placeOf ws h'.length i := fun i hi => by
    rw [placeOf_lt (by rw [ha.len]; exact hi), placeOf_lt (by rw [ha.len]; exact hi)]
  refine ⟨ha.len, ⟨fun i hi => ?_, fun i j e => ?_, fun i n hn => ?_, fun _ _ => rfl⟩, ha.good⟩
  · rw [placeOf_ge (by rw [ha.len]; exact hi), ha.len]
  · have hi : ∀ i j, placeOf ws h'.length i = placeOf ws h'.length j → i < g.length → i = j := fun i j e hi => by
      rcases Nat.lt_or_ge j g.length with hj | hj
      · rw [← hw i hi, ← hw j hj] at e
        exact ha.placed.inj _ _ e
      · rw [← hw i hi, placeOf_ge (i := j) (by rw [ha.len]; exact hj)] at e
        have := ha.placed.lt hi
        omega
    rcases Nat.lt_or_ge i g.length with h1 | h1
    · exact hi i j e h1
    · rcases Nat.lt_or_ge j g.length with h2 | h2
      · exact (hi j i e.symm h2).symm
      · rw [placeOf_ge (by rw [ha.len]; exact h1), placeOf_ge (by rw [ha.len]; exact h2), ha.len] at e
        omega
  · have hi := getElem?_lt hn
    have h1 := ha.placed.same i n hn
    rw [← hw i hi, ← movedNode_congr ha.good hw hn, hs _ _, h1]
    rw [placeOf_lt (by rw [ha.len]; exact hi)]
    exact List.getElem_mem _

theorem At.fails {ws : List Nat} {g h : Heap T} (ha : At ws g h) {o : Op T} {x : Fail}
    (e : (movedOp (placeOf ws h.length) o).run h = .error x) : o.run g = .error x := by
  have h1 := Op.run_at ha.placed ha.good o
  rw [e] at h1
  cases e1 : o.run g with
  | error y =>
    rw [e1] at h1
    exact congrArg Except.error h1
  | ok g' => rw [e1] at h1; exact h1.elim

theorem At.held {ws : List Nat} {g h : Heap T} (ha : At ws g h) : Held ws g h := by
  have key : ∀ {i p : Nat}, ws[i]? = some p → ∃ n, g[i]? = some n ∧ h[p]? = some (movedNode (placeOf ws h.length) n) := fun {i p} e => by
    obtain ⟨hi, rfl⟩ := List.getElem?_eq_some_iff.1 e
    have hi' : i < g.length := by rw [← ha.len]; exact hi
    have := ha.placed.same i _ (List.getElem?_eq_getElem hi')
    rw [placeOf_lt hi] at this
    exact ⟨_, List.getElem?_eq_getElem hi', this⟩
  refine ⟨ha.len, ?_, fun i p e => ?_, fun i p e => ?_, fun i p e => ?_⟩
  · rw [List.nodup_iff_injective_get]
    intro i j e
    refine Fin.ext (ha.placed.inj _ _ ?_)
    rw [placeOf_lt i.2, placeOf_lt j.2]
    exact e
  · obtain ⟨n, h1, h2⟩ := key e
    simp [dataOf, h1, h2, movedNode]
  · obtain ⟨n, h1, h2⟩ := key e
    simp only [gradOf, h1, h2, Option.bind_some, movedNode]
    have hok := ha.good i n h1
    cases hg : n.grad with
    | none => rfl
    | some c =>
      have hc := hok.grad c hg
      obtain ⟨n', h3, h4⟩ := key (List.getElem?_eq_getElem (show c < ws.length by rw [ha.len]; exact hc))
      simp only [Option.map_some, Option.bind_some]
      rw [placeOf_lt (by rw [ha.len]; exact hc), h3, h4]
      rfl
  · obtain ⟨n, h1, h2⟩ := key e
    have hok := ha.good i n h1
    have hi := getElem?_lt h1
    simp only [historyOf, h1, h2, Option.map_some, movedNode, Option.some.injEq]
    cases hd : n.gradFn with
    | none => rfl
    | some d =>
      refine congrArg some (movedDeriv_congr fun j hj => ?_)
      rw [placeOf, if_pos (by rw [ha.len]; exact (hok.older d hd j hj).trans hi)]

/-- Two programs, alone and taking turns. -/
structure Both (h0 : Heap T) (s : Mix T) (a c : Heap T) : Prop where
  first : At s.first a s.heap
  second : At s.second c s.heap
  disjoint : ∀ p ∈ s.first, p ∉ s.second
  above : ∀ p, p ∈ s.first ∨ p ∈ s.second → h0.length ≤ p
  len : h0.length ≤ s.heap.length
  keeps : ∀ p < h0.length, s.heap[p]? = h0[p]?
  all : ∀ p, h0.length ≤ p → p < s.heap.length → p ∈ s.first ∨ p ∈ s.second

theorem At.start (h : Heap T) : At [] [] h :=
  ⟨rfl, ⟨fun i _ => by rw [placeOf_ge (Nat.zero_le _)]; rfl,
    fun i j e => by rw [placeOf_ge (Nat.zero_le _), placeOf_ge (Nat.zero_le _)] at e; simpa using e,
    fun i n hn => by simp at hn, fun _ _ => rfl⟩, Heap.good_nil⟩

theorem Both.start (h : Heap T) : Both h ⟨h, [], []⟩ [] [] :=
  ⟨At.start h, At.start h, by simp, by simp, le_refl _, fun _ _ => rfl, fun p h1 h2 => absurd h1 (Nat.not_le.2 h2)⟩

theorem Both.left {h0 : Heap T} {s s' : Mix T} {a c : Heap T} (hb : Both h0 s a c) {o : Op T} (e : s.step (.inl o) = .ok s') :
    ∃ a', o.run a = .ok a' ∧ Both h0 s' a' c := by
  simp only [Mix.step, R.bind_eq_ok, R.pure_eq_ok] at e
  obtain ⟨h', e1, rfl⟩ := e
  obtain ⟨a', h1, h2, h3, h4⟩ := hb.first.run e1
  have hd : ∀ p ∈ s.second, p ∉ s.first := fun p hp hq => hb.disjoint p hq hp
  refine ⟨a', h1, h3, hb.second.wait h2 fun p hp => h4 p (hb.second.lt hp) (hd p hp), fun p hp hq => ?_, fun p hp => ?_,
    hb.len.trans h2, fun p hp => ?_, fun p hp hq => ?_⟩
  · rcases List.mem_append.1 hp with hp | hp
    · exact hb.disjoint p hp hq
    · have := hb.second.lt hq
      have := (List.mem_range'_1.1 hp).1
      omega
  · rcases hp with hp | hp
    · rcases List.mem_append.1 hp with hp | hp
      · exact hb.above p (.inl hp)
      · exact hb.len.trans (List.mem_range'_1.1 hp).1
    · exact hb.above p (.inr hp)
  · rw [h4 p (hp.trans_le hb.len) fun hm => Nat.not_lt.2 (hb.above p (.inl hm)) hp]
    exact hb.keeps p hp
  · rcases Nat.lt_or_ge p s.heap.length with hl | hl
    · exact (hb.all p hp hl).imp (fun hm => List.mem_append_left _ hm) id
    · exact .inl (List.mem_append_right _ (List.mem_range'_1.2 ⟨hl, by simp only at hq; omega⟩))

/-- The two programs change places. -/
def Mix.swap (s : Mix T) : Mix T := ⟨s.heap, s.second, s.first⟩

theorem Both.swap {h0 : Heap T} {s : Mix T} {a c : Heap T} (hb : Both h0 s a c) : Both h0 (Mix.swap s) c a :=
  ⟨hb.second, hb.first, fun p hp hq => hb.disjoint p hq hp, fun p hp => hb.above p hp.symm, hb.len, hb.keeps,
    fun p h1 h2 => (hb.all p h1 h2).symm⟩

theorem Mix.step_swap (s : Mix T) (o : Op T) : (Mix.swap s).step (.inl o) = (do return Mix.swap (← s.step (.inr o))) := by
  simp only [Mix.step, Mix.swap]
  cases (movedOp (placeOf s.second s.heap.length) o).run s.heap <;> rfl

theorem Both.right {h0 : Heap T} {s s' : Mix T} {a c : Heap T} (hb : Both h0 s a c) {o : Op T} (e : s.step (.inr o) = .ok s') :
    ∃ c', o.run c = .ok c' ∧ Both h0 s' a c' := by
  have h1 := Mix.step_swap s o
  rw [e] at h1
  obtain ⟨c', h2, h3⟩ := hb.swap.left h1
  exact ⟨c', h2, h3.swap⟩

theorem Both.left_fails {h0 : Heap T} {s : Mix T} {a c : Heap T} (hb : Both h0 s a c) {o : Op T} {x : Fail}
    (e : s.step (.inl o) = .error x) : o.run a = .error x := by
  refine hb.first.fails ?_
  simp only [Mix.step] at e
  cases e1 : (movedOp (placeOf s.first s.heap.length) o).run s.heap with
  | error y => rw [e1] at e; cases e; rfl
  | ok y => rw [e1] at e; cases e

theorem Both.right_fails {h0 : Heap T} {s : Mix T} {a c : Heap T} (hb : Both h0 s a c) {o : Op T} {x : Fail}
    (e : s.step (.inr o) = .error x) : o.run c = .error x :=
  hb.swap.left_fails (by rw [Mix.step_swap, e]; rfl)

theorem runOps_cons_ok {a a' : Heap T} {o : Op T} {ops : List (Op T)} (e : o.run a = .ok a') : runOps a (o :: ops) = runOps a' ops := by
  rw [runOps, List.foldlM_cons, e]
  rfl

theorem runOps_cons_error {a : Heap T} {o : Op T} {ops : List (Op T)} {x : Fail} (e : o.run a = .error x) :
    runOps a (o :: ops) = .error x := by
  rw [runOps, List.foldlM_cons, e]
  rfl

theorem Both.runs {h0 : Heap T} {s : Mix T} {a c : Heap T} (hb : Both h0 s a c) (turns : List (Op T ⊕ Op T)) :
    (∀ s', s.run turns = .ok s' → ∃ a' c', runOps a (turns.filterMap Sum.getLeft?) = .ok a' ∧
      runOps c (turns.filterMap Sum.getRight?) = .ok c' ∧ Both h0 s' a' c') ∧
    ∀ x, s.run turns = .error x → runOps a (turns.filterMap Sum.getLeft?) = .error x ∨
      runOps c (turns.filterMap Sum.getRight?) = .error x := by
  induction turns generalizing s a c with
  | nil =>
    refine ⟨fun s' e => ?_, fun x e => ?_⟩
    · cases e
      exact ⟨a, c, rfl, rfl, hb⟩
    · cases e
  | cons o turns ih =>
    rw [Mix.run, List.foldlM_cons]
    cases e : s.step o with
    | error x =>
      refine ⟨(fun s' e' => nomatch e'), fun y e' => ?_⟩
      cases e'
      cases o with
      | inl o => exact .inl (runOps_cons_error (hb.left_fails e))
      | inr o => exact .inr (runOps_cons_error (hb.right_fails e))
    | ok s1 =>
      cases o with
      | inl o =>
        obtain ⟨a', h1, h2⟩ := hb.left e
        obtain ⟨h3, h4⟩ := ih h2
        have hl : runOps a ((.inl o :: turns).filterMap Sum.getLeft?) = runOps a' (turns.filterMap Sum.getLeft?) := runOps_cons_ok h1
        rw [hl]
        exact ⟨h3, h4⟩
      | inr o =>
        obtain ⟨c', h1, h2⟩ := hb.right e
        obtain ⟨h3, h4⟩ := ih h2
        have hl : runOps c ((.inr o :: turns).filterMap Sum.getRight?) = runOps c' (turns.filterMap Sum.getRight?) := runOps_cons_ok h1
        rw [hl]
        exact ⟨h3, h4⟩

end mix

end RL
