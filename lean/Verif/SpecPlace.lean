import Verif.Model.Train
import Verif.SpecParam
import Verif.SpecGraph

/-!
# The same program with its tensors at other places (C95, C96)
-/

namespace RL.Spec

open RL

variable {T : Type}

/-- The history, with every tensor `i` replaced by `w i`. -/
def movedDeriv (w : Nat → Nat) (d : Deriv) : Deriv := { inputs := d.inputs.map w, kind := d.kind }

/-- The tensor, with references to `w i` instead of `i`. -/
def movedNode (w : Nat → Nat) (n : Node T) : Node T := { val := n.val, grad := n.grad.map w, gradFn := n.gradFn.map (movedDeriv w) }

/-- The view, of `w i` instead of `i`. -/
def movedView (w : Nat → Nat) : VExpr → VExpr
  | .view t ranges => .view (w t) ranges
  | .reshape v shape => .reshape (movedView w v) shape
  | .slice v ranges => .slice (movedView w v) ranges

/-- The operand, with `w i` instead of `i`. -/
def movedOpnd (w : Nat → Nat) : Opnd → Opnd
  | .tensor t => .tensor (w t)
  | .view v => .view (movedView w v)

/-- The operation, on `w i` instead of `i`. -/
def movedOp (w : Nat → Nat) : Op T → Op T
  | .new array shape => .new array shape
  | .filler shape v => .filler shape v
  | .scalar v => .scalar v
  | .default => .default
  | .add l r => .add (w l) (w r)
  | .sub l r => .sub (w l) (w r)
  | .neg t => .neg (w t)
  | .mul l r => .mul (w l) (w r)
  | .relu t => .relu (w t)
  | .tanh t => .tanh (w t)
  | .abs t => .abs (w t)
  | .sum t => .sum (w t)
  | .bmm l r => .bmm (w l) (w r)
  | .dot l r => .dot (w l) (w r)
  | .viewToTensor v => .viewToTensor (movedView w v)
  | .viewSum v => .viewSum (movedView w v)
  | .bmmView l v => .bmmView (w l) (movedView w v)
  | .viewBmm v r => .viewBmm (movedView w v) (w r)
  | .viewBmmView v v' => .viewBmmView (movedView w v) (movedView w v')
  | .mulView l v => .mulView (w l) (movedView w v)
  | .rawBin k l r => .rawBin k (movedOpnd w l) (movedOpnd w r)
  | .rawSub l r => .rawSub (w l) (w r)
  | .rawUnary f x => .rawUnary f (movedOpnd w x)
  | .leftMul s x => .leftMul s (movedOpnd w x)
  | .rightMul x s => .rightMul (movedOpnd w x) s
  | .rawSum t => .rawSum (w t)
  | .deepClone t => .deepClone (w t)
  | .rawClone t => .rawClone (w t)
  | .updateGrad t g => .updateGrad (w t) (w g)
  | .zeroGrad t => .zeroGrad (w t)
  | .backward t => .backward (w t)

/-- The tensors of `g` are found in `h`, where tensor `i` is `w i`, and no other tensor of `h` differs from `b`. Tensors that will be made
next are mapped to the places they will get. -/
structure Placed (w : Nat → Nat) (b g h : Heap T) : Prop where
  next : ∀ i, g.length ≤ i → w i = h.length + (i - g.length)
  inj : ∀ i j, w i = w j → i = j
  same : ∀ i n, g[i]? = some n → h[w i]? = some (movedNode w n)
  rest : ∀ p, (∀ i, w i ≠ p) → h[p]? = b[p]?

/-- Where the tensors of a program are that has made those at the places `ws` so far: what it makes next comes after the `n` tensors there
are. -/
def placeOf (ws : List Nat) (n i : Nat) : Nat := if i < ws.length then ws.getD i 0 else n + (i - ws.length)

/-- All tensors, and which of them belong to the first and to the second of two programs. -/
structure Mix (T : Type) where
  heap : Heap T
  first : List Nat
  second : List Nat

section
variable [Zero T] [One T] [Add T] [Mul T] [Sub T] [Neg T] [LT T] [DecidableLT T] [LE T] [DecidableLE T] [RealFn T]

/-- The next operation, of the first or of the second program, each of which counts its own tensors only. -/
def Mix.step (s : Mix T) : Op T ⊕ Op T → R (Mix T)
  | .inl o => do
    let h ← (movedOp (placeOf s.first s.heap.length) o).run s.heap
    return { s with heap := h, first := s.first ++ List.range' s.heap.length (h.length - s.heap.length) }
  | .inr o => do
    let h ← (movedOp (placeOf s.second s.heap.length) o).run s.heap
    return { s with heap := h, second := s.second ++ List.range' s.heap.length (h.length - s.heap.length) }

/-- Two programs taking turns in any order. -/
def Mix.run (s : Mix T) (turns : List (Op T ⊕ Op T)) : R (Mix T) := turns.foldlM Mix.step s

end

/-- The tensors of `g` with data, gradients and histories, at the places `ws` in `h`. -/
structure Held (ws : List Nat) (g h : Heap T) : Prop where
  number : ws.length = g.length
  distinct : ws.Nodup
  data : ∀ (i p : Nat), ws[i]? = some p → dataOf h p = dataOf g i
  grad : ∀ (i p : Nat), ws[i]? = some p → gradOf h p = gradOf g i
  history : ∀ (i p : Nat), ws[i]? = some p → historyOf h p = (historyOf g i).map fun d => d.map (movedDeriv fun j => ws.getD j 0)

end RL.Spec
