import Verif.Model.Jvp

/-!
# Model of the autograd graph

`/repo/src/tensor/rc_tensor.rs`, `/repo/src/tensor/raw_tensor.rs` (`grad`, `update_grad`, `zero_grad`, `sum`)
and `/repo/src/tensor/autograd/jvp.rs` (`Derivative`).

An `RcTensor` is an `Arc<RawTensor>`; it is modelled by the id of a node in a heap (a list of nodes; ids are
positions, nodes are never freed, so a live `RcTensor` is always a valid id). Cloning an `RcTensor` copies the id.
A gradient is itself an `RcTensor`, hence the id of a node, and gets a history when it is accumulated.
-/

namespace RL

/-- The function stored in `Derivative::jacobian_vector_product` (`autograd/jvp.rs` 10), by operation. -/
inductive JvpKind where
  | add | neg | relu | abs | tanh | sum | bmm | dot
deriving DecidableEq, Repr

/-- `/repo/src/tensor/autograd/jvp.rs` 6-12 `Derivative`; `debug_info` is left out. -/
structure Deriv where
  inputs : List Nat
  kind : JvpKind
deriving DecidableEq, Repr

/-- `/repo/src/tensor/raw_tensor.rs` 40-49 `RawTensor` with its `grad` and `grad_fn`. -/
structure Node (T : Type) where
  val : Raw T
  grad : Option Nat
  gradFn : Option Deriv
deriving DecidableEq, Repr

/-- All `RawTensor`s behind `Arc`s. -/
abbrev Heap (T : Type) := List (Node T)

variable {T : Type}

/-- Dereference an `RcTensor`. -/
def Heap.node (h : Heap T) (id : Nat) : R (Node T) := idxR h id

/-- `RcTensor::from_raw`, `/repo/src/tensor/rc_tensor.rs` 65-67: a new `Arc`. -/
def Heap.alloc (h : Heap T) (n : Node T) : Heap T × Nat := (h ++ [n], h.length)

/-- A tensor without gradient and history (`..Default::default()`, `raw_tensor.rs` 75-87). -/
def leafNode (val : Raw T) : Node T := { val, grad := none, gradFn := none }

/-- Allocate a tensor without history. -/
def Heap.leaf (h : Heap T) (val : Raw T) : Heap T × Nat := h.alloc (leafNode val)

/-- `&a + &b`, `a + b`: `/repo/src/tensor/rc_tensor.rs` 266-275, 284-295;
`functional::add`, `element_wise_ops.rs` 112-129. -/
def addT [Zero T] [Add T] (h : Heap T) (l r : Nat) : R (Heap T × Nat) := do
  let ln ← h.node l
  let rn ← h.node r
  let val ← addRaw (.raw ln.val) (.raw rn.val)
  return h.alloc { val, grad := none, gradFn := some { inputs := [l, r], kind := .add } }

/-- `-&a`: `/repo/src/tensor/rc_tensor.rs` 334-344. -/
def negT [Neg T] (h : Heap T) (t : Nat) : R (Heap T × Nat) := do
  let n ← h.node t
  let val ← negRaw (.raw n.val)
  return h.alloc { val, grad := none, gradFn := some { inputs := [t], kind := .neg } }

/-- `a - b` in its three forms: `/repo/src/tensor/rc_tensor.rs` 304-307, 315-317, 324-326. -/
def subT [Zero T] [Add T] [Neg T] (h : Heap T) (l r : Nat) : R (Heap T × Nat) := do
  let (h, n) ← negT h r
  addT h l n

/-- `relu`: `/repo/src/tensor/functional/element_wise_ops.rs` 38-70. -/
def reluT [Zero T] [LT T] [DecidableLT T] (h : Heap T) (t : Nat) : R (Heap T × Nat) := do
  let n ← h.node t
  let val ← reluRaw (.raw n.val)
  return h.alloc { val, grad := none, gradFn := some { inputs := [t], kind := .relu } }

/-- `tanh`: `/repo/src/tensor/functional/element_wise_ops.rs` 23-36. -/
def tanhT [RealFn T] (h : Heap T) (t : Nat) : R (Heap T × Nat) := do
  let n ← h.node t
  let val ← tanhRaw (.raw n.val)
  return h.alloc { val, grad := none, gradFn := some { inputs := [t], kind := .tanh } }

/-- `abs`: `/repo/src/tensor/rc_tensor.rs` 45-47, `element_wise_ops.rs` 323-334. -/
def absT [RealFn T] (h : Heap T) (t : Nat) : R (Heap T × Nat) := do
  let n ← h.node t
  let val ← absRaw (.raw n.val)
  return h.alloc { val, grad := none, gradFn := some { inputs := [t], kind := .abs } }

/-- `sum`: `/repo/src/tensor/rc_tensor.rs` 181-189 on top of `raw_tensor.rs` 318-329: the fresh scalar starts with
a gradient of ones in the shape of the *summed* tensor (lines 324-327). -/
def sumT [Zero T] [One T] [Add T] (h : Heap T) (t : Nat) : R (Heap T × Nat) := do
  let n ← h.node t
  let val ← (TL.raw n.val).sum
  let (h, g) := h.leaf (Raw.newWithFiller n.val.shape 1)
  return h.alloc { val, grad := some g, gradFn := some { inputs := [t], kind := .sum } }

/-- `a.bmm(&b)` on two `RcTensor`s: `/repo/src/tensor/rc_tensor.rs` 206-225. -/
def bmmT [Zero T] [Add T] [Mul T] (h : Heap T) (l r : Nat) : R (Heap T × Nat) := do
  let ln ← h.node l
  let rn ← h.node r
  let val ← bmmRaw (.raw ln.val) (.raw rn.val)
  return h.alloc { val, grad := none, gradFn := some { inputs := [l, r], kind := .bmm } }

/-- `dot(&a, &b)`: `/repo/src/tensor/functional/misc.rs` 386-398. -/
def dotT [Zero T] [Add T] [Mul T] (h : Heap T) (l r : Nat) : R (Heap T × Nat) := do
  let ln ← h.node l
  let rn ← h.node r
  let val ← dotRaw (.raw ln.val) (.raw rn.val)
  return h.alloc { val, grad := none, gradFn := some { inputs := [l, r], kind := .dot } }

/-- `a * b`: `/repo/src/tensor/rc_tensor.rs` 355-358, 369-372: no history. -/
def mulT [Mul T] (h : Heap T) (l r : Nat) : R (Heap T × Nat) := do
  let ln ← h.node l
  let rn ← h.node r
  let val ← mulRaw ln.val (.raw rn.val)
  return h.leaf val

/-- Ways to obtain a `TensorView`. -/
inductive VExpr where
  /-- `a.view(ranges)`, `a.slice(ranges)` on a tensor -/
  | view (t : Nat) (ranges : List SliceRange)
  /-- `v.reshape(shape)` -/
  | reshape (v : VExpr) (shape : List Nat)
  /-- `v.slice(ranges)` on a view -/
  | slice (v : VExpr) (ranges : List SliceRange)
deriving DecidableEq, Repr

/-- The view: `/repo/src/tensor/rc_tensor.rs` 95-97, 203-205, `tensor_view.rs` 66-79, 139-141. -/
def VExpr.eval (h : Heap T) : VExpr → R (View T)
  | .view t ranges => do
    let n ← h.node t
    View.new n.val ranges
  | .reshape v shape => do
    let v ← v.eval h
    v.reshape shape
  | .slice v ranges => do
    let v ← v.eval h
    v.slice ranges

/-- `v.to_tensor()`: `/repo/src/tensor/tensor_view.rs` 112-118: a fresh leaf. `v.deep_clone()`
(`tensor_like.rs` 58-63) gives the same. -/
def viewToTensorT (h : Heap T) (v : VExpr) : R (Heap T × Nat) := do
  let v ← v.eval h
  let val ← (TL.view v).toTensor
  return h.leaf val

/-- `v.sum()`: `/repo/src/tensor/tensor_view.rs` 120-125: a fresh leaf without gradient. -/
def viewSumT [Zero T] [Add T] (h : Heap T) (v : VExpr) : R (Heap T × Nat) := do
  let v ← v.eval h
  let val ← (TL.view v).sum
  return h.leaf val

/-- `a.bmm(&v)`: `/repo/src/tensor/rc_tensor.rs` 214-225; the recorded right input is the fresh
tensor `right.to_tensor()`. -/
def bmmViewT [Zero T] [Add T] [Mul T] (h : Heap T) (l : Nat) (v : VExpr) : R (Heap T × Nat) := do
  let ln ← h.node l
  let v ← v.eval h
  let val ← bmmRaw (.raw ln.val) (.view v)
  let rv ← (TL.view v).toTensor
  let (h, rid) := h.leaf rv
  return h.alloc { val, grad := none, gradFn := some { inputs := [l, rid], kind := .bmm } }

/-- `v.bmm(&a)`: `/repo/src/tensor/tensor_view.rs` 143-156: no history. -/
def viewBmmT [Zero T] [Add T] [Mul T] (h : Heap T) (v : VExpr) (r : Nat) : R (Heap T × Nat) := do
  let v ← v.eval h
  let rn ← h.node r
  let val ← bmmRaw (.view v) (.raw rn.val)
  return h.leaf val

/-- `v.bmm(&w)`: `/repo/src/tensor/tensor_view.rs` 143-156: no history. -/
def viewBmmViewT [Zero T] [Add T] [Mul T] (h : Heap T) (v w : VExpr) : R (Heap T × Nat) := do
  let v ← v.eval h
  let w ← w.eval h
  let val ← bmmRaw (.view v) (.view w)
  return h.leaf val

/-- `&a * &v`: `/repo/src/tensor/rc_tensor.rs` 355-358, 369-372: no history. -/
def mulViewT [Mul T] (h : Heap T) (l : Nat) (v : VExpr) : R (Heap T × Nat) := do
  let ln ← h.node l
  let v ← v.eval h
  let val ← mulRaw ln.val (.view v)
  return h.leaf val

/-- Operand of a function that takes any `TensorLike`: a tensor (an `RcTensor` or the `RawTensor` behind it) or a view. -/
inductive Opnd where
  | tensor (t : Nat)
  | view (v : VExpr)
deriving DecidableEq, Repr

/-- The operand's data. -/
def Opnd.eval (h : Heap T) : Opnd → R (TL T)
  | .tensor t => do return .raw (← h.node t).val
  | .view v => do return .view (← v.eval h)

/-- Functions of two operands that keep no history. -/
inductive RawBin where
  /-- `&RawTensor + &U`: `/repo/src/tensor/raw_tensor.rs` 389-391 -/
  | add
  /-- `element_wise_multiplication`: `/repo/src/tensor/functional/misc.rs` 333-349 -/
  | mul
  /-- `dot_no_derivative`, `RawTensor::dot`: `/repo/src/tensor/functional/misc.rs` 351-360, `raw_tensor.rs` 287-293 -/
  | dot
  /-- `bmm`, `bmm_rc` of a `RawTensor`: `/repo/src/tensor/raw_tensor.rs` 295-301, 348-353 -/
  | bmm
deriving DecidableEq, Repr

/-- Data of the result. -/
def RawBin.val [Zero T] [Add T] [Mul T] : RawBin → TL T → TL T → R (Raw T)
  | .add => addRaw
  | .mul => elementWiseMul
  | .dot => dotRaw
  | .bmm => bmmRaw

/-- A function of two operands that keeps no history, its result made a tensor (`RawTensor::to_tensor`, `raw_tensor.rs` 339-341).
Simplified: `add` and `bmm` of a view and something do not exist on the left (`&RawTensor` only), the model allows them. -/
def rawBinT [Zero T] [Add T] [Mul T] (h : Heap T) (k : RawBin) (l r : Opnd) : R (Heap T × Nat) := do
  let l ← l.eval h
  let r ← r.eval h
  let val ← k.val l r
  return h.leaf val

/-- `&RawTensor - &U` (`/repo/src/tensor/raw_tensor.rs` 356-368), `to_tensor`. The negated right operand is not visible. -/
def rawSubT [Zero T] [Add T] [Neg T] (h : Heap T) (l r : Nat) : R (Heap T × Nat) := do
  let ln ← h.node l
  let rn ← h.node r
  let val ← subRaw (.raw ln.val) (.raw rn.val)
  return h.leaf val

/-- `generic_unary_op(x, f)` (`/repo/src/tensor/functional/element_wise_ops.rs` 396-414; `-&RawTensor`, `raw_tensor.rs` 265-273,
is the case `f = neg`), `to_tensor`. -/
def rawUnaryT (h : Heap T) (f : T → T) (x : Opnd) : R (Heap T × Nat) := do
  let x ← x.eval h
  let val ← genericUnaryOp x f
  return h.leaf val

/-- `x.left_scalar_multiplication(&s)` (`/repo/src/tensor/tensor_like.rs` 67-73), `to_tensor`. -/
def leftMulT [Mul T] (h : Heap T) (s : T) (x : Opnd) : R (Heap T × Nat) := do
  let x ← x.eval h
  return h.leaf (x.leftScalarMul s)

/-- `x.right_scalar_multiplication(&s)` (`/repo/src/tensor/tensor_like.rs` 75-81), `to_tensor`. -/
def rightMulT [Mul T] (h : Heap T) (x : Opnd) (s : T) : R (Heap T × Nat) := do
  let x ← x.eval h
  return h.leaf (x.rightScalarMul s)

/-- `RawTensor::sum` (`/repo/src/tensor/raw_tensor.rs` 318-329), `to_tensor`: a gradient of the shape of the summed tensor, no
history. -/
def rawSumT [Zero T] [One T] [Add T] (h : Heap T) (t : Nat) : R (Heap T × Nat) := do
  let n ← h.node t
  let val ← (TL.raw n.val).sum
  let (h, g) := h.leaf (Raw.newWithFiller n.val.shape 1)
  return h.alloc { val, grad := some g, gradFn := none }

/-- `a.deep_clone()`: `/repo/src/tensor/tensor_like.rs` 58-63. -/
def deepCloneT (h : Heap T) (t : Nat) : R (Heap T × Nat) := do
  let n ← h.node t
  return h.alloc { n with gradFn := none, grad := none }

/-- `RawTensor::to_tensor` on the tensor behind an `RcTensor`: `/repo/src/tensor/raw_tensor.rs` 339-341, 51-60:
a new `Arc` with copied data and history, and the same gradient tensor. -/
def rawCloneT (h : Heap T) (t : Nat) : R (Heap T × Nat) := do
  let n ← h.node t
  return h.alloc n

/-- `a.grad()`: `/repo/src/tensor/rc_tensor.rs` 123-133: the gradient tensor itself, not a copy. -/
def gradT (h : Heap T) (t : Nat) : R Nat := do
  let n ← h.node t
  unwrapO n.grad

/-- `update_grad`: `/repo/src/tensor/raw_tensor.rs` 307-313, `rc_tensor.rs` 154-158. `other_grad + &grad` is the
addition of `RcTensor`s, so the new gradient has the two old ones as its history. -/
def updateGrad [Zero T] [Add T] (h : Heap T) (t grad : Nat) : R (Heap T) := do
  let n ← h.node t
  let (h, newGrad) ← match n.grad with
    | none => pure (h, grad)
    | some otherGrad => addT h otherGrad grad
  return h.set t { n with grad := some newGrad }

/-- `zero_grad`: `/repo/src/tensor/raw_tensor.rs` 303-305, `rc_tensor.rs` 160-163. -/
def zeroGrad (h : Heap T) (t : Nat) : R (Heap T) := do
  let n ← h.node t
  return h.set t { n with grad := none }

section backward

variable [Zero T] [One T] [Add T] [Mul T] [Sub T] [Neg T] [LT T] [DecidableLT T] [LE T] [DecidableLE T]
  [RealFn T]

/-- Call of the stored `jacobian_vector_product`. -/
def applyJvp : JvpKind → List (Raw T) → List (Raw T) → R (List (Raw T))
  | .add => addJvp
  | .neg => negJvp
  | .relu => reluJvp
  | .abs => absJvp
  | .tanh => tanhJvp
  | .sum => onesJvp
  | .bmm => bmmJvp
  | .dot => dotJvp

/-- `/repo/src/tensor/autograd/jvp.rs` 30-51 `compute_jvp`, with fuel for the recursion. -/
def computeJvp : Nat → Heap T → Deriv → List (Raw T) → R (Heap T)
  | 0, _, _, _ => R.panic .diverge
  | fuel + 1, h, d, outerGrads => do
    let inputs ← d.inputs.mapM (fun i => do return (← h.node i).val)
    let selfGrads ← applyJvp d.kind inputs outerGrads
    (selfGrads.zip d.inputs).foldlM (init := h) (fun h (grad, input) => do
      let n ← h.node input
      assertR (grad.array.length == n.val.array.length)
      let shapedGrad ← Raw.new grad.array n.val.shape
      let (h, g) := h.leaf shapedGrad
      let h ← updateGrad h input g
      match n.gradFn with
      | some d' => computeJvp fuel h d' [grad]
      | none => return h)

/-- `/repo/src/tensor/rc_tensor.rs` 50-60 `backward`. -/
def backward (h : Heap T) (t : Nat) : R (Heap T) := do
  let n ← h.node t
  assertR (n.val.array.length == 1)
  let d ← unwrapO n.gradFn
  computeJvp (h.length + 1) h d [Raw.scalar 1]

/-- The public operations on `RcTensor`s and on views of them, for statements about histories. Ids refer to
tensors obtained earlier. `t.grad()` needs no operation: it returns an id that is already in the heap. -/
inductive Op (T : Type) where
  | new (array : List T) (shape : List Nat)
  | filler (shape : List Nat) (v : T)
  | scalar (v : T)
  /-- `RawTensor::default().to_tensor()` -/
  | default
  | add (l r : Nat) | sub (l r : Nat) | neg (t : Nat) | mul (l r : Nat)
  | relu (t : Nat) | tanh (t : Nat) | abs (t : Nat)
  | sum (t : Nat) | bmm (l r : Nat) | dot (l r : Nat)
  | viewToTensor (v : VExpr)
  | viewSum (v : VExpr)
  | bmmView (l : Nat) (v : VExpr)
  | viewBmm (v : VExpr) (r : Nat)
  | viewBmmView (v w : VExpr)
  | mulView (l : Nat) (v : VExpr)
  /-- results of history-free functions of `RawTensor`s and views, made tensors -/
  | rawBin (k : RawBin) (l r : Opnd)
  | rawSub (l r : Nat)
  | rawUnary (f : T → T) (x : Opnd)
  | leftMul (s : T) (x : Opnd)
  | rightMul (x : Opnd) (s : T)
  | rawSum (t : Nat)
  | deepClone (t : Nat) | rawClone (t : Nat)
  /-- `t.update_grad(g)` called by the user -/
  | updateGrad (t g : Nat)
  | zeroGrad (t : Nat)
  | backward (t : Nat)

/-- Execute one operation. -/
def Op.run (h : Heap T) : Op T → R (Heap T)
  | .new array shape => do return (h.leaf (← Raw.new array shape)).1
  | .filler shape v => return (h.leaf (Raw.newWithFiller shape v)).1
  | .scalar v => return (h.leaf (Raw.scalar v)).1
  | .default => return (h.leaf Raw.default).1
  | .add l r => do return (← addT h l r).1
  | .sub l r => do return (← subT h l r).1
  | .neg t => do return (← negT h t).1
  | .mul l r => do return (← mulT h l r).1
  | .relu t => do return (← reluT h t).1
  | .tanh t => do return (← tanhT h t).1
  | .abs t => do return (← absT h t).1
  | .sum t => do return (← sumT h t).1
  | .bmm l r => do return (← bmmT h l r).1
  | .dot l r => do return (← dotT h l r).1
  | .viewToTensor v => do return (← viewToTensorT h v).1
  | .viewSum v => do return (← viewSumT h v).1
  | .bmmView l v => do return (← bmmViewT h l v).1
  | .viewBmm v r => do return (← viewBmmT h v r).1
  | .viewBmmView v w => do return (← viewBmmViewT h v w).1
  | .mulView l v => do return (← mulViewT h l v).1
  | .rawBin k l r => do return (← rawBinT h k l r).1
  | .rawSub l r => do return (← rawSubT h l r).1
  | .rawUnary f x => do return (← rawUnaryT h f x).1
  | .leftMul s x => do return (← leftMulT h s x).1
  | .rightMul x s => do return (← rightMulT h x s).1
  | .rawSum t => do return (← rawSumT h t).1
  | .deepClone t => do return (← deepCloneT h t).1
  | .rawClone t => do return (← rawCloneT h t).1
  | .updateGrad t g => do
    let _ ← h.node g
    RL.updateGrad h t g
  | .zeroGrad t => RL.zeroGrad h t
  | .backward t => RL.backward h t

/-- Execute a history; stops at the first panic. -/
def runOps (h : Heap T) (ops : List (Op T)) : R (Heap T) := ops.foldlM Op.run h

end backward

end RL
