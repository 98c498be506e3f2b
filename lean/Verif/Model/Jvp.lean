import Verif.Model.Functional

/-!
# Model of the gradient functions

`/repo/src/tensor/autograd/jvp.rs`, `/repo/src/tensor/functional/element_wise_ops.rs` (`*_jvp`) and
`/repo/src/tensor/functional/misc.rs` (`dot_jvp`, `bmm_jvp`, `SplitArrayWriter`).

Inputs and gradients are data only (`Raw`): none of these functions looks at `grad` or `grad_fn`.
-/

namespace RL

variable {T : Type}

/-- `array[i] += v` -/
def addAt [Add T] (array : List T) (i : Nat) (v : T) : R (List T) := do
  let old ← idxR array i
  return array.set i (old + v)

/-- `/repo/src/tensor/functional/element_wise_ops.rs` 160-185: the `loop` of
`jvp_from_diagonal_broadcast`, with fuel; `idx` walks over the diagonal, `orig_idx` over the broadcast
shape. -/
def diagLoop [Add T] [Mul T] (diagonal : Raw T) (jvpShape broadcastShape inputShape : List Nat)
    (grad : Raw T) (dim0 : Nat) : Nat → List Nat → List Nat → List T → R (List T)
  | 0, _, _, _ => R.panic .diverge
  | fuel + 1, idx, origIdx, array => do
    let jacIdx1 ← unwrapR (globalIndex idx diagonal.shape none)
    let array ← (List.range dim0).foldlM (init := array) (fun array jacIdx0 => do
      let outputIdx ← unwrapR (globalIndex origIdx inputShape none)
      let outputJacIdx ← unwrapR (globalIndex [jacIdx0, outputIdx] jvpShape none)
      let gradVal ← grad.at [jacIdx0, jacIdx1]
      let diagVal ← diagonal.at idx
      addAt array outputJacIdx (diagVal * gradVal))
    let (idx, more) ← incrementIndex idx diagonal.shape
    if more then
      let (origIdx, moreOrig) ← incrementIndex origIdx broadcastShape
      assertR moreOrig
      diagLoop diagonal jvpShape broadcastShape inputShape grad dim0 fuel idx origIdx array
    else
      return array

/-- `/repo/src/tensor/functional/element_wise_ops.rs` 130-189 `jvp_from_diagonal_broadcast`.
All callers pass `Some(jvp_shape)`; the `None` case is modelled as well. -/
def jvpFromDiagonalBroadcast [Zero T] [Add T] [Mul T] (diagonal : Raw T) (jvpShape : Option (List Nat))
    (broadcastShape inputShape : List Nat) (grad : Raw T) : R (Raw T) := do
  assertR (decide (grad.shape.length ≤ 2))
  let dim0 ← if grad.shape.length ≤ 1 then pure 1 else idxR grad.shape 0
  let jvpShape := match jvpShape with
    | some v => v
    | none => [dim0, diagonal.array.length]
  let s0 ← idxR jvpShape 0
  assertR (dim0 == s0)
  let s1 ← idxR jvpShape 1
  let array ← diagLoop diagonal jvpShape broadcastShape inputShape grad dim0
    (iterFuel diagonal.shape) (List.replicate diagonal.shape.length 0)
    (List.replicate broadcastShape.length 0) (List.replicate (s0 * s1) 0)
  Raw.new array jvpShape

/-- `/repo/src/tensor/functional/element_wise_ops.rs` 222-226, 368-372: the leading dimension callers
of `jvp_from_diagonal_broadcast` use. -/
def gradDim0 (grad : Raw T) : R Nat :=
  if grad.shape.isEmpty then return 1 else idxR grad.shape 0

/-- `/repo/src/tensor/functional/element_wise_ops.rs` 201-259 `generic_binop_jvp`. -/
def genericBinopJvp [Zero T] [Add T] [Mul T] (left right grad : Raw T) (opDerivative : T → T → T) :
    R (List (Raw T)) := do
  let broadcastShape := maxShape left.shape right.shape
  let diagLength := broadcastShape.prod
  if grad.shape.length ≥ 2 then
    let g1 ← idxR grad.shape 1
    assertR (g1 == diagLength)
  let dim0 ← gradDim0 grad
  let rightJvpShape := [dim0, right.array.length]
  let leftJvpShape := [dim0, left.array.length]
  let array ← forIndices broadcastShape [] (fun acc idx => do
    let l ← unwrapR (left.get idx)
    let r ← unwrapR (right.get idx)
    return acc ++ [opDerivative l r])
  let diag ← Raw.new array [1, diagLength]
  let leftJvp ← jvpFromDiagonalBroadcast diag (some leftJvpShape) broadcastShape left.shape grad
  let rightJvp ← jvpFromDiagonalBroadcast diag (some rightJvpShape) broadcastShape right.shape grad
  return [leftJvp, rightJvp]

/-- `/repo/src/tensor/functional/element_wise_ops.rs` 191-199 `add_jvp`. -/
def addJvp [Zero T] [One T] [Add T] [Mul T] (tensors grads : List (Raw T)) : R (List (Raw T)) := do
  assertR (tensors.length == 2)
  assertR (grads.length == 1)
  let left ← idxR tensors 0
  let right ← idxR tensors 1
  let grad ← idxR grads 0
  genericBinopJvp left right grad (fun _ _ => 1)

/-- `/repo/src/tensor/functional/element_wise_ops.rs` 360-394 `generic_unary_jvp`. -/
def genericUnaryJvp [Zero T] [Add T] [Mul T] (tensor grad : Raw T) (opDerivative : T → T) :
    R (List (Raw T)) := do
  let diagLength := tensor.array.length
  let dim0 ← gradDim0 grad
  let jvpShape := [dim0, diagLength]
  let array ← forIndices tensor.shape [] (fun acc idx => do
    let v ← unwrapR (tensor.get idx)
    return acc ++ [opDerivative v])
  let diag ← Raw.new array [1, diagLength]
  let jvp ← jvpFromDiagonalBroadcast diag (some jvpShape) tensor.shape tensor.shape grad
  return [jvp]

/-- `/repo/src/tensor/rc_tensor.rs` 338-340: the closure of `Neg`. -/
def negJvp [Zero T] [One T] [Add T] [Mul T] [Neg T] (tensors grads : List (Raw T)) :
    R (List (Raw T)) := do
  let t ← idxR tensors 0
  let g ← idxR grads 0
  genericUnaryJvp t g (fun _ => -1)

/-- `/repo/src/tensor/functional/element_wise_ops.rs` 59-65: derivative used by `relu`. -/
def reluDeriv [Zero T] [One T] [LT T] [DecidableLT T] (t : T) : T := if t < 0 then 0 else 1

/-- `/repo/src/tensor/functional/element_wise_ops.rs` 46-66: the closure of `relu`. -/
def reluJvp [Zero T] [One T] [Add T] [Mul T] [LT T] [DecidableLT T] (tensors grads : List (Raw T)) :
    R (List (Raw T)) := do
  assertR (tensors.length == 1)
  assertR (grads.length == 1)
  let t ← idxR tensors 0
  let g ← idxR grads 0
  genericUnaryJvp t g reluDeriv

/-- `/repo/src/tensor/functional/element_wise_ops.rs` 343-349: derivative used by `abs`. -/
def absDeriv [Zero T] [One T] [Sub T] [LE T] [DecidableLE T] (t : T) : T :=
  if t ≥ 0 then 1 else 0 - 1

/-- `/repo/src/tensor/functional/element_wise_ops.rs` 336-350 `abs_jvp`. -/
def absJvp [Zero T] [One T] [Add T] [Mul T] [Sub T] [LE T] [DecidableLE T]
    (tensors grads : List (Raw T)) : R (List (Raw T)) := do
  assertR (tensors.length == 1)
  assertR (grads.length == 1)
  let g ← idxR grads 0
  assertR (g.shape.length == 2)
  let t ← idxR tensors 0
  genericUnaryJvp t g absDeriv

/-- the diagonal entry `1 - tanh(x)^2`, `/repo/src/tensor/functional/element_wise_ops.rs` 92, 101. -/
def tanhDerivFn [One T] [Sub T] [RealFn T] (x : T) : T := 1 - RealFn.powi2 (RealFn.tanh x)

/-- `/repo/src/tensor/functional/element_wise_ops.rs` 84-110 `tanh_derivative` with
`full_jacobian_output = true` (the only non-test use). -/
def tanhJacobian [Zero T] [One T] [Sub T] [RealFn T] (tensor : Raw T) : R (Raw T) := do
  let length := tensor.shape.prod
  let array ← (List.range length).foldlM (init := ([] : List T)) (fun acc i =>
    (List.range length).foldlM (init := acc) (fun acc j =>
      if i = j then do
        let x ← idxR tensor.array i
        return acc ++ [tanhDerivFn x]
      else return acc ++ [0]))
  Raw.new array [length, length]

/-- `/repo/src/tensor/autograd/jvp.rs` 56-70 `jvp_from_full_jacobians`. -/
def jvpFromFullJacobians [Zero T] [Add T] [Mul T] (left right : Raw T) : R (Raw T) := do
  if right.isScalar || right.shape.prod == 1 || left.isScalar || left.shape.prod == 1 then
    assertR (left.isScalar || left.shape.prod == 1)
    mulRaw left (.raw right)
  else
    bmmRaw (.raw left) (.raw right)

/-- `/repo/src/tensor/functional/element_wise_ops.rs` 72-81 `tanh_derivative_outer`. -/
def tanhJvp [Zero T] [One T] [Add T] [Mul T] [Sub T] [RealFn T] (tensors grads : List (Raw T)) :
    R (List (Raw T)) := do
  assertR (tensors.length == 1)
  assertR (grads.length == 1)
  let t ← idxR tensors 0
  let jacobian ← tanhJacobian t
  let g ← idxR grads 0
  let newGrad ← jvpFromFullJacobians g jacobian
  return [newGrad]

/-- `/repo/src/tensor/autograd/jvp.rs` 72-79 `ones`, the gradient function of `sum`: the *values* of the
incoming gradient are not used. -/
def onesJvp [One T] (tensors grads : List (Raw T)) : R (List (Raw T)) := do
  assertR (tensors.length == 1)
  assertR (grads.length == 1)
  let t ← idxR tensors 0
  let g ← idxR grads 0
  return [Raw.newWithFiller [g.shape.prod, t.shape.prod] 1]

/-- `/repo/src/tensor/functional/misc.rs` 362-374 `dot_jvp`. -/
def dotJvp [Zero T] [Add T] [Mul T] (inputs jacobians : List (Raw T)) : R (List (Raw T)) := do
  assertR (inputs.length == 2 && jacobians.length == 1)
  let left ← idxR inputs 0
  let right ← idxR inputs 1
  let jacobian ← idxR jacobians 0
  let leftJvp ← jvpFromFullJacobians jacobian right
  let rightJvp ← jvpFromFullJacobians jacobian left
  return [leftJvp, rightJvp]

/-! ## `bmm_jvp` -/

/-- `/repo/src/tensor/functional/misc.rs` 152: `bit_width`. -/
def bitWidth : Nat := 5

/-- `/repo/src/tensor/functional/misc.rs` 153: `width = 1 << bit_width`. -/
def segWidth : Nat := 1 <<< bitWidth

/-- `/repo/src/tensor/functional/misc.rs` 155: `slice.rchunks_mut(width)` on a slice of length `len`, as a
list of windows `(start, length)`. `rchunks_mut` starts at the *end* of the slice: the first chunk is the
last `width` elements, the last chunk is the (possibly shorter) beginning of the slice. -/
def rchunks (len : Nat) : List (Nat × Nat) :=
  if _h : len = 0 then []
  else
    let w := min segWidth len
    (len - w, w) :: rchunks (len - w)
termination_by len
decreasing_by
  have h1 : 0 < segWidth := by decide
  omega

/-- `/repo/src/tensor/functional/misc.rs` 173-176: the segment a message `(global_idx, val)` is sent to;
`senders[sender_idx]` panics when there is no such segment. -/
def senderOf (len globalIdx : Nat) : R Nat :=
  let senderIdx := globalIdx >>> bitWidth
  if senderIdx < (rchunks len).length then return senderIdx else R.panic .index

/-- `/repo/src/tensor/functional/misc.rs` 191-196: segment `slice_idx` receives `(global_idx, value)` and
adds it into its window of the array. -/
def segmentWrite [Add T] (array : List T) (sliceIdx globalIdx : Nat) (value : T) : R (List T) := do
  let (start, len) ← idxR (rchunks array.length) sliceIdx
  let localIdx ← subR globalIdx (sliceIdx * segWidth)
  assertR (decide (localIdx < len))
  addAt array (start + localIdx) value

/-- One message of a `bmm_jvp` task: which of the two arrays, the flat target index, the value. -/
structure Msg (T : Type) where
  /-- `false`: the left writer, `true`: the right writer -/
  right : Bool
  globalIdx : Nat
  val : T
deriving DecidableEq, Repr

/-- The shapes computed at `/repo/src/tensor/functional/misc.rs` 229-252. -/
structure BmmJvpShapes where
  bmmOutput : List Nat
  leftJacobian : List Nat
  leftOutput : List Nat
  rightOutput : List Nat
deriving DecidableEq, Repr

/-- `/repo/src/tensor/functional/misc.rs` 222-252: the checks and shapes of `bmm_jvp`. -/
def bmmJvpShapes (a b jac : Raw T) : R BmmJvpShapes := do
  let a1 ← idxR a.shape 1
  let b0 ← idxR b.shape 0
  assertR (a1 == b0)
  let a0 ← idxR a.shape 0
  let b1 ← idxR b.shape 1
  let j0 ← idxR jac.shape 0
  return {
    bmmOutput := [a0, b1]
    leftJacobian := [a0 * b1, a0 * a1]
    leftOutput := [j0, a0 * a1]
    rightOutput := [j0, b0 * b1] }

/-- `/repo/src/tensor/functional/misc.rs` 272-318: the closure spawned for `(i, k, j)`; the list of messages
it sends, in order. -/
def bmmJvpTask [Mul T] (a b jac : Raw T) (sh : BmmJvpShapes) (i k j : Nat) : R (List (Msg T)) := do
  let selfJacIdx0 ← unwrapR (globalIndex [i, j] sh.bmmOutput none)
  let leftJacIdx1 ← unwrapR (globalIndex [i, k] a.shape none)
  let rightJacIdx1 ← unwrapR (globalIndex [k, j] b.shape none)
  let lj0 ← idxR sh.leftJacobian 0
  assertR (decide (selfJacIdx0 < lj0))
  let jac1 ← idxR jac.shape 1
  assertR (decide (selfJacIdx0 < jac1))
  let lj1 ← idxR sh.leftJacobian 1
  assertR (decide (leftJacIdx1 < lj1))
  let jac0 ← idxR jac.shape 0
  (List.range jac0).foldlM (init := ([] : List (Msg T))) (fun msgs inputJacIdx => do
    let tmpLeft ← unwrapR (globalIndex [inputJacIdx, leftJacIdx1] sh.leftOutput none)
    let jv ← jac.at [inputJacIdx, selfJacIdx0]
    let bv ← b.at [k, j]
    let tmpRight ← unwrapR (globalIndex [inputJacIdx, rightJacIdx1] sh.rightOutput none)
    let av ← a.at [i, k]
    return msgs ++ [
      { right := false, globalIdx := tmpLeft, val := jv * bv },
      { right := true, globalIdx := tmpRight, val := jv * av }])

/-- `/repo/src/tensor/functional/misc.rs` 263-323: the triple loop spawning the tasks. -/
def bmmJvpTasks [Mul T] (a b jac : Raw T) (sh : BmmJvpShapes) : R (List (List (Msg T))) := do
  let a0 ← idxR a.shape 0
  let a1 ← idxR a.shape 1
  let b1 ← idxR b.shape 1
  (List.range a0).foldlM (init := ([] : List (List (Msg T)))) (fun acc i =>
    (List.range a1).foldlM (init := acc) (fun acc k =>
      (List.range b1).foldlM (init := acc) (fun acc j => do
        let msgs ← bmmJvpTask a b jac sh i k j
        return acc ++ [msgs])))

/-- Deliver one message to its segment: `get_writer` then the receiving loop
(`/repo/src/tensor/functional/misc.rs` 173-176, 191-196). -/
def deliver [Add T] (arrays : List T × List T) (m : Msg T) : R (List T × List T) := do
  if m.right then
    let seg ← senderOf arrays.2.length m.globalIdx
    let r ← segmentWrite arrays.2 seg m.globalIdx m.val
    return (arrays.1, r)
  else
    let seg ← senderOf arrays.1.length m.globalIdx
    let l ← segmentWrite arrays.1 seg m.globalIdx m.val
    return (l, arrays.2)

/-- `/repo/src/tensor/functional/misc.rs` 211-331 `bmm_jvp`, run with the schedule that delivers every message
right after it is sent and runs the tasks in spawn order. `Verif.Model.SplitWriter` has all schedules. -/
def bmmJvp [Zero T] [Add T] [Mul T] (inputs jacobians : List (Raw T)) : R (List (Raw T)) := do
  assertR (inputs.length == 2 && jacobians.length == 1)
  let a ← idxR inputs 0
  let b ← idxR inputs 1
  let jac ← idxR jacobians 0
  let sh ← bmmJvpShapes a b jac
  let leftLength := sh.leftOutput.foldl (· * ·) 1
  let rightLength := sh.rightOutput.foldl (· * ·) 1
  let tasks ← bmmJvpTasks a b jac sh
  let (leftArray, rightArray) ← tasks.flatten.foldlM deliver
    (List.replicate leftLength (0 : T), List.replicate rightLength (0 : T))
  let l ← Raw.new leftArray sh.leftOutput
  let r ← Raw.new rightArray sh.rightOutput
  return [l, r]

end RL
