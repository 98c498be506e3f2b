import Verif.Model.Machine
import Verif.Model.Graph

/-!
# Model of whole programs with `usize` arithmetic

The functions of `Verif.Model.Tensor`, `Functional`, `Jvp` and `Graph` that do arithmetic on `usize` or contain a `debug_assert`, once
more with the arithmetic of `Verif.Model.Machine`. Comments there apply here too. Also modelled are the products that only serve as a
capacity (`Vec::with_capacity`), as they panic on overflow in the debug profile. That memory can be allocated is assumed.
-/

namespace RL

/-- `debug_assert!(c)`, `debug_assert_eq!`: left out in the release profile. -/
def debugAssertR (p : Profile) (c : Bool) : R Unit :=
  match p with
  | .debug => if c then .ok () else R.panic .debugAssert
  | .release => .ok ()

/-- `/repo/src/tensor/utils.rs` 89-98 `IndexIterator::next`. -/
def IndexIter.nextU (p : Profile) (it : IndexIter) : R (Option (List Nat) × IndexIter) :=
  if it.first then
    return (some it.index, { it with first := false })
  else do
    let (index, more) ← incrementIndexU p it.index it.dimensions
    let it := { it with index }
    if more then return (some index, it) else return (none, it)

/-- A `for idx in iterator { body }` loop, with fuel; see `iterLoop`. -/
def iterLoopU (p : Profile) {σ : Type _} (body : σ → List Nat → R σ) : Nat → IndexIter → σ → R σ
  | 0, _, _ => R.panic .diverge
  | fuel + 1, it, s => do
    let (o, it) ← it.nextU p
    match o with
    | none => return s
    | some idx =>
      let s ← body s idx
      iterLoopU p body fuel it s

/-- Fuel for an `IndexIter`. In the release profile a component with dimension 0 runs through all of `usize`. -/
def iterFuelU (p : Profile) (dims : List Nat) : Nat :=
  match p with
  | .debug => iterFuel dims
  | .release => (dims.map fun d => if d = 0 then usizeEnd else d).prod + 2

/-- `for idx in IndexIterator::new(dims) { body }`; see `forIndices`. -/
def forIndicesU (p : Profile) {σ : Type _} (dims : List Nat) (init : σ) (body : σ → List Nat → R σ) : R σ :=
  iterLoopU p body (iterFuelU p dims) (IndexIter.new dims) init

variable {T : Type}

/-- `/repo/src/tensor/raw_tensor.rs` 210-218 `set`. -/
def Raw.setU (p : Profile) (t : Raw T) (index : List Nat) (value : T) : R (Raw T) := do
  let globalIdx ← globalIndexU p index t.shape none
  if globalIdx < t.array.length then
    return { t with array := t.array.set globalIdx value }
  else R.panic .index

/-- `/repo/src/tensor/raw_tensor.rs` 260-262 `Index`. -/
def Raw.atU (p : Profile) (t : Raw T) (index : List Nat) : R T := unwrapR (t.getU p index)

/-- `/repo/src/tensor/tensor_view.rs` 139-141 `slice`. -/
def View.sliceU (p : Profile) (v : View T) (offset : List SliceRange) : R (View T) := View.newU p v.tensor offset

/-- `TensorLike::get`: `raw_tensor.rs` 345-347, `tensor_view.rs` 127-133. -/
def TL.getU (p : Profile) : TL T → List Nat → R T
  | .raw t, index => t.getU p index
  | .view v, index => v.getU p index

/-- `for elem in ElementIterator::new(x) { body }` (`/repo/src/tensor/utils.rs` 24-51). -/
def forElemsU (p : Profile) {σ : Type _} (x : TL T) (init : σ) (body : σ → T → R σ) : R σ :=
  forIndicesU p x.shape init (fun s idx => do
    let e ← unwrapR (x.getU p idx)
    body s e)

/-- `TensorLike::to_tensor`: `raw_tensor.rs` 339-341, `rc_tensor.rs` 195-197, `tensor_view.rs` 112-118 (the product is the capacity). -/
def TL.toTensorU (p : Profile) : TL T → R (Raw T)
  | .raw t => return t
  | .view v => do
    let _ ← prodU p v.shape
    let array ← forElemsU p (.view v) [] (fun acc e => return acc ++ [e])
    Raw.newU p array v.shape

/-- `TensorLike::sum`: `raw_tensor.rs` 318-323, `tensor_view.rs` 120-125. -/
def TL.sumU (p : Profile) [Zero T] [Add T] : TL T → R (Raw T)
  | .raw t => return Raw.scalar (t.array.foldl (fun acc x => acc + x) 0)
  | .view v => do
    let s ← forElemsU p (.view v) (0 : T) (fun acc x => return acc + x)
    return Raw.scalar s

/-- `/repo/src/tensor/tensor_like.rs` 37-40 `get_first_elem`. -/
def TL.getFirstElemU (p : Profile) (x : TL T) : R T := unwrapR (x.getU p (List.replicate x.shape.length 0))

/-- `/repo/src/tensor/tensor_like.rs` 67-73 `left_scalar_multiplication`; `new_empty` (`raw_tensor.rs` 140-151) computes the capacity. -/
def TL.leftScalarMulU (p : Profile) [Mul T] (x : TL T) (scalar : T) : R (Raw T) := do
  let _ ← prodU p x.shape
  return { array := x.tensor.array.map (fun elem => scalar * elem), shape := x.shape }

/-- `/repo/src/tensor/tensor_like.rs` 75-81 `right_scalar_multiplication`. -/
def TL.rightScalarMulU (p : Profile) [Mul T] (x : TL T) (scalar : T) : R (Raw T) := do
  let _ ← prodU p x.shape
  return { array := x.tensor.array.map (fun elem => elem * scalar), shape := x.shape }

/-- `/repo/src/tensor/functional/element_wise_ops.rs` 292-321 `generic_binop_raw`. -/
def genericBinopRawU (p : Profile) [Zero T] (left right : TL T) (op : T → T → T) : R (Raw T) := do
  assertR (left.broadcastable right.shape)
  let shape := maxShape left.shape right.shape
  let init ← Raw.newWithFillerU p shape 0
  forIndicesU p shape init (fun result idx => do
    let l ← unwrapR (left.getU p idx)
    let r ← unwrapR (right.getU p idx)
    unwrapR (result.setU p idx (op l r)))

/-- `/repo/src/tensor/functional/element_wise_ops.rs` 281-290 `add_raw`. -/
def addRawU (p : Profile) [Zero T] [Add T] (left right : TL T) : R (Raw T) :=
  genericBinopRawU p left right (fun l r => l + r)

/-- `/repo/src/tensor/functional/element_wise_ops.rs` 396-414 `generic_unary_op`. -/
def genericUnaryOpU (p : Profile) (x : TL T) (op : T → T) : R (Raw T) := do
  let tensor ← x.toTensorU p
  let shape := x.shape
  let length := tensor.array.length
  let (array, _) ← (List.range length).foldlM (init := (([] : List T), List.replicate shape.length 0))
    (fun (array, idx) _ => do
      let elem ← unwrapR (x.getU p idx)
      let (idx', _) ← incrementIndexU p idx shape
      return (array ++ [op elem], idx'))
  Raw.newU p array tensor.shape

/-- `/repo/src/tensor/raw_tensor.rs` 270-272 `Neg for &RawTensor`. -/
def negRawU (p : Profile) [Neg T] (x : TL T) : R (Raw T) := genericUnaryOpU p x (fun v => -v)

/-- `/repo/src/tensor/raw_tensor.rs` 364-367 `Sub for &RawTensor`. -/
def subRawU (p : Profile) [Zero T] [Add T] [Neg T] (left right : TL T) : R (Raw T) := do
  let negative ← negRawU p right
  addRawU p left (.raw negative)

/-- `/repo/src/tensor/functional/misc.rs` 333-349 `element_wise_multiplication`. -/
def elementWiseMulU (p : Profile) [Mul T] (left right : TL T) : R (Raw T) := do
  let leftShape := left.shape
  assertR (left.sameShape right)
  let array ← forIndicesU p leftShape [] (fun acc idx => do
    let x ← unwrapR (left.getU p idx)
    let y ← unwrapR (right.getU p idx)
    return acc ++ [x * y])
  Raw.newU p array leftShape

/-- `/repo/src/tensor/raw_tensor.rs` 402-410 `Mul for &RawTensor`. -/
def mulRawU (p : Profile) [Mul T] (left : Raw T) (right : TL T) : R (Raw T) := do
  if left.shape.isEmpty then
    let s ← idxR left.array 0
    right.leftScalarMulU p s
  else if right.shape.length = 0 then
    let s ← right.getFirstElemU p
    (TL.raw left).rightScalarMulU p s
  else
    elementWiseMulU p (.raw left) right

/-- `/repo/src/tensor/functional/misc.rs` 97-111: one output slot of `bmm_raw`. -/
def bmmEntryU (p : Profile) [Zero T] [Add T] [Mul T] (left right : TL T) (leftIndex rightIndex : List Nat)
    (rows j : Nat) : R T := do
  let rightIndex := rightIndex.set 1 j
  let leftLen := leftIndex.length
  (List.range rows).foldlM (init := (0 : T)) (fun val k => do
    let l ← unwrapR (left.getU p (leftIndex.set (leftLen - 1) k))
    let r ← unwrapR (right.getU p (rightIndex.set 0 k))
    return val + l * r)

/-- `/repo/src/tensor/functional/misc.rs` 46-139 `bmm_raw`. `remaining` is the length of `remaining_slice`: a row is cut off with
`split_at_mut(new_shape[2])` (line 82), which panics if there is too little left. (`left_index_len - 1` and `- 2` do not underflow
because of the assertion in line 58.) What is left at the end stays zero. -/
def bmmRawU (p : Profile) [Zero T] [Add T] [Mul T] (left right : TL T) : R (Raw T) := do
  bmmChecks left right
  let newShape ← bmmShape left right
  let total ← prodU p newShape
  let nb ← idxR newShape 0
  let nrow ← idxR newShape 1
  let ncol ← idxR newShape 2
  let rows ← idxR right.shape 0
  let (array, remaining) ← (List.range nb).foldlM (init := (([] : List T), total)) (fun acc batch =>
    (List.range nrow).foldlM (init := acc) (fun acc i => do
      assertR (decide (ncol ≤ acc.2))
      let row ← (List.range ncol).mapM (fun j =>
        bmmEntryU p left right (bmmLeftIndex left batch i) right.shape rows j)
      return (acc.1 ++ row, acc.2 - ncol)))
  let array := array ++ List.replicate remaining 0
  if left.shape.length = 2 then
    return { array, shape := newShape.drop 1 }
  else
    return { array, shape := newShape }

/-! ## Gradient functions -/

/-- `/repo/src/tensor/functional/element_wise_ops.rs` 160-185: the `loop` of `jvp_from_diagonal_broadcast`. -/
def diagLoopU (p : Profile) [Add T] [Mul T] (diagonal : Raw T) (jvpShape broadcastShape inputShape : List Nat)
    (grad : Raw T) (dim0 : Nat) : Nat → List Nat → List Nat → List T → R (List T)
  | 0, _, _, _ => R.panic .diverge
  | fuel + 1, idx, origIdx, array => do
    let jacIdx1 ← unwrapR (globalIndexU p idx diagonal.shape none)
    let array ← (List.range dim0).foldlM (init := array) (fun array jacIdx0 => do
      let outputIdx ← unwrapR (globalIndexU p origIdx inputShape none)
      let outputJacIdx ← unwrapR (globalIndexU p [jacIdx0, outputIdx] jvpShape none)
      let gradVal ← grad.atU p [jacIdx0, jacIdx1]
      let diagVal ← diagonal.atU p idx
      addAt array outputJacIdx (diagVal * gradVal))
    let (idx, more) ← incrementIndexU p idx diagonal.shape
    if more then
      let (origIdx, moreOrig) ← incrementIndexU p origIdx broadcastShape
      assertR moreOrig
      diagLoopU p diagonal jvpShape broadcastShape inputShape grad dim0 fuel idx origIdx array
    else
      return array

/-- `/repo/src/tensor/functional/element_wise_ops.rs` 130-189 `jvp_from_diagonal_broadcast`; `jvp_shape` is always given. -/
def jvpFromDiagonalBroadcastU (p : Profile) [Zero T] [Add T] [Mul T] (diagonal : Raw T) (jvpShape : List Nat)
    (broadcastShape inputShape : List Nat) (grad : Raw T) : R (Raw T) := do
  debugAssertR p (decide (grad.shape.length ≤ 2))
  let dim0 ← if grad.shape.length ≤ 1 then pure 1 else idxR grad.shape 0
  let s0 ← idxR jvpShape 0
  assertR (dim0 == s0)
  let s1 ← idxR jvpShape 1
  let len ← mulU p s0 s1
  let array ← diagLoopU p diagonal jvpShape broadcastShape inputShape grad dim0
    (iterFuelU p diagonal.shape) (List.replicate diagonal.shape.length 0)
    (List.replicate broadcastShape.length 0) (List.replicate len 0)
  Raw.newU p array jvpShape

/-- `/repo/src/tensor/functional/element_wise_ops.rs` 201-259 `generic_binop_jvp`. -/
def genericBinopJvpU (p : Profile) [Zero T] [Add T] [Mul T] (left right grad : Raw T) (opDerivative : T → T → T) :
    R (List (Raw T)) := do
  let broadcastShape := maxShape left.shape right.shape
  let diagLength ← prodU p broadcastShape
  if grad.shape.length ≥ 2 then
    let g1 ← idxR grad.shape 1
    assertR (g1 == diagLength)
  let dim0 ← gradDim0 grad
  let rightJvpShape := [dim0, right.array.length]
  let leftJvpShape := [dim0, left.array.length]
  let array ← forIndicesU p broadcastShape [] (fun acc idx => do
    let l ← unwrapR (left.getU p idx)
    let r ← unwrapR (right.getU p idx)
    return acc ++ [opDerivative l r])
  let diag ← Raw.newU p array [1, diagLength]
  debugAssertR p (diag.array.length == diagLength)
  let leftJvp ← jvpFromDiagonalBroadcastU p diag leftJvpShape broadcastShape left.shape grad
  let rightJvp ← jvpFromDiagonalBroadcastU p diag rightJvpShape broadcastShape right.shape grad
  return [leftJvp, rightJvp]

/-- `/repo/src/tensor/functional/element_wise_ops.rs` 191-199 `add_jvp`. -/
def addJvpU (p : Profile) [Zero T] [One T] [Add T] [Mul T] (tensors grads : List (Raw T)) : R (List (Raw T)) := do
  assertR (tensors.length == 2)
  assertR (grads.length == 1)
  let left ← idxR tensors 0
  let right ← idxR tensors 1
  let grad ← idxR grads 0
  genericBinopJvpU p left right grad (fun _ _ => 1)

/-- `/repo/src/tensor/functional/element_wise_ops.rs` 360-394 `generic_unary_jvp`. -/
def genericUnaryJvpU (p : Profile) [Zero T] [Add T] [Mul T] (tensor grad : Raw T) (opDerivative : T → T) :
    R (List (Raw T)) := do
  let diagLength := tensor.array.length
  let dim0 ← gradDim0 grad
  let jvpShape := [dim0, diagLength]
  let array ← forIndicesU p tensor.shape [] (fun acc idx => do
    let v ← unwrapR (tensor.getU p idx)
    return acc ++ [opDerivative v])
  let diag ← Raw.newU p array [1, diagLength]
  let jvp ← jvpFromDiagonalBroadcastU p diag jvpShape tensor.shape tensor.shape grad
  return [jvp]

/-- `/repo/src/tensor/rc_tensor.rs` 338-340: the closure of `Neg`. -/
def negJvpU (p : Profile) [Zero T] [One T] [Add T] [Mul T] [Neg T] (tensors grads : List (Raw T)) :
    R (List (Raw T)) := do
  let t ← idxR tensors 0
  let g ← idxR grads 0
  genericUnaryJvpU p t g (fun _ => -1)

/-- `/repo/src/tensor/functional/element_wise_ops.rs` 46-66: the closure of `relu`. -/
def reluJvpU (p : Profile) [Zero T] [One T] [Add T] [Mul T] [LT T] [DecidableLT T] (tensors grads : List (Raw T)) :
    R (List (Raw T)) := do
  assertR (tensors.length == 1)
  assertR (grads.length == 1)
  let t ← idxR tensors 0
  let g ← idxR grads 0
  genericUnaryJvpU p t g reluDeriv

/-- `/repo/src/tensor/functional/element_wise_ops.rs` 336-350 `abs_jvp`. -/
def absJvpU (p : Profile) [Zero T] [One T] [Add T] [Mul T] [Sub T] [LE T] [DecidableLE T]
    (tensors grads : List (Raw T)) : R (List (Raw T)) := do
  assertR (tensors.length == 1)
  assertR (grads.length == 1)
  let g ← idxR grads 0
  assertR (g.shape.length == 2)
  let t ← idxR tensors 0
  genericUnaryJvpU p t g absDeriv

/-- `/repo/src/tensor/functional/element_wise_ops.rs` 84-110 `tanh_derivative` with `full_jacobian_output = true`; `length * length` is the
capacity. -/
def tanhJacobianU (p : Profile) [Zero T] [One T] [Sub T] [RealFn T] (tensor : Raw T) : R (Raw T) := do
  let length ← prodU p tensor.shape
  let _ ← mulU p length length
  let array ← (List.range length).foldlM (init := ([] : List T)) (fun acc i =>
    (List.range length).foldlM (init := acc) (fun acc j =>
      if i = j then do
        let x ← idxR tensor.array i
        return acc ++ [tanhDerivFn x]
      else return acc ++ [0]))
  Raw.newU p array [length, length]

/-- `t.is_scalar() || t.shape().iter().product::<usize>() == 1` -/
def oneElemU (p : Profile) (t : Raw T) : R Bool := do
  if t.isScalar then return true
  else return (← prodU p t.shape) == 1

/-- `/repo/src/tensor/autograd/jvp.rs` 56-70 `jvp_from_full_jacobians`. -/
def jvpFromFullJacobiansU (p : Profile) [Zero T] [Add T] [Mul T] (left right : Raw T) : R (Raw T) := do
  let some ← do
    if ← oneElemU p right then pure true else oneElemU p left
  if some then
    assertR (← oneElemU p left)
    mulRawU p left (.raw right)
  else
    bmmRawU p (.raw left) (.raw right)

/-- `/repo/src/tensor/functional/element_wise_ops.rs` 72-81 `tanh_derivative_outer`. -/
def tanhJvpU (p : Profile) [Zero T] [One T] [Add T] [Mul T] [Sub T] [RealFn T] (tensors grads : List (Raw T)) :
    R (List (Raw T)) := do
  assertR (tensors.length == 1)
  assertR (grads.length == 1)
  let t ← idxR tensors 0
  let jacobian ← tanhJacobianU p t
  let g ← idxR grads 0
  let newGrad ← jvpFromFullJacobiansU p g jacobian
  return [newGrad]

/-- `/repo/src/tensor/autograd/jvp.rs` 72-79 `ones`, the gradient function of `sum`. -/
def onesJvpU (p : Profile) [One T] (tensors grads : List (Raw T)) : R (List (Raw T)) := do
  assertR (tensors.length == 1)
  assertR (grads.length == 1)
  let t ← idxR tensors 0
  let length1 ← prodU p t.shape
  let g ← idxR grads 0
  let length2 ← prodU p g.shape
  return [← Raw.newWithFillerU p [length2, length1] 1]

/-- `/repo/src/tensor/functional/misc.rs` 362-374 `dot_jvp`. -/
def dotJvpU (p : Profile) [Zero T] [Add T] [Mul T] (inputs jacobians : List (Raw T)) : R (List (Raw T)) := do
  assertR (inputs.length == 2 && jacobians.length == 1)
  let left ← idxR inputs 0
  let right ← idxR inputs 1
  let jacobian ← idxR jacobians 0
  let leftJvp ← jvpFromFullJacobiansU p jacobian right
  let rightJvp ← jvpFromFullJacobiansU p jacobian left
  return [leftJvp, rightJvp]

/-- `/repo/src/tensor/functional/misc.rs` 191-196: segment `slice_idx` receives `(global_idx, value)`. -/
def segmentWriteU (p : Profile) [Add T] (array : List T) (sliceIdx globalIdx : Nat) (value : T) : R (List T) := do
  let (start, len) ← idxR (rchunks array.length) sliceIdx
  let before ← mulU p sliceIdx segWidth
  let localIdx ← subU p globalIdx before
  assertR (decide (localIdx < len))
  addAt array (start + localIdx) value

/-- `/repo/src/tensor/functional/misc.rs` 222-252: the checks and shapes of `bmm_jvp`. -/
def bmmJvpShapesU (p : Profile) (a b jac : Raw T) : R BmmJvpShapes := do
  let a1 ← idxR a.shape 1
  let b0 ← idxR b.shape 0
  assertR (a1 == b0)
  let a0 ← idxR a.shape 0
  let b1 ← idxR b.shape 1
  let out ← mulU p a0 b1
  let left ← mulU p a0 a1
  let j0 ← idxR jac.shape 0
  let right ← mulU p b0 b1
  return { bmmOutput := [a0, b1], leftJacobian := [out, left], leftOutput := [j0, left], rightOutput := [j0, right] }

/-- `/repo/src/tensor/functional/misc.rs` 272-318: the closure spawned for `(i, k, j)`. -/
def bmmJvpTaskU (p : Profile) [Mul T] (a b jac : Raw T) (sh : BmmJvpShapes) (i k j : Nat) : R (List (Msg T)) := do
  let selfJacIdx0 ← unwrapR (globalIndexU p [i, j] sh.bmmOutput none)
  let leftJacIdx1 ← unwrapR (globalIndexU p [i, k] a.shape none)
  let rightJacIdx1 ← unwrapR (globalIndexU p [k, j] b.shape none)
  let lj0 ← idxR sh.leftJacobian 0
  assertR (decide (selfJacIdx0 < lj0))
  let jac1 ← idxR jac.shape 1
  assertR (decide (selfJacIdx0 < jac1))
  let lj1 ← idxR sh.leftJacobian 1
  assertR (decide (leftJacIdx1 < lj1))
  let jac0 ← idxR jac.shape 0
  (List.range jac0).foldlM (init := ([] : List (Msg T))) (fun msgs inputJacIdx => do
    let tmpLeft ← unwrapR (globalIndexU p [inputJacIdx, leftJacIdx1] sh.leftOutput none)
    let jv ← jac.atU p [inputJacIdx, selfJacIdx0]
    let bv ← b.atU p [k, j]
    let tmpRight ← unwrapR (globalIndexU p [inputJacIdx, rightJacIdx1] sh.rightOutput none)
    let av ← a.atU p [i, k]
    return msgs ++ [
      { right := false, globalIdx := tmpLeft, val := jv * bv },
      { right := true, globalIdx := tmpRight, val := jv * av }])

/-- `/repo/src/tensor/functional/misc.rs` 263-323: the triple loop spawning the tasks. -/
def bmmJvpTasksU (p : Profile) [Mul T] (a b jac : Raw T) (sh : BmmJvpShapes) : R (List (List (Msg T))) := do
  let a0 ← idxR a.shape 0
  let a1 ← idxR a.shape 1
  let b1 ← idxR b.shape 1
  (List.range a0).foldlM (init := ([] : List (List (Msg T)))) (fun acc i =>
    (List.range a1).foldlM (init := acc) (fun acc k =>
      (List.range b1).foldlM (init := acc) (fun acc j => do
        let msgs ← bmmJvpTaskU p a b jac sh i k j
        return acc ++ [msgs])))

/-- Deliver one message to its segment (`/repo/src/tensor/functional/misc.rs` 173-176, 191-196). -/
def deliverU (p : Profile) [Add T] (arrays : List T × List T) (m : Msg T) : R (List T × List T) := do
  if m.right then
    let seg ← senderOf arrays.2.length m.globalIdx
    let r ← segmentWriteU p arrays.2 seg m.globalIdx m.val
    return (arrays.1, r)
  else
    let seg ← senderOf arrays.1.length m.globalIdx
    let l ← segmentWriteU p arrays.1 seg m.globalIdx m.val
    return (l, arrays.2)

/-- `/repo/src/tensor/functional/misc.rs` 211-331 `bmm_jvp`, with the schedule of `bmmJvp`. -/
def bmmJvpU (p : Profile) [Zero T] [Add T] [Mul T] (inputs jacobians : List (Raw T)) : R (List (Raw T)) := do
  assertR (inputs.length == 2 && jacobians.length == 1)
  let a ← idxR inputs 0
  let b ← idxR inputs 1
  let jac ← idxR jacobians 0
  let sh ← bmmJvpShapesU p a b jac
  let leftLength ← prodU p sh.leftOutput
  let rightLength ← prodU p sh.rightOutput
  let tasks ← bmmJvpTasksU p a b jac sh
  let (leftArray, rightArray) ← tasks.flatten.foldlM (deliverU p)
    (List.replicate leftLength (0 : T), List.replicate rightLength (0 : T))
  let l ← Raw.newU p leftArray sh.leftOutput
  let r ← Raw.newU p rightArray sh.rightOutput
  return [l, r]

/-! ## Operations on tensors with history -/

/-- A function of one operand with history. -/
def unaryTU (p : Profile) (h : Heap T) (t : Nat) (f : T → T) (kind : JvpKind) : R (Heap T × Nat) := do
  let n ← h.node t
  let val ← genericUnaryOpU p (.raw n.val) f
  return h.alloc { val, grad := none, gradFn := some { inputs := [t], kind } }

/-- `&a + &b`: `/repo/src/tensor/rc_tensor.rs` 266-275, 284-295. -/
def addTU (p : Profile) [Zero T] [Add T] (h : Heap T) (l r : Nat) : R (Heap T × Nat) := do
  let ln ← h.node l
  let rn ← h.node r
  let val ← addRawU p (.raw ln.val) (.raw rn.val)
  return h.alloc { val, grad := none, gradFn := some { inputs := [l, r], kind := .add } }

/-- `-&a`: `/repo/src/tensor/rc_tensor.rs` 334-344. -/
def negTU (p : Profile) [Neg T] (h : Heap T) (t : Nat) : R (Heap T × Nat) := unaryTU p h t (fun v => -v) .neg

/-- `a - b`: `/repo/src/tensor/rc_tensor.rs` 304-307, 315-317, 324-326. -/
def subTU (p : Profile) [Zero T] [Add T] [Neg T] (h : Heap T) (l r : Nat) : R (Heap T × Nat) := do
  let (h, n) ← negTU p h r
  addTU p h l n

/-- `sum`: `/repo/src/tensor/rc_tensor.rs` 181-189, `raw_tensor.rs` 318-329. -/
def sumTU (p : Profile) [Zero T] [One T] [Add T] (h : Heap T) (t : Nat) (gradFn : Option Deriv) : R (Heap T × Nat) := do
  let n ← h.node t
  let val ← (TL.raw n.val).sumU p
  let ones ← Raw.newWithFillerU p n.val.shape 1
  let (h, g) := h.leaf ones
  return h.alloc { val, grad := some g, gradFn }

/-- `a.bmm(&b)`: `/repo/src/tensor/rc_tensor.rs` 206-225. -/
def bmmTU (p : Profile) [Zero T] [Add T] [Mul T] (h : Heap T) (l r : Nat) : R (Heap T × Nat) := do
  let ln ← h.node l
  let rn ← h.node r
  let val ← bmmRawU p (.raw ln.val) (.raw rn.val)
  return h.alloc { val, grad := none, gradFn := some { inputs := [l, r], kind := .bmm } }

/-- `a * b`: `/repo/src/tensor/rc_tensor.rs` 355-358, 369-372. -/
def mulTU (p : Profile) [Mul T] (h : Heap T) (l r : Nat) : R (Heap T × Nat) := do
  let ln ← h.node l
  let rn ← h.node r
  let val ← mulRawU p ln.val (.raw rn.val)
  return h.leaf val

/-- The view: `/repo/src/tensor/rc_tensor.rs` 95-97, 203-205, `tensor_view.rs` 66-79, 139-141. -/
def VExpr.evalU (p : Profile) (h : Heap T) : VExpr → R (View T)
  | .view t ranges => do
    let n ← h.node t
    View.newU p n.val ranges
  | .reshape v shape => do
    let v ← v.evalU p h
    v.reshapeU p shape
  | .slice v ranges => do
    let v ← v.evalU p h
    v.sliceU p ranges

/-- The operand's data. -/
def Opnd.evalU (p : Profile) (h : Heap T) : Opnd → R (TL T)
  | .tensor t => do return .raw (← h.node t).val
  | .view v => do return .view (← v.evalU p h)

/-- `a.bmm(&v)`: `/repo/src/tensor/rc_tensor.rs` 214-225. -/
def bmmViewTU (p : Profile) [Zero T] [Add T] [Mul T] (h : Heap T) (l : Nat) (v : VExpr) : R (Heap T × Nat) := do
  let ln ← h.node l
  let v ← v.evalU p h
  let val ← bmmRawU p (.raw ln.val) (.view v)
  let rv ← (TL.view v).toTensorU p
  let (h, rid) := h.leaf rv
  return h.alloc { val, grad := none, gradFn := some { inputs := [l, rid], kind := .bmm } }

/-- Data of the result of a function of two operands that keeps no history. -/
def RawBin.valU (p : Profile) [Zero T] [Add T] [Mul T] : RawBin → TL T → TL T → R (Raw T)
  | .add => addRawU p
  | .mul => elementWiseMulU p
  | .dot => dotRaw
  | .bmm => bmmRawU p

/-- `update_grad`: `/repo/src/tensor/raw_tensor.rs` 307-313. -/
def updateGradU (p : Profile) [Zero T] [Add T] (h : Heap T) (t grad : Nat) : R (Heap T) := do
  let n ← h.node t
  let (h, newGrad) ← match n.grad with
    | none => pure (h, grad)
    | some otherGrad => addTU p h otherGrad grad
  return h.set t { n with grad := some newGrad }

section backward

variable [Zero T] [One T] [Add T] [Mul T] [Sub T] [Neg T] [LT T] [DecidableLT T] [LE T] [DecidableLE T]
  [RealFn T]

/-- Call of the stored `jacobian_vector_product`. -/
def applyJvpU (p : Profile) : JvpKind → List (Raw T) → List (Raw T) → R (List (Raw T))
  | .add => addJvpU p
  | .neg => negJvpU p
  | .relu => reluJvpU p
  | .abs => absJvpU p
  | .tanh => tanhJvpU p
  | .sum => onesJvpU p
  | .bmm => bmmJvpU p
  | .dot => dotJvpU p

/-- `/repo/src/tensor/autograd/jvp.rs` 30-51 `compute_jvp`. -/
def computeJvpU (p : Profile) : Nat → Heap T → Deriv → List (Raw T) → R (Heap T)
  | 0, _, _, _ => R.panic .diverge
  | fuel + 1, h, d, outerGrads => do
    let inputs ← d.inputs.mapM (fun i => do return (← h.node i).val)
    let selfGrads ← applyJvpU p d.kind inputs outerGrads
    (selfGrads.zip d.inputs).foldlM (init := h) (fun h (grad, input) => do
      let n ← h.node input
      debugAssertR p (grad.array.length == n.val.array.length)
      let shapedGrad ← Raw.newU p grad.array n.val.shape
      let (h, g) := h.leaf shapedGrad
      let h ← updateGradU p h input g
      match n.gradFn with
      | some d' => computeJvpU p fuel h d' [grad]
      | none => return h)

/-- `/repo/src/tensor/rc_tensor.rs` 50-60 `backward`. -/
def backwardU (p : Profile) (h : Heap T) (t : Nat) : R (Heap T) := do
  let n ← h.node t
  assertR (n.val.array.length == 1)
  let d ← unwrapO n.gradFn
  computeJvpU p (h.length + 1) h d [Raw.scalar 1]

/-- Execute one operation; see `Op.run`. -/
def Op.runU (p : Profile) (h : Heap T) : Op T → R (Heap T)
  | .new array shape => do return (h.leaf (← Raw.newU p array shape)).1
  | .filler shape v => do return (h.leaf (← Raw.newWithFillerU p shape v)).1
  | .scalar v => return (h.leaf (Raw.scalar v)).1
  | .default => return (h.leaf Raw.default).1
  | .add l r => do return (← addTU p h l r).1
  | .sub l r => do return (← subTU p h l r).1
  | .neg t => do return (← negTU p h t).1
  | .mul l r => do return (← mulTU p h l r).1
  | .relu t => do return (← unaryTU p h t reluFn .relu).1
  | .tanh t => do return (← unaryTU p h t (fun x => RealFn.tanh x) .tanh).1
  | .abs t => do return (← unaryTU p h t (fun x => RealFn.abs x) .abs).1
  | .sum t => do return (← sumTU p h t (some { inputs := [t], kind := .sum })).1
  | .bmm l r => do return (← bmmTU p h l r).1
  | .dot l r => do return (← dotT h l r).1
  | .viewToTensor v => do return (h.leaf (← (TL.view (← v.evalU p h)).toTensorU p)).1
  | .viewSum v => do return (h.leaf (← (TL.view (← v.evalU p h)).sumU p)).1
  | .bmmView l v => do return (← bmmViewTU p h l v).1
  | .viewBmm v r => do
    let v ← v.evalU p h
    let rn ← h.node r
    return (h.leaf (← bmmRawU p (.view v) (.raw rn.val))).1
  | .viewBmmView v w => do
    let v ← v.evalU p h
    let w ← w.evalU p h
    return (h.leaf (← bmmRawU p (.view v) (.view w))).1
  | .mulView l v => do
    let ln ← h.node l
    let v ← v.evalU p h
    return (h.leaf (← mulRawU p ln.val (.view v))).1
  | .rawBin k l r => do
    let l ← l.evalU p h
    let r ← r.evalU p h
    return (h.leaf (← k.valU p l r)).1
  | .rawSub l r => do
    let ln ← h.node l
    let rn ← h.node r
    return (h.leaf (← subRawU p (.raw ln.val) (.raw rn.val))).1
  | .rawUnary f x => do
    let x ← x.evalU p h
    return (h.leaf (← genericUnaryOpU p x f)).1
  | .leftMul s x => do
    let x ← x.evalU p h
    return (h.leaf (← x.leftScalarMulU p s)).1
  | .rightMul x s => do
    let x ← x.evalU p h
    return (h.leaf (← x.rightScalarMulU p s)).1
  | .rawSum t => do return (← sumTU p h t none).1
  | .deepClone t => do return (← deepCloneT h t).1
  | .rawClone t => do return (← rawCloneT h t).1
  | .updateGrad t g => do
    let _ ← h.node g
    updateGradU p h t g
  | .zeroGrad t => RL.zeroGrad h t
  | .backward t => backwardU p h t

/-- Execute a history. -/
def runOpsU (p : Profile) (h : Heap T) (ops : List (Op T)) : R (Heap T) := ops.foldlM (Op.runU p) h

end backward

end RL
