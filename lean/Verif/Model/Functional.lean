import Verif.Model.Tensor

/-!
# Model of the forward operations

`/repo/src/tensor/functional/element_wise_ops.rs`, `/repo/src/tensor/functional/misc.rs` and the operator
implementations in `/repo/src/tensor/raw_tensor.rs`.
-/

namespace RL

variable {T : Type}

/-- the body of the `zip_longest` loop of `max_shape` (`element_wise_ops.rs` 265-278) on lists already
reversed -/
def zipLongestMax : List Nat → List Nat → List Nat
  | [], r => r
  | l, [] => l
  | a :: l, b :: r => max a b :: zipLongestMax l r

/-- `/repo/src/tensor/functional/element_wise_ops.rs` 261-279 `max_shape`. -/
def maxShape (leftShape rightShape : List Nat) : List Nat :=
  (zipLongestMax leftShape.reverse rightShape.reverse).reverse

/-- `/repo/src/tensor/functional/element_wise_ops.rs` 292-321 `generic_binop_raw`. An `Err` of `set` is
turned into a panic (line 316-318). -/
def genericBinopRaw [Zero T] (left right : TL T) (op : T → T → T) : R (Raw T) := do
  assertR (left.broadcastable right.shape)
  let shape := maxShape left.shape right.shape
  forIndices shape (Raw.newWithFiller shape 0) (fun result idx => do
    let l ← unwrapR (left.get idx)
    let r ← unwrapR (right.get idx)
    unwrapR (result.set idx (op l r)))

/-- `/repo/src/tensor/functional/element_wise_ops.rs` 281-290 `add_raw`; values of `RawTensor + _`
(`raw_tensor.rs` 389-391) and `RcTensor + _` (`rc_tensor.rs` 266-275, 284-295). -/
def addRaw [Zero T] [Add T] (left right : TL T) : R (Raw T) :=
  genericBinopRaw left right (fun l r => l + r)

/-- `/repo/src/tensor/functional/element_wise_ops.rs` 396-414 `generic_unary_op`. -/
def genericUnaryOp (x : TL T) (op : T → T) : R (Raw T) := do
  let tensor ← x.toTensor
  let shape := x.shape
  let length := (TL.raw tensor).count
  let (array, _) ← (List.range length).foldlM (init := (([] : List T), List.replicate shape.length 0))
    (fun (array, idx) _ => do
      let elem ← unwrapR (x.get idx)
      let (idx', _) ← incrementIndex idx shape
      return (array ++ [op elem], idx'))
  Raw.new array tensor.shape

/-- `/repo/src/tensor/raw_tensor.rs` 270-272 `Neg for &RawTensor`, value of `Neg for &RcTensor`. -/
def negRaw [Neg T] (x : TL T) : R (Raw T) := genericUnaryOp x (fun v => -v)

/-- value of `tanh`, `/repo/src/tensor/functional/element_wise_ops.rs` 23-36. -/
def tanhRaw [RealFn T] (x : TL T) : R (Raw T) := genericUnaryOp x (fun t => RealFn.tanh t)

/-- the scalar function of `relu`, `/repo/src/tensor/functional/element_wise_ops.rs` 43. -/
def reluFn [Zero T] [LT T] [DecidableLT T] (t : T) : T := if t < 0 then 0 else t

/-- value of `relu`, `/repo/src/tensor/functional/element_wise_ops.rs` 38-70. -/
def reluRaw [Zero T] [LT T] [DecidableLT T] (x : TL T) : R (Raw T) := genericUnaryOp x reluFn

/-- `/repo/src/tensor/functional/element_wise_ops.rs` 352-358 `abs_raw`. -/
def absRaw [RealFn T] (x : TL T) : R (Raw T) := genericUnaryOp x (fun t => RealFn.abs t)

/-- `/repo/src/tensor/raw_tensor.rs` 364-367 `Sub for &RawTensor`: the right operand is negated, then added.
Values of `Sub` on `RcTensor` (`rc_tensor.rs` 304-307, 315-317, 324-326). -/
def subRaw [Zero T] [Add T] [Neg T] (left right : TL T) : R (Raw T) := do
  let negative ← negRaw right
  addRaw left (.raw negative)

/-- `/repo/src/tensor/functional/misc.rs` 333-349 `element_wise_multiplication`. The two zipped
`ElementIterator`s have the same shape after the assertion, so they advance over the same indices; they are
modelled by one index loop. -/
def elementWiseMul [Mul T] (left right : TL T) : R (Raw T) := do
  let leftShape := left.shape
  assertR (left.sameShape right)
  let array ← forIndices leftShape [] (fun acc idx => do
    let x ← unwrapR (left.get idx)
    let y ← unwrapR (right.get idx)
    return acc ++ [x * y])
  Raw.new array leftShape

/-- `/repo/src/tensor/raw_tensor.rs` 402-410 `Mul for &RawTensor`; values of `Mul` on `RcTensor`
(`rc_tensor.rs` 355-358, 369-372). -/
def mulRaw [Mul T] (left : Raw T) (right : TL T) : R (Raw T) := do
  if left.shape.isEmpty then
    let s ← idxR left.array 0
    return right.leftScalarMul s
  else if right.shape.length = 0 then
    let s ← right.getFirstElem
    return (TL.raw left).rightScalarMul s
  else
    elementWiseMul (.raw left) right

/-- `/repo/src/tensor/functional/misc.rs` 24-43 `dot_raw`: the loop runs over the arrays of the
*underlying* tensors. -/
def dotRaw [Zero T] [Add T] [Mul T] (left right : TL T) : R (Raw T) := do
  assertR (left.sameShape right)
  let result ← (List.range left.tensor.array.length).foldlM (init := (0 : T)) (fun result i => do
    let l ← idxR left.tensor.array i
    let r ← idxR right.tensor.array i
    return result + l * r)
  return { array := [result], shape := [1] }

/-- `/repo/src/tensor/functional/misc.rs` 97-111: the closure computing one output slot of `bmm_raw`
(`left_index2`, `right_index2` are its captured copies). -/
def bmmEntry [Zero T] [Add T] [Mul T] (left right : TL T) (leftIndex rightIndex : List Nat)
    (rows j : Nat) : R T := do
  let rightIndex := rightIndex.set 1 j
  let leftLen := leftIndex.length
  (List.range rows).foldlM (init := (0 : T)) (fun val k => do
    let l ← unwrapR (left.get (leftIndex.set (leftLen - 1) k))
    let r ← unwrapR (right.get (rightIndex.set 0 k))
    return val + l * r)

/-- `/repo/src/tensor/functional/misc.rs` 58-61: the assertions of `bmm_raw`. -/
def bmmChecks (left right : TL T) : R Unit := do
  assertR (decide (2 ≤ left.shape.length))
  assertR (right.shape.length == 2)
  let l ← idxR left.shape (left.shape.length - 1)
  let r ← idxR right.shape (right.shape.length - 2)
  assertR (l == r)

/-- `/repo/src/tensor/functional/misc.rs` 62-66: `new_shape`. -/
def bmmShape (left right : TL T) : R (List Nat) := do
  let n ← idxR right.shape 1
  let l0 ← idxR left.shape 0
  if left.shape.length = 2 then return [1, l0, n]
  else
    let l1 ← idxR left.shape 1
    return [l0, l1, n]

/-- `/repo/src/tensor/functional/misc.rs` 71-85: `left_index` for one output row. -/
def bmmLeftIndex (left : TL T) (batch i : Nat) : List Nat :=
  let leftIndex := left.shape
  let leftIndex := if left.shape.length = 3 then leftIndex.set 0 batch else leftIndex
  leftIndex.set (leftIndex.length - 2) i

/-- `/repo/src/tensor/functional/misc.rs` 46-139 `bmm_raw`. The rows of `result_array` are cut off
one after the other with `split_at_mut(new_shape[2])`, and each row into single slots, so slot `j` of row
`(batch, i)` is position `(batch * new_shape[1] + i) * new_shape[2] + j`; here the rows are concatenated.
The tasks of a row run in parallel on disjoint slots; see `Verif.Model.BmmPar` for the machine with
explicit interleavings. -/
def bmmRaw [Zero T] [Add T] [Mul T] (left right : TL T) : R (Raw T) := do
  bmmChecks left right
  let newShape ← bmmShape left right
  let nb ← idxR newShape 0
  let nrow ← idxR newShape 1
  let ncol ← idxR newShape 2
  let rows ← idxR right.shape 0
  let array ← (List.range nb).foldlM (init := ([] : List T)) (fun acc batch =>
    (List.range nrow).foldlM (init := acc) (fun acc i => do
      let row ← (List.range ncol).mapM (fun j =>
        bmmEntry left right (bmmLeftIndex left batch i) right.shape rows j)
      return acc ++ row))
  if left.shape.length = 2 then
    return { array, shape := newShape.drop 1 }
  else
    return { array, shape := newShape }

end RL
