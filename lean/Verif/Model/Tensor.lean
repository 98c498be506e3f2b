import Verif.Model.Utils

/-!
# Model of `RawTensor` / `RcTensor` data, `TensorView` and `TensorLike`

`/repo/src/tensor/raw_tensor.rs`, `/repo/src/tensor/tensor_view.rs`, `/repo/src/tensor/tensor_like.rs`.
The fields `grad` and `grad_fn` live in the graph model (`Verif.Model.Graph`).
-/

namespace RL

/-- `/repo/src/tensor/raw_tensor.rs` 40-49, fields `array` and `shape`. -/
structure Raw (T : Type) where
  array : List T
  shape : List Nat
deriving DecidableEq, Repr

variable {T : Type}

/-- `/repo/src/tensor/raw_tensor.rs` 186-203 `RawTensor::new` (and `rc_tensor.rs` 90-93). -/
def Raw.new (array : List T) (shape : List Nat) : R (Raw T) := do
  assertR (shape.foldl (fun len dim => len * dim) 1 == array.length)
  return { array, shape }

/-- `/repo/src/tensor/raw_tensor.rs` 154-176 `new_with_filler`. -/
def Raw.newWithFiller (shape : List Nat) (filler : T) : Raw T :=
  if shape.isEmpty then { array := [filler], shape }
  else { array := List.replicate (shape.foldl (fun total dim => total * dim) 1) filler, shape }

/-- `/repo/src/tensor/raw_tensor.rs` 178-184 `scalar`, 417-423 `From<T>`. -/
def Raw.scalar (value : T) : Raw T := { array := [value], shape := [] }

/-- `/repo/src/tensor/raw_tensor.rs` 75-87 `RawTensor::default()`: shape `[]` as a scalar, but no element. -/
def Raw.default : Raw T := { array := [], shape := [] }

/-- `/repo/src/tensor/raw_tensor.rs` 128-130, `rc_tensor.rs` 61-63 `is_scalar`. -/
def Raw.isScalar (t : Raw T) : Bool := t.array.length == 1 && t.shape.isEmpty

/-- `/repo/src/tensor/raw_tensor.rs` 94-110 `From<Vec<U>>`, given the already converted children
(line 95 converts each child with `RawTensor::from`). `all` is lazy, so `shapes[0]` is only evaluated
when `shapes` is non-empty (line 98); line 103 indexes `shapes[0]` unconditionally. -/
def Raw.fromVec (tensors : List (Raw T)) : R (Raw T) := do
  let shapes := tensors.map (fun t => t.shape)
  assertR (shapes.all (fun shape => some shape == shapes[0]?))
  let shape0 ← idxR shapes 0
  return { array := tensors.flatMap (fun t => t.array), shape := shapes.length :: shape0 }

/-- `Vec<Vec<...<T>>>` with `n` levels of `Vec`. -/
def NVec (T : Type) : Nat → Type
  | 0 => T
  | n + 1 => List (NVec T n)

/-- `/repo/src/tensor/raw_tensor.rs` 89-122, 413-424: `RawTensor::from` on `n` nested `Vec`s
(arrays `[U; N]` go through `to_vec`, lines 119-121; `RcTensor::from` wraps, `rc_tensor.rs` 228-258). -/
def Raw.fromNested : (n : Nat) → NVec T n → R (Raw T)
  | 0, v => return Raw.scalar v
  | n + 1, vs => do
    let tensors ← List.mapM (fun u => Raw.fromNested n u) (vs : List (NVec T n))
    Raw.fromVec tensors

/-- `/repo/src/tensor/raw_tensor.rs` 232-240 `get` (and `rc_tensor.rs` 111-113, 177-179). -/
def Raw.get (t : Raw T) (index : List Nat) : R T := do
  let globalIdx ← globalIndex index t.shape none
  idxR t.array globalIdx

/-- `/repo/src/tensor/raw_tensor.rs` 210-218 `set`. -/
def Raw.set (t : Raw T) (index : List Nat) (value : T) : R (Raw T) := do
  let globalIdx ← globalIndex index t.shape none
  if globalIdx < t.array.length then
    return { t with array := t.array.set globalIdx value }
  else R.panic .index

/-- `/repo/src/tensor/raw_tensor.rs` 242-251 `get_with_offset`. -/
def Raw.getWithOffset (t : Raw T) (index : List Nat) (offset : List SliceRange) : R T := do
  let globalIdx ← globalIndex index t.shape (some offset)
  idxR t.array globalIdx

/-- `/repo/src/tensor/raw_tensor.rs` 260-262 `Index`. -/
def Raw.at (t : Raw T) (index : List Nat) : R T := unwrapR (t.get index)

/-- `/repo/src/tensor/raw_tensor.rs` 62-73 `PartialEq` (derived through `Arc` for `RcTensor`). -/
def Raw.eq [BEq T] (a b : Raw T) : Bool :=
  if a.shape != b.shape then false
  else if a.array != b.array then false
  else true

/-- `/repo/src/tensor/tensor_view.rs` 12-27: a base tensor, and `View { shape, offset }`. -/
structure View (T : Type) where
  tensor : Raw T
  shape : List Nat
  offset : List SliceRange
deriving DecidableEq, Repr

/-- `/repo/src/tensor/tensor_view.rs` 49-55: the loop of `TensorView::new` that checks the ranges and
computes the shape, over `offset.iter().zip(tensor.shape().iter())`. -/
def viewShape : List (SliceRange × Nat) → R (List Nat)
  | [] => return []
  | (r, dim) :: rest => do
    assertR (decide (r.stop ≤ dim))
    let d ← subR r.stop r.start
    let ds ← viewShape rest
    return d :: ds

/-- `/repo/src/tensor/tensor_view.rs` 47-64 `TensorView::new`
(`RcTensor::view`, `slice` of tensors: `rc_tensor.rs` 95-97, 203-205, `raw_tensor.rs` 342-344). -/
def View.new (tensor : Raw T) (offset : List SliceRange) : R (View T) := do
  assertR (offset.length == tensor.shape.length)
  let shape ← viewShape (offset.zip tensor.shape)
  return { tensor, shape, offset }

/-- `/repo/src/tensor/tensor_view.rs` 66-79 `reshape`. -/
def View.reshape (v : View T) (shape : List Nat) : R (View T) := do
  assertR (v.shape.prod == shape.prod)
  return { v with shape }

/-- `/repo/src/tensor/tensor_view.rs` 127-133 `get`: note the `unwrap` before the `Ok`. -/
def View.get (v : View T) (index : List Nat) : R T := do
  let idx ← unwrapR (globalIndex index v.tensor.shape (some v.offset))
  idxR v.tensor.array idx

/-- `/repo/src/tensor/tensor_view.rs` 35-39 `Index`. -/
def View.at (v : View T) (index : List Nat) : R T :=
  unwrapR (v.tensor.getWithOffset index v.offset)

/-- `/repo/src/tensor/tensor_view.rs` 139-141 `slice`: the ranges are applied to the *base* tensor. -/
def View.slice (v : View T) (offset : List SliceRange) : R (View T) :=
  View.new v.tensor offset

/-- The implementors of `TensorLike` at data level: `RawTensor`/`RcTensor` and `TensorView`
(`/repo/src/tensor/tensor_like.rs` 13-146). -/
inductive TL (T : Type) where
  | raw (t : Raw T)
  | view (v : View T)
deriving DecidableEq, Repr

/-- `TensorLike::shape`: `raw_tensor.rs` 314-316, `tensor_view.rs` 103-105. -/
def TL.shape : TL T → List Nat
  | .raw t => t.shape
  | .view v => v.shape

/-- `TensorLike::get`: `raw_tensor.rs` 345-347, `tensor_view.rs` 127-133. -/
def TL.get : TL T → List Nat → R T
  | .raw t, index => t.get index
  | .view v, index => v.get index

/-- `TensorLike::tensor`, the underlying tensor: `raw_tensor.rs` 331-333, `tensor_view.rs` 107-110. -/
def TL.tensor : TL T → Raw T
  | .raw t => t
  | .view v => v.tensor

/-- `for elem in ElementIterator::new(x) { body }` (`/repo/src/tensor/utils.rs` 24-51): an `IndexIterator`
whose every index is read with `get(..).unwrap()`. -/
def forElems {σ : Type _} (x : TL T) (init : σ) (body : σ → T → R σ) : R σ :=
  forIndices x.shape init (fun s idx => do
    let e ← unwrapR (x.get idx)
    body s e)

/-- `TensorLike::to_tensor`: `raw_tensor.rs` 339-341, `rc_tensor.rs` 195-197, `tensor_view.rs` 112-118. -/
def TL.toTensor : TL T → R (Raw T)
  | .raw t => return t
  | .view v => do
    let array ← forElems (.view v) [] (fun acc e => return acc ++ [e])
    Raw.new array v.shape

/-- `TensorLike::count`: `raw_tensor.rs` 335-337, `tensor_view.rs` 135-137. -/
def TL.count : TL T → Nat
  | .raw t => t.array.length
  | .view v => v.shape.prod

/-- value of `TensorLike::sum`: `raw_tensor.rs` 318-323, `tensor_view.rs` 120-125
(the gradient side effect of the tensor version is in the graph model). -/
def TL.sum [Zero T] [Add T] : TL T → R (Raw T)
  | .raw t => return Raw.scalar (t.array.foldl (fun acc x => acc + x) 0)
  | .view v => do
    let s ← forElems (.view v) (0 : T) (fun acc x => return acc + x)
    return Raw.scalar s

/-- `TensorLike::slice`: `raw_tensor.rs` 342-344, `rc_tensor.rs` 203-205, `tensor_view.rs` 139-141. -/
def TL.slice : TL T → List SliceRange → R (View T)
  | .raw t, offset => View.new t offset
  | .view v, offset => v.slice offset

/-- `/repo/src/tensor/tensor_like.rs` 37-40 `get_first_elem`. -/
def TL.getFirstElem (x : TL T) : R T := unwrapR (x.get (List.replicate x.shape.length 0))

/-- `/repo/src/tensor/tensor_like.rs` 42-45 `elem`. -/
def TL.elem (x : TL T) : R T := do
  assertR x.shape.isEmpty
  x.getFirstElem

/-- `/repo/src/tensor/tensor_like.rs` 115-121 `same_shape`. -/
def TL.sameShape (x y : TL T) : Bool := x.shape == y.shape

/-- `/repo/src/tensor/tensor_like.rs` 67-73 `left_scalar_multiplication`: the loop runs over the array of the
*underlying* tensor, while the shape is that of `self`. -/
def TL.leftScalarMul [Mul T] (x : TL T) (scalar : T) : Raw T :=
  { array := x.tensor.array.map (fun elem => scalar * elem), shape := x.shape }

/-- `/repo/src/tensor/tensor_like.rs` 75-81 `right_scalar_multiplication`. -/
def TL.rightScalarMul [Mul T] (x : TL T) (scalar : T) : Raw T :=
  { array := x.tensor.array.map (fun elem => elem * scalar), shape := x.shape }

/-- `/repo/src/tensor/tensor_like.rs` 125-141 `broadcastable`. -/
def TL.broadcastable (x : TL T) (newShape : List Nat) : Bool :=
  (x.shape.reverse.zip newShape.reverse).all (fun (d1, d2) => if d1 ≠ d2 then d1 == 1 || d2 == 1 else true)

/-- The comparison `self.get(&idx) != other.get(&idx)` of two `Result<&T, String>`
(`/repo/src/tensor/tensor_view.rs` 170): panics propagate; two `Err`s are compared by kind (by message
text in Rust). -/
def resultNe [BEq T] (a b : R T) : R Bool :=
  match a, b with
  | .error (.panic p), _ => R.panic p
  | _, .error (.panic p) => R.panic p
  | .ok x, .ok y => return x != y
  | .error (.err e), .error (.err f) => return e != f
  | _, _ => return true

/-- `/repo/src/tensor/tensor_view.rs` 169-173: the comparison loop with its early return. -/
def viewEqLoop [BEq T] (a b : TL T) : Nat → IndexIter → R Bool
  | 0, _ => R.panic .diverge
  | fuel + 1, it => do
    let (o, it) ← it.next
    match o with
    | none => return true
    | some idx =>
      if ← resultNe (a.get idx) (b.get idx) then return false
      else viewEqLoop a b fuel it

/-- `/repo/src/tensor/tensor_view.rs` 164-175 `PartialEq<V> for TensorView`. -/
def View.eq [BEq T] (v : View T) (other : TL T) : R Bool :=
  if other.shape != v.shape then return false
  else viewEqLoop (.view v) other (iterFuel v.shape) (IndexIter.new v.shape)

end RL
