import Verif.Model.Tensor

/-!
# Model of `usize` arithmetic

Everywhere else `usize` is `Nat`. Here the functions with arithmetic on `usize` are modelled once more with 64 bit numbers: with overflow
checks (debug profile) an operation whose result is not a `usize` panics, without (release profile) it is reduced modulo `2 ^ 64`. That
the memory for a `Vec` can be allocated is assumed.
-/

namespace RL

/-- Cargo profiles: `overflow-checks` is on in `debug` and off in `release`. -/
inductive Profile where
  | debug
  | release
deriving DecidableEq, Repr

/-- `usize::MAX + 1` on a machine with 64 bits. -/
def usizeEnd : Nat := 18446744073709551616

/-- A result of an addition or multiplication. -/
def wrapU (p : Profile) (x : Nat) : R Nat :=
  if x < usizeEnd then .ok x else match p with
    | .debug => R.panic .overflow
    | .release => .ok (x % usizeEnd)

/-- `a * b` -/
def mulU (p : Profile) (a b : Nat) : R Nat := wrapU p (a * b)

/-- `a + b` -/
def addU (p : Profile) (a b : Nat) : R Nat := wrapU p (a + b)

/-- `a - b` -/
def subU (p : Profile) (a b : Nat) : R Nat :=
  if b ≤ a then .ok (a - b) else match p with
    | .debug => R.panic .overflow
    | .release => .ok (usizeEnd + a - b)

/-- The loops `for dim in shape { len *= dim }` and `shape.iter().product()` (which has the overflow checks of its caller). -/
def prodU (p : Profile) (shape : List Nat) : R Nat := shape.foldlM (mulU p) 1

variable {T : Type}

/-- `/repo/src/tensor/raw_tensor.rs` 186-203 `RawTensor::new`. -/
def Raw.newU (p : Profile) (array : List T) (shape : List Nat) : R (Raw T) := do
  let len ← prodU p shape
  assertR (len == array.length)
  return { array, shape }

/-- `/repo/src/tensor/raw_tensor.rs` 154-176 `new_with_filler`. -/
def Raw.newWithFillerU (p : Profile) (shape : List Nat) (filler : T) : R (Raw T) :=
  if shape.isEmpty then return { array := [filler], shape }
  else do
    let total ← prodU p shape
    return { array := List.replicate total filler, shape }

/-- `/repo/src/tensor/utils.rs` 101-116: the loop of `increment_index`; see `incrementLoop`. -/
def incrementLoopU (p : Profile) (index shape : List Nat) : Nat → R (List Nat × Bool)
  | 0 => return (index, false)
  | i + 1 => do
    let v ← idxR index i
    let dim ← idxR shape i
    let last ← subU p dim 1
    if v < last then
      return (resetTrailing (index.set i (← addU p v 1)) i, true)
    else
      incrementLoopU p index shape i

/-- `/repo/src/tensor/utils.rs` 101-116 `increment_index`. -/
def incrementIndexU (p : Profile) (index shape : List Nat) : R (List Nat × Bool) :=
  incrementLoopU p index shape index.length

/-- `/repo/src/tensor/utils.rs` 197-245: the loop of `global_index`; see `globalIndexLoop`. -/
def globalIndexLoopU (p : Profile) (shapeLen : Nat) (offset : Option (List SliceRange)) :
    List (Nat × Nat) → Nat → Nat → Nat → R Nat
  | [], _, globalIdx, _ => return globalIdx
  | (dim, idxDim) :: rest, n, globalIdx, multiplier => do
    let i ← subU p (← subU p shapeLen n) 1
    if dim = 1 then
      globalIndexLoopU p shapeLen offset rest (n + 1) globalIdx multiplier
    else do
      let (shapedDim, shiftedIdx) ← match offset with
        | some rangeVec => do
          let r ← idxR rangeVec i
          let len ← subU p r.stop r.start
          let shifted ← addU p r.start idxDim
          pure (len, shifted)
        | none => pure (dim, idxDim)
      if shapedDim ≤ idxDim then R.err .viewBounds
      else if dim ≤ shiftedIdx then R.err .dimBounds
      else do
        let step ← mulU p shiftedIdx multiplier
        let globalIdx ← addU p globalIdx step
        let multiplier ← mulU p multiplier dim
        globalIndexLoopU p shapeLen offset rest (n + 1) globalIdx multiplier

/-- `/repo/src/tensor/utils.rs` 177-247 `global_index`. -/
def globalIndexU (p : Profile) (index shape : List Nat) (offset : Option (List SliceRange)) : R Nat :=
  if index.length < shape.length ∧
      (shape.take (shape.length - index.length)).any (fun dim => decide (dim > 1)) then
    R.err .tooShort
  else
    globalIndexLoopU p shape.length offset (shape.reverse.zip index.reverse) 0 0 1

/-- `/repo/src/tensor/raw_tensor.rs` 232-240 `get`. -/
def Raw.getU (p : Profile) (t : Raw T) (index : List Nat) : R T := do
  let globalIdx ← globalIndexU p index t.shape none
  idxR t.array globalIdx

/-- `/repo/src/tensor/raw_tensor.rs` 242-251 `get_with_offset`. -/
def Raw.getWithOffsetU (p : Profile) (t : Raw T) (index : List Nat) (offset : List SliceRange) : R T := do
  let globalIdx ← globalIndexU p index t.shape (some offset)
  idxR t.array globalIdx

/-- `/repo/src/tensor/tensor_view.rs` 49-55: the loop of `TensorView::new`. -/
def viewShapeU (p : Profile) : List (SliceRange × Nat) → R (List Nat)
  | [] => return []
  | (r, dim) :: rest => do
    assertR (decide (r.stop ≤ dim))
    let d ← subU p r.stop r.start
    let ds ← viewShapeU p rest
    return d :: ds

/-- `/repo/src/tensor/tensor_view.rs` 47-64 `TensorView::new`. -/
def View.newU (p : Profile) (tensor : Raw T) (offset : List SliceRange) : R (View T) := do
  assertR (offset.length == tensor.shape.length)
  let shape ← viewShapeU p (offset.zip tensor.shape)
  return { tensor, shape, offset }

/-- `/repo/src/tensor/tensor_view.rs` 66-79 `reshape`. -/
def View.reshapeU (p : Profile) (v : View T) (shape : List Nat) : R (View T) := do
  let a ← prodU p v.shape
  let b ← prodU p shape
  assertR (a == b)
  return { v with shape }

/-- `/repo/src/tensor/tensor_view.rs` 127-133 `get`. -/
def View.getU (p : Profile) (v : View T) (index : List Nat) : R T := do
  let idx ← unwrapR (globalIndexU p index v.tensor.shape (some v.offset))
  idxR v.tensor.array idx

end RL
