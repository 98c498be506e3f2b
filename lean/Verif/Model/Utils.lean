import Verif.Model.Basic

/-!
# Model of `/repo/src/tensor/utils.rs` (indexing) and of `SliceRange`
-/

namespace RL

/-- `/repo/src/tensor/raw_tensor.rs` 18-25. The field `skip` is always 0 and never read; it is left out. -/
structure SliceRange where
  /-- inclusive -/
  start : Nat
  /-- exclusive (`end` in Rust) -/
  stop : Nat
deriving DecidableEq, Repr

/-- `/repo/src/tensor/raw_tensor.rs` 28-35. -/
def SliceRange.new (start stop : Nat) : R SliceRange := do
  assertR (decide (start ≤ stop))
  return { start, stop }

/-- `/repo/src/tensor/utils.rs` 118-122 `reset_trailing_indices`: everything after `position` becomes 0. -/
def resetTrailing (index : List Nat) (position : Nat) : List Nat :=
  index.take (position + 1) ++ (index.drop (position + 1)).map (fun _ => 0)

/-- `/repo/src/tensor/utils.rs` 103-114: the `for i in (0..index.len()).rev()` loop of `increment_index`;
the argument is the number of positions still to visit, so position `i` is visited at argument `i + 1`.
The inner `while` runs at most once, because it decrements `carry` from 1 and `v` is not updated.
`dim - 1` underflows at `dim = 0` (debug profile: panic). Returns the new index and the Boolean result. -/
def incrementLoop (index shape : List Nat) : Nat → R (List Nat × Bool)
  | 0 => return (index, false)
  | i + 1 => do
    let v ← idxR index i
    let dim ← idxR shape i
    let last ← subR dim 1
    if v < last then
      return (resetTrailing (index.set i (v + 1)) i, true)
    else
      incrementLoop index shape i

/-- `/repo/src/tensor/utils.rs` 101-116 `increment_index`. -/
def incrementIndex (index shape : List Nat) : R (List Nat × Bool) :=
  incrementLoop index shape index.length

/-- `/repo/src/tensor/utils.rs` 71-75 `IndexIterator`. -/
structure IndexIter where
  index : List Nat
  dimensions : List Nat
  first : Bool
deriving DecidableEq, Repr

/-- `/repo/src/tensor/utils.rs` 78-84. -/
def IndexIter.new (dimensions : List Nat) : IndexIter :=
  { index := List.replicate dimensions.length 0, dimensions, first := true }

/-- `/repo/src/tensor/utils.rs` 89-98 `IndexIterator::next`. -/
def IndexIter.next (it : IndexIter) : R (Option (List Nat) × IndexIter) :=
  if it.first then
    return (some it.index, { it with first := false })
  else do
    let (index, more) ← incrementIndex it.index it.dimensions
    let it := { it with index }
    if more then return (some index, it) else return (none, it)

/-- A `for idx in iterator { body }` loop, with fuel. -/
def iterLoop {σ : Type _} (body : σ → List Nat → R σ) : Nat → IndexIter → σ → R σ
  | 0, _, _ => R.panic .diverge
  | fuel + 1, it, s => do
    let (o, it) ← it.next
    match o with
    | none => return s
    | some idx =>
      let s ← body s idx
      iterLoop body fuel it s

/-- Fuel that always suffices to drain an `IndexIter` (also with zero dimensions, where it panics). -/
def iterFuel (dims : List Nat) : Nat := (dims.map (max 1)).prod + 2

/-- `for idx in IndexIterator::new(dims) { body }`. The loops
`let mut idx = vec![0; n]; loop { body; if !increment_index(&mut idx, dims) { break; } }`
perform the same sequence of calls and are modelled by this function too. -/
def forIndices {σ : Type _} (dims : List Nat) (init : σ) (body : σ → List Nat → R σ) : R σ :=
  iterLoop body (iterFuel dims) (IndexIter.new dims) init

/-- `/repo/src/tensor/tensor_like.rs` 143-145 `iter_indices().collect()`. -/
def iterIndices (dims : List Nat) : R (List (List Nat)) :=
  forIndices dims [] (fun acc idx => return acc ++ [idx])

/-- `/repo/src/tensor/utils.rs` 148-151: the reversed loop of `tensor_index_inplace`; first argument is
the reversed shape, `acc` the already filled tail of `index`. -/
def tensorIndexLoop : List Nat → Nat → List Nat → R (List Nat × Nat)
  | [], g, acc => return (acc, g)
  | dim :: rest, g, acc =>
    if dim = 0 then R.panic .divZero
    else tensorIndexLoop rest (g / dim) (g % dim :: acc)

/-- `/repo/src/tensor/utils.rs` 124-158 `tensor_index`, `tensor_index_inplace`. -/
def tensorIndex (globalIdx : Nat) (shape : List Nat) : R (List Nat) := do
  let (index, g) ← tensorIndexLoop shape.reverse globalIdx []
  if g > 0 then R.err .tooBig else return index

/-- `/repo/src/tensor/utils.rs` 197-245: the loop of `global_index` over
`shape.iter().rev().zip(index.iter().rev()).enumerate()`; `n` is the enumeration counter. -/
def globalIndexLoop (shapeLen : Nat) (offset : Option (List SliceRange)) :
    List (Nat × Nat) → Nat → Nat → Nat → R Nat
  | [], _, globalIdx, _ => return globalIdx
  | (dim, idxDim) :: rest, n, globalIdx, multiplier =>
    let i := shapeLen - n - 1
    if dim = 1 then
      globalIndexLoop shapeLen offset rest (n + 1) globalIdx multiplier
    else do
      let (shapedDim, shiftedIdx) ← match offset with
        | some rangeVec => do
          let r ← idxR rangeVec i
          let len ← subR r.stop r.start
          pure (len, r.start + idxDim)
        | none => pure (dim, idxDim)
      if shapedDim ≤ idxDim then R.err .viewBounds
      else if dim ≤ shiftedIdx then R.err .dimBounds
      else
        globalIndexLoop shapeLen offset rest (n + 1)
          (globalIdx + shiftedIdx * multiplier) (multiplier * dim)

/-- `/repo/src/tensor/utils.rs` 177-247 `global_index`. -/
def globalIndex (index shape : List Nat) (offset : Option (List SliceRange)) : R Nat :=
  if index.length < shape.length ∧
      (shape.take (shape.length - index.length)).any (fun dim => decide (dim > 1)) then
    R.err .tooShort
  else
    globalIndexLoop shape.length offset (shape.reverse.zip index.reverse) 0 0 1

end RL
