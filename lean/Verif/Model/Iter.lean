import Verif.Model.MachineOps

/-!
# Model of iterators called one by one

`t.iter_indices()` (`/repo/src/tensor/tensor_like.rs` 143-145) gives an `IndexIterator` to the caller, who can call `next` as often as they
like, also after `None` and (with `catch_unwind`) after a panic. `forIndices` models the loops of the library, which stop at `None`.
-/

namespace RL

/-- One call of `IndexIterator::next` (`/repo/src/tensor/utils.rs` 89-98): what it returns or how it fails, and the iterator afterwards.
`increment_index` (lines 101-116) panics before it has written to the index. -/
def IndexIter.call (p : Profile) (it : IndexIter) : R (Option (List Nat)) × IndexIter :=
  match it.nextU p with
  | .ok (o, it') => (.ok o, it')
  | .error e => (.error e, it)

/-- What call number `k` (from 0) of `next` returns. -/
def IndexIter.calls (p : Profile) : Nat → IndexIter → R (Option (List Nat))
  | 0, it => (it.call p).1
  | k + 1, it => IndexIter.calls p k (it.call p).2

variable {T : Type}

/-- One call of `ElementIterator::next` (`/repo/src/tensor/utils.rs` 40-51): the index is advanced in the same way, with the shape of `x`,
before the element is read with `get(..).unwrap()`. -/
def elemCall (p : Profile) (x : TL T) (it : IndexIter) : R (Option T) × IndexIter :=
  let (o, it') := it.call p
  (do
    match ← o with
    | none => return none
    | some idx => return some (← unwrapR (x.getU p idx)), it')

/-- What call number `k` (from 0) of `next` returns. -/
def elemCalls (p : Profile) (x : TL T) : Nat → IndexIter → R (Option T)
  | 0, it => (elemCall p x it).1
  | k + 1, it => elemCalls p x k (elemCall p x it).2

end RL
