import Verif.Spec

/-!
# Vocabulary for the claims about windows
-/

namespace RL.Spec

open RL

/-- the lengths of ranges -/
def lens (ranges : List SliceRange) : List Nat := ranges.map fun r => r.stop - r.start

/-- the view of the given ranges into the tensor with this array and this shape -/
def window {T : Type} (array : List T) (shape : List Nat) (ranges : List SliceRange) : View T :=
  { tensor := { array, shape }, shape := lens ranges, offset := ranges }

/-- The elements of the window are the ones stored first, in this order. -/
def FirstStored (shape : List Nat) (ranges : List SliceRange) : Prop :=
  ∀ idx, InRange (lens ranges) idx → rowMajor shape (shift ranges idx) = rowMajor (lens ranges) idx

end RL.Spec
