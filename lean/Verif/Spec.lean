import Verif.Model.Tensor
import Mathlib.Data.List.Forall2

/-!
# Specification vocabulary

Small definitions used to *state* the properties. They do not refer to the model's index arithmetic,
iteration or loops; from the model they only use the data types `Raw`, `View`, `SliceRange`.
-/

namespace RL.Spec

open RL

/-- Row-major position of an index in a shape: the last dimension varies fastest. -/
def rowMajor : (shape idx : List Nat) → Nat
  | _ :: ds, i :: is => i * ds.prod + rowMajor ds is
  | _, _ => 0

/-- `idx` is a full-length index with every component in range. -/
def InRange (shape idx : List Nat) : Prop := List.Forall₂ (fun d i => i < d) shape idx

/-- All in-range indices in lexicographic (= row-major) order. -/
def allIndices : List Nat → List (List Nat)
  | [] => [[]]
  | d :: ds => (List.range d).flatMap (fun i => (allIndices ds).map (fun is => i :: is))

/-- No zero-length dimension. -/
def Pos (shape : List Nat) : Prop := ∀ d ∈ shape, 0 < d

/-- A tensor holds as many elements as its shape says. -/
def WF {T : Type} (t : Raw T) : Prop := t.array.length = t.shape.prod

/-- Align an index with a shape of rank `n` from the right: drop surplus leading components, supply 0 for
missing ones. -/
def alignRight (n : Nat) (idx : List Nat) : List Nat :=
  List.replicate (n - idx.length) 0 ++ idx.drop (idx.length - n)

/-- The element a broadcast read addresses: the aligned index, with 0 on length-1 dimensions. -/
def bproj (shape idx : List Nat) : List Nat :=
  List.zipWith (fun d i => if d = 1 then 0 else i) shape (alignRight shape.length idx)

/-- The broadcast read is legal: every aligned component is in range unless its dimension is 1, and the
leading dimensions not covered by the index have length at most 1. -/
def Readable (shape idx : List Nat) : Prop :=
  (∀ d ∈ shape.take (shape.length - idx.length), d ≤ 1) ∧
  List.Forall₂ (fun d i => d = 1 ∨ i < d)
    (shape.drop (shape.length - idx.length)) (idx.drop (idx.length - shape.length))

/-- Pad a shape on the left with 1s to rank `n`. -/
def padLeft (n : Nat) (shape : List Nat) : List Nat := List.replicate (n - shape.length) 1 ++ shape

/-- numpy's compatibility rule: right-aligned dimensions are equal or one of them is 1. -/
def Compatible (l r : List Nat) : Prop :=
  List.Forall₂ (fun a b => a = b ∨ a = 1 ∨ b = 1)
    (padLeft (max l.length r.length) l) (padLeft (max l.length r.length) r)

/-- numpy's broadcast shape: where one of the dimensions is 1, the other one. -/
def bshape (l r : List Nat) : List Nat :=
  List.zipWith (fun a b => if a = 1 then b else a)
    (padLeft (max l.length r.length) l) (padLeft (max l.length r.length) r)

/-- The base index a view index stands for: shifted by the start of the range in every dimension. -/
def shift (ranges : List SliceRange) (idx : List Nat) : List Nat :=
  List.zipWith (fun r i => r.start + i) ranges idx

/-- The ranges fit into the shape (what `TensorView::new` checks). -/
def RangesFit (ranges : List SliceRange) (shape : List Nat) : Prop :=
  List.Forall₂ (fun r d => r.start ≤ r.stop ∧ r.stop ≤ d) ranges shape

/-- `v` is a rectangular window into a well-formed tensor. -/
def ViewOk {T : Type} (v : View T) : Prop :=
  WF v.tensor ∧ RangesFit v.offset v.tensor.shape ∧ v.shape = v.offset.map (fun r => r.stop - r.start)

/-- `v` with every empty range replaced by the range `0..1`. -/
def widen {T : Type} (v : View T) : View T :=
  { tensor := v.tensor, shape := v.shape.map (max 1), offset := v.offset.map fun r => if r.stop = r.start then ⟨0, 1⟩ else r }

/-- Element of a tensor at an index. -/
def Raw.elem? {T : Type} (t : Raw T) (idx : List Nat) : Option T := t.array[rowMajor t.shape idx]?

/-- Element of a view at an index: the base element at the shifted index. -/
def View.elem? {T : Type} (v : View T) (idx : List Nat) : Option T :=
  Raw.elem? v.tensor (shift v.offset idx)

/-- Element of a tensor or view at an index. -/
def elem? {T : Type} : TL T → List Nat → Option T
  | .raw t, idx => Raw.elem? t idx
  | .view v, idx => View.elem? v idx

/-- All elements in row-major order. -/
def elems {T : Type} (x : TL T) : List T := (allIndices x.shape).filterMap (elem? x)

/-- A well-formed tensor, or a window into one. -/
def Ok {T : Type} : TL T → Prop
  | .raw t => WF t
  | .view v => ViewOk v

section
variable {T : Type}

/-- the children of a nested vector -/
abbrev _root_.RL.NVec.toList {n : Nat} (vs : NVec T (n + 1)) : List (NVec T n) := vs

/-- The shape a nested vector has, if it is non-empty and rectangular at every level. -/
def _root_.RL.NVec.HasShape : (n : Nat) → NVec T n → List Nat → Prop
  | 0, _, s => s = []
  | n + 1, vs, s => vs.toList ≠ [] ∧
      ∃ s', s = vs.toList.length :: s' ∧ ∀ u ∈ vs.toList, RL.NVec.HasShape n u s'

/-- `vs[i][j]...` -/
def _root_.RL.NVec.elem? : (n : Nat) → NVec T n → List Nat → Option T
  | 0, v, [] => some v
  | n + 1, vs, i :: is => vs.toList[i]?.bind (fun u => RL.NVec.elem? n u is)
  | _, _, _ => none

end

/-- A computation panics. -/
def Panics {α : Type _} (r : R α) : Prop := ∃ p, r = .error (.panic p) ∧ p ≠ .diverge

end RL.Spec
