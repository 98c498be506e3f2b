import Verif.SpecGraph

/-!
# Specification vocabulary: which operations make tensors whose elements do not fill their shape (C09_exact)
-/

namespace RL.Spec

open RL

variable {T : Type}

/-- The tensor that a view is a view of. -/
def viewedTensor : VExpr → Nat
  | .view t _ => t
  | .reshape v _ => viewedTensor v
  | .slice v _ => viewedTensor v

/-- Number of elements of a view: reshaping keeps it, a slice of a view is one of the tensor. -/
def viewedSize : VExpr → Nat
  | .view _ ranges => (ranges.map fun r => r.stop - r.start).prod
  | .reshape v _ => viewedSize v
  | .slice _ ranges => (ranges.map fun r => r.stop - r.start).prod

/-- `RawTensor::default()`, and a scalar times a view that does not have as many elements as its tensor. -/
inductive Misshapes (h : Heap T) : Op T → Prop where
  | default : Misshapes h .default
  | mulView (l : Nat) (v : VExpr) (s b : Raw T) : dataOf h l = some s → s.shape = [] → dataOf h (viewedTensor v) = some b →
      viewedSize v ≠ b.shape.prod → Misshapes h (.mulView l v)
  | leftMul (s : T) (v : VExpr) (b : Raw T) : dataOf h (viewedTensor v) = some b → viewedSize v ≠ b.shape.prod → Misshapes h (.leftMul s (.view v))
  | rightMul (v : VExpr) (s : T) (b : Raw T) : dataOf h (viewedTensor v) = some b → viewedSize v ≠ b.shape.prod → Misshapes h (.rightMul (.view v) s)

end RL.Spec
