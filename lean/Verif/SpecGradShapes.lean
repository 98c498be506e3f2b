import Verif.SpecGraph

/-!
# Specification vocabulary: which operations give a tensor a gradient of another shape (C38_exact)
-/

namespace RL.Spec

open RL

variable {T : Type}

/-- Every gradient has the shape of its tensor. -/
def GradShapesFit (h : Heap T) : Prop := ∀ t v g, dataOf h t = some v → gradOf h t = some g → g.shape = v.shape

/-- Aligned on the right, no dimension of `s` is larger than that of `r`, and `s` has no more dimensions. -/
def Within (s r : List Nat) : Prop := s.length ≤ r.length ∧ List.Forall₂ (· ≤ ·) s (r.drop (r.length - s.length))

/-- Summing a tensor that is no scalar, and `update_grad` with a tensor of another shape; if there is a gradient already, with one that
makes the sum larger. -/
inductive Misfits (h : Heap T) : Op T → Prop where
  | sum (t : Nat) (v : Raw T) : dataOf h t = some v → v.shape ≠ [] → Misfits h (.sum t)
  | rawSum (t : Nat) (v : Raw T) : dataOf h t = some v → v.shape ≠ [] → Misfits h (.rawSum t)
  | first (t g : Nat) (v w : Raw T) : dataOf h t = some v → dataOf h g = some w → gradOf h t = none → w.shape ≠ v.shape →
      Misfits h (.updateGrad t g)
  | more (t g : Nat) (v w p : Raw T) : dataOf h t = some v → dataOf h g = some w → gradOf h t = some p → ¬ Within w.shape v.shape →
      Misfits h (.updateGrad t g)

end RL.Spec
