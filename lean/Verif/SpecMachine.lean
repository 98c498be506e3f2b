import Verif.Model.Machine
import Verif.SpecGraph

/-!
# Shapes that fit into `usize` (C71, C85)
-/

namespace RL.Spec

open RL

/-- The product of the dimensions that are not zero is a `usize`. -/
def Fits (shape : List Nat) : Prop := (shape.map (max 1)).prod < 2 ^ 64

variable {T : Type}

/-- Every tensor of the graph has a shape that fits, and inputs of `tanh` have fewer than 2^32 elements (the gradient of `tanh` builds a
square matrix with a row for each). -/
structure GraphFits (h : Heap T) : Prop where
  shapes : ∀ (i : Nat) (t : Raw T), dataOf h i = some t → Fits t.shape
  tanh : ∀ (i j : Nat) (t : Raw T), historyOf h i = some (some { inputs := [j], kind := .tanh }) → dataOf h j = some t → t.shape.prod < 2 ^ 32

/-- The shapes given to `reshape` fit. -/
def ViewFits : VExpr → Prop
  | .view _ _ => True
  | .reshape v shape => ViewFits v ∧ Fits shape
  | .slice v _ => ViewFits v

/-- The same for an operand. -/
def OpndFits : Opnd → Prop
  | .tensor _ => True
  | .view v => ViewFits v

/-- The same for the views in an operation. -/
def OpFits : Op T → Prop
  | .viewToTensor v | .viewSum v | .bmmView _ v | .viewBmm v _ | .mulView _ v => ViewFits v
  | .viewBmmView v w => ViewFits v ∧ ViewFits w
  | .rawBin _ x y => OpndFits x ∧ OpndFits y
  | .rawUnary _ x | .leftMul _ x | .rightMul x _ => OpndFits x
  | _ => True

end RL.Spec
