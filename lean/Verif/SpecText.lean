import Verif.SpecGraph

/-!
# Specification vocabulary for printed tensors

From the model these definitions use nothing.
-/

namespace RL.Spec

/-- Texts in square brackets, separated by commas and spaces. -/
def listed (ts : List (List Char)) : List Char := "[".toList ++ [',', ' '].intercalate ts ++ "]".toList

/-- Texts that tell the elements of a list apart: no element has an empty text or one with a comma, and different elements have
different texts. -/
structure Legible {T : Type} (text : T → List Char) : Prop where
  injective : Function.Injective text
  nonempty : ∀ x, text x ≠ []
  noComma : ∀ x, ',' ∉ text x

end RL.Spec
