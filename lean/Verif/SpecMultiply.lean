import Verif.Spec

/-!
# Which shapes can be multiplied, and which inputs a network accepts (C20, C101)
-/

namespace RL.Spec

/-- The shapes of a left operand, a right operand and their product: a matrix times a matrix, a batch of matrices times a matrix; and, with more
than three dimensions, tensors whose dimensions but the last two are 1, of which only the first row is multiplied. -/
inductive Multiplies : List Nat → List Nat → List Nat → Prop where
  | matrix (m k n : Nat) : Multiplies [m, k] [k, n] [m, n]
  | batch (b m k n : Nat) : Multiplies [b, m, k] [k, n] [b, m, n]
  | row (a m k n : Nat) : Multiplies (List.replicate (a + 2) 1 ++ [m, k]) [k, n] [1, 1, n]

/-- The shapes of an input, of the weights and the bias of every layer, and of the output: every layer multiplies what it is given with its
weights and adds its bias, which can be broadcast against the product. -/
inductive Accepts : List Nat → List (List Nat × List Nat) → List Nat → Prop where
  | nil (x : List Nat) : Accepts x [] x
  | cons {x w b p o : List Nat} {rest : List (List Nat × List Nat)} :
      Multiplies x w p → Compatible p b → Accepts (bshape p b) rest o → Accepts x ((w, b) :: rest) o

end RL.Spec
