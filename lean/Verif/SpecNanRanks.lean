import Verif.SpecNan

/-!
# Shapes of which a matrix product reads only a part (C79)
-/

namespace RL.Spec

/-- At least four dimensions, all of which but the last two are 1, and more than one row. -/
def Hides (s : List Nat) : Prop := ∃ a m k, 2 ≤ m ∧ s = List.replicate (a + 2) 1 ++ [m, k]

end RL.Spec
