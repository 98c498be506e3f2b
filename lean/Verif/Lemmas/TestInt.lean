import Verif.Model.Tensor

/-!
# Integers as an element type for tests and counterexamples

`tanh` has no meaning on integers; no test or counterexample that uses this instance calls it.
-/

namespace RL.Test

/-- `abs` and squaring on integers; `tanh` is a placeholder. -/
def intFn : RealFn Int where
  tanh x := x
  abs x := if x < 0 then -x else x
  powi2 x := x * x

end RL.Test
