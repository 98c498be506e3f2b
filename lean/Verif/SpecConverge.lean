import Verif.SpecTrain

/-!
# Specification vocabulary for convergence of training (C77)
-/

namespace RL.Spec

/-- Square of the distance between two lists of parameters of a network. -/
noncomputable def sqDist (k : Nat) (ds : List (Nat × Act)) (θ θ' : Nat → Nat → ℝ) : ℝ := ∑ p ∈ coords k 0 ds, (θ p.1 p.2 - θ' p.1 p.2) ^ 2

/-- A bound for the square of the length of the gradient of a layer without activation, with `k` inputs and `n` outputs, for `m` rows `a`. -/
noncomputable def slopeBound (m k n : Nat) (a : Nat → Nat → ℝ) : ℝ := n * ((∑ r ∈ Finset.range k, (∑ i ∈ Finset.range m, |a i r|) ^ 2) + (m : ℝ) ^ 2)

end RL.Spec
