import Verif.SpecTrain

/-!
# Specification vocabulary for mirrored and shifted networks
-/

namespace RL.Spec

/-- The parameters of the network in which everything layer `l` (counted from 1) puts out is multiplied by `σ l`, for an input multiplied by
`σ 0`. (All `σ l` are 1 or -1.) -/
def mirrored (σ : Nat → ℝ) (θ : Nat → Nat → ℝ) : Nat → Nat → ℝ := fun q c =>
  if q % 2 = 0 then σ (q / 2) * σ (q / 2 + 1) * θ q c else σ (q / 2 + 1) * θ q c

/-- All signs are 1 or -1. -/
def Signs (σ : Nat → ℝ) : Prop := ∀ l, σ l = 1 ∨ σ l = -1

/-- Only the outputs of layers without activation or with `tanh` are mirrored. -/
def Mirrorable (σ : Nat → ℝ) (ds : List (Nat × Act)) : Prop := ∀ l n, ds[l]? = some (n, .relu) → σ (l + 1) = 1

/-- The same parameters, except that `s j` is added to the bias `j` of the layer with the parameters `q`, `q + 1`. -/
def shifted (q : Nat) (s : Nat → ℝ) (θ : Nat → Nat → ℝ) : Nat → Nat → ℝ := fun p c => if p = q + 1 then θ p c + s c else θ p c

end RL.Spec
