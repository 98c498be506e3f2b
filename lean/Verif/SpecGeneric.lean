import Verif.SpecTrain

/-!
# Specification vocabulary for training from almost all parameters (C78)
-/

namespace RL.Spec

/-- The parameters of a network as a point of a finite dimensional space, one dimension per number. -/
abbrev Params (k : Nat) (ds : List (Nat × Act)) : Type := coords k 0 ds → ℝ

/-- The point with the parameters `θ`. -/
def toPoint (k : Nat) (ds : List (Nat × Act)) (θ : Nat → Nat → ℝ) : Params k ds := fun p => θ p.1.1 p.1.2

/-- The parameters of a point. -/
noncomputable def ofPoint {k : Nat} {ds : List (Nat × Act)} (u : Params k ds) : Nat → Nat → ℝ := fun q c =>
  if h : (q, c) ∈ coords k 0 ds then u ⟨(q, c), h⟩ else 0

/-- The loss as a function on that space is differentiable at the parameters `θ`. -/
def LossDifferentiable (m k : Nat) (ds : List (Nat × Act)) (a y θ : Nat → Nat → ℝ) : Prop :=
  DifferentiableAt ℝ (fun u : Params k ds => netLoss m k ds a y (ofPoint u)) (toPoint k ds θ)

end RL.Spec
