import Verif.SpecTrain

/-!
# How large the weights of a network are (C110)
-/

namespace RL.Spec

/-- The layers `ds` have inputs of width `k`, and their parameters start at `q`. In the weights of each layer the absolute values of every
row add up to at most the corresponding number of `rs`. -/
def RowSums (θ : Nat → Nat → ℝ) : Nat → Nat → List (Nat × Act) → List ℝ → Prop
  | _, _, [], [] => True
  | k, q, (n, _) :: ds, r :: rs => (0 ≤ r ∧ ∀ i < k, ∑ j ∈ Finset.range n, |θ q (i * n + j)| ≤ r) ∧ RowSums θ n (q + 2) ds rs
  | _, _, _, _ => False

end RL.Spec
