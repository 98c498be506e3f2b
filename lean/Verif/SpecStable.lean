import Verif.SpecGeneric

/-!
# Specification vocabulary: starts of training that differ little (C103)
-/

namespace RL.Spec

/-- The parameters of a network differ by at most `ε`. -/
def CloseNets (ε : ℝ) (k : Nat) (ds : List (Nat × Act)) (θ θ' : Nat → Nat → ℝ) : Prop :=
  ∀ q c, (q, c) ∈ coords k 0 ds → |θ' q c - θ q c| ≤ ε

/-- The entries of `m` x `k` matrices differ by at most `ε`. -/
def CloseMats (ε : ℝ) (m k : Nat) (a a' : Nat → Nat → ℝ) : Prop := ∀ i < m, ∀ j < k, |a' i j - a i j| ≤ ε

end RL.Spec
