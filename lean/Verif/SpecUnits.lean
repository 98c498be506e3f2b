import Verif.SpecTrain

/-!
# Specification vocabulary for the units of a layer
-/

namespace RL.Spec

/-- The parameters `θ` after renaming the units of a layer of width `n`, whose weights are `θ q`, by `σ`: unit `j` is the previous unit `σ j`.
This renames the columns of its weights, its biases and the rows of the weights of the next layer, which has width `n'`. -/
def renameUnits (q n n' : Nat) (σ : Nat → Nat) (θ : Nat → Nat → ℝ) : Nat → Nat → ℝ := fun p c =>
  if p = q then θ q (c / n * n + σ (c % n))
  else if p = q + 1 then θ (q + 1) (σ c)
  else if p = q + 2 then θ (q + 2) (σ (c / n') * n' + c % n')
  else θ p c

/-- Units `j` and `j'` of a layer of width `n` with `k` inputs and weights `θ q`, which the next layer of width `n'` reads, have the same
parameters. -/
def SameUnits (k q n n' : Nat) (θ : Nat → Nat → ℝ) (j j' : Nat) : Prop :=
  (∀ r < k, θ q (r * n + j) = θ q (r * n + j')) ∧ θ (q + 1) j = θ (q + 1) j' ∧ ∀ c < n', θ (q + 2) (j * n' + c) = θ (q + 2) (j' * n' + c)

/-- Product of the parts of `θ` and `η` that feed unit `j` of a layer of width `n` with `k` inputs and weights `θ q`: its weights and its
bias. -/
noncomputable def inDot (k q n j : Nat) (θ η : Nat → Nat → ℝ) : ℝ :=
  (∑ r ∈ Finset.range k, θ q (r * n + j) * η q (r * n + j)) + θ (q + 1) j * η (q + 1) j

/-- Product of the parts of `θ` and `η` with which the next layer, of width `n'`, reads unit `j`. -/
noncomputable def outDot (q n' j : Nat) (θ η : Nat → Nat → ℝ) : ℝ :=
  ∑ c ∈ Finset.range n', θ (q + 2) (j * n' + c) * η (q + 2) (j * n' + c)

/-- Sum of the squares of what feeds unit `j`, minus sum of the squares of what reads it. -/
noncomputable def balance (k q n n' j : Nat) (θ : Nat → Nat → ℝ) : ℝ := inDot k q n j θ θ - outDot q n' j θ θ

/-- The parameters `θ` after multiplying what feeds unit `j` by `s` and what reads it by `t`. -/
def scaleUnit (q n n' j : Nat) (s t : ℝ) (θ : Nat → Nat → ℝ) : Nat → Nat → ℝ := fun p c =>
  if p = q ∧ c % n = j then s * θ q c
  else if p = q + 1 ∧ c = j then s * θ (q + 1) c
  else if p = q + 2 ∧ c / n' = j then t * θ (q + 2) c
  else θ p c

/-- The parameters `θ` after renaming the features of the input by `σ`: feature `r` is the previous feature `σ r`. This renames the rows of the
weights of the first layer, which has width `n`. -/
def renameFeatures (n : Nat) (σ : Nat → Nat) (θ : Nat → Nat → ℝ) : Nat → Nat → ℝ := fun p c =>
  if p = 0 then θ 0 (σ (c / n) * n + c % n) else θ p c

/-- `k` x `n` matrices in which gradients can be put into the wrong places in such a way that the order of the rows does not matter: up to 32
elements, one row, or two rows of up to 32 elements or of a multiple of 32 elements. -/
def RowsAlike (k n : Nat) : Prop := k * n ≤ 32 ∨ k = 1 ∨ k = 2 ∧ (n ≤ 32 ∨ 32 ∣ n)

/-- The order of the `n` units of a layer, read by `n'` units and itself reading `k` values of `m` rows, does not matter for the place to
which the matrix product brings gradients. -/
def UnitsAlike (m k n n' : Nat) : Prop := (n ∣ 32 ∨ k * n ≤ 32 ∧ m * n ≤ 32) ∧ RowsAlike n n'

end RL.Spec
