import Verif.SpecNn
import Mathlib.Data.Real.Basic
import Mathlib.Algebra.BigOperators.Group.Finset.Basic
import Mathlib.Algebra.Order.Group.Abs

/-!
# Arithmetic with rounding

What is used about floating point numbers in C63-C65: the standard model of rounding errors. `Verif.Lemmas.Binary` shows that binary
formats with rounding to nearest, gradual underflow and overflow satisfy it.
-/

namespace RL.Spec

/-- Element type whose values stand for real numbers and whose operations round. `fin` excludes infinities and NaN; nothing is said
about the operations that lead to them. -/
structure Rounding (T : Type) [Zero T] [Add T] [Mul T] [Neg T] where
  /-- number a value stands for -/
  val : T → ℝ
  /-- neither infinite nor NaN -/
  fin : T → Prop
  /-- largest relative error of an operation -/
  u : ℝ
  /-- largest additional error of a product that underflows -/
  eta : ℝ
  u_nonneg : 0 ≤ u
  eta_nonneg : 0 ≤ eta
  val_zero : val 0 = 0
  /-- a finite sum has finite operands and a small relative error -/
  add (a b : T) : fin (a + b) → fin a ∧ fin b ∧ |val (a + b) - (val a + val b)| ≤ u * |val a + val b|
  /-- 0 is neutral -/
  zero_add (a : T) : fin (0 + a) → val (0 + a) = val a
  mul (a b : T) : fin (a * b) → fin a ∧ fin b ∧ |val (a * b) - val a * val b| ≤ u * |val a * val b| + eta
  /-- the sign can be changed without an error -/
  neg (a : T) : fin (-a) → fin a ∧ val (-a) = -val a

variable {T : Type} [Zero T] [Add T] [Mul T] [Neg T]

namespace Rounding

variable (ρ : Rounding T)

/-- Error bound for a sum of `n` products whose sizes add up to `a`. -/
noncomputable def dotError (n : Nat) (a : ℝ) : ℝ := ((1 + ρ.u) ^ n - 1) * a + n * (1 + ρ.u) ^ (n - 1) * ρ.eta

/-- Error bound for `affine k x w b i j`. -/
noncomputable def affineError (k : Nat) (x w : Nat → Nat → T) (b : Nat → T) (i j : Nat) : ℝ :=
  ((1 + ρ.u) ^ (k + 1) - 1) * (∑ kk ∈ Finset.range k, |ρ.val (x i kk) * ρ.val (w kk j)|) + ρ.u * |ρ.val (b j)| +
    k * (1 + ρ.u) ^ k * ρ.eta

end Rounding

/-- A layer with the real function that its activation stands for. -/
structure LayerApprox (T : Type) extends LayerFn T where
  ψ : ℝ → ℝ
  /-- Lipschitz constant of `ψ` -/
  lip : ℝ
  /-- largest error of the activation on finite values -/
  err : ℝ

/-- `ψ`, `lip` and `err` are right. -/
def LayerApprox.Valid (ρ : Rounding T) (s : LayerApprox T) : Prop :=
  0 ≤ s.lip ∧ (∀ x y, |s.ψ x - s.ψ y| ≤ s.lip * |x - y|) ∧ ∀ x, ρ.fin x → |ρ.val (s.φ x) - s.ψ (ρ.val x)| ≤ s.err

/-- The layer in exact arithmetic. -/
def LayerApprox.exact (ρ : Rounding T) (s : LayerApprox T) : LayerFn ℝ :=
  ⟨s.width, fun i j => ρ.val (s.w i j), fun j => ρ.val (s.b j), s.ψ⟩

/-- All arguments of activations are finite, for a batch of `m` rows. -/
def netFinite (ρ : Rounding T) (m : Nat) : Nat → List (LayerApprox T) → (Nat → Nat → T) → Prop
  | _, [], _ => True
  | k, s :: ss, x => (∀ i < m, ∀ j < s.width, ρ.fin (affine k x s.w s.b i j)) ∧
      netFinite ρ m s.width ss fun i j => s.φ (affine k x s.w s.b i j)

/-- Error bound for the output of a network on the input `x`, which itself may be wrong by `e`: layer by layer, the error of the input
weighted by the weights, plus the rounding errors of the layer, times the Lipschitz constant, plus the error of the activation. -/
noncomputable def netError (ρ : Rounding T) : Nat → List (LayerApprox T) → (Nat → Nat → T) → (Nat → Nat → ℝ) → Nat → Nat → ℝ
  | _, [], _, e => e
  | k, s :: ss, x, e => netError ρ s.width ss (fun i j => s.φ (affine k x s.w s.b i j)) fun i j =>
      s.lip * (∑ kk ∈ Finset.range k, e i kk * |ρ.val (s.w kk j)| + ρ.affineError k x s.w s.b i j) + s.err

end RL.Spec
