import Verif.SpecParam
import Verif.SpecRound
import Verif.SpecMain
import Mathlib.Analysis.SpecialFunctions.Trigonometric.DerivHyp

/-!
# Specification vocabulary: how far a run with rounding is from exact arithmetic (C108)
-/

namespace RL.Spec

open RL

variable {T : Type} [Zero T] [One T] [Add T] [Mul T] [Sub T] [Neg T] [LT T] [DecidableLT T] [LE T] [DecidableLE T] [RealFn T]

/-- `Rounding` with the other operations of elements: comparisons and absolute values are exact, and `tanh` is `tau` away from its value.
Nothing is said about infinities and NaN. -/
structure Numbers (T : Type) [Zero T] [One T] [Add T] [Mul T] [Sub T] [Neg T] [LT T] [DecidableLT T] [LE T] [DecidableLE T] [RealFn T]
    extends Rounding T where
  /-- largest error of `tanh` -/
  tau : ℝ
  val_one : val 1 = 1
  sub (a b : T) : fin (a - b) → fin a ∧ fin b ∧ |val (a - b) - (val a - val b)| ≤ u * |val a - val b|
  lt_zero (a : T) : fin a → (a < 0 ↔ val a < 0)
  zero_le (a : T) : fin a → (a ≥ 0 ↔ 0 ≤ val a)
  abs (a : T) : fin a → val (RealFn.abs a) = |val a|
  tanh (a : T) : fin a → fin (RealFn.tanh a) → |val (RealFn.tanh a) - Real.tanh (val a)| ≤ tau
  powi2 (a : T) : fin (RealFn.powi2 a) → fin a ∧ |val (RealFn.powi2 a) - val a * val a| ≤ u * |val a * val a| + eta

namespace Numbers

/-- Operations and `tanh` have errors of at most `t` (relative, and for underflow and `tanh` absolute). -/
def Precise (ρ : Numbers T) (t : ℝ) : Prop := ρ.u ≤ t ∧ ρ.eta ≤ t ∧ ρ.tau ≤ t

/-- `a` is at most `e` away from `x`. -/
def Near (ρ : Numbers T) (e : ℝ) (a : T) (x : ℝ) : Prop := |ρ.val a - x| ≤ e

/-- There are no infinities and NaN in the heap. -/
def Finite (ρ : Numbers T) (h : Heap T) : Prop := ∀ n ∈ h, ∀ a ∈ n.val.array, ρ.fin a

end Numbers

/-- No element that went into `relu` or `abs` is 0. -/
def NoKinks (h : Heap ℝ) : Prop :=
  ∀ i d a v, historyOf h i = some (some d) → d.kind = .relu ∨ d.kind = .abs → a ∈ d.inputs → dataOf h a = some v → ∀ x ∈ v.array, x ≠ 0

end RL.Spec
