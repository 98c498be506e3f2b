import Verif.SpecGraph
import Mathlib.Analysis.SpecialFunctions.Trigonometric.DerivHyp
import Mathlib.Analysis.Calculus.Deriv.Abs

/-!
# Specification vocabulary for gradients over the real numbers

What a recorded computation computes when one of its tensors is given other elements, written down with functions from indices to
real numbers. From the model these definitions only use the data types.
-/

namespace RL

/-- `/repo/src/tensor/functional/element_wise_ops.rs` 28, 92, 101, 357: the functions of `num::traits::real::Real`, for real numbers. -/
noncomputable instance Real.instRealFn : RealFn ℝ where
  tanh := Real.tanh
  abs x := |x|
  powi2 x := x ^ 2

namespace Spec

/-- Shape of a tensor. -/
def shapeOf {T : Type} (h : Heap T) (i : Nat) : List Nat := ((dataOf h i).map (·.shape)).getD []

/-- `i` is `l`, or `l` was computed from it. -/
def Feeds {T : Type} (h : Heap T) (i l : Nat) : Prop := i = l ∨ Ancestor h i l

/-- `V` gives the elements that the tensors which `l` was computed from, and `l` itself, would have had if tensor `x` had had the
elements `X`: tensors without history keep their elements, the others follow their recorded operation. -/
structure Reeval (h : Heap ℝ) (l x : Nat) (X : List Nat → ℝ) (V : Nat → List Nat → ℝ) : Prop where
  self : ∀ idx, InRange (shapeOf h x) idx → V x idx = X idx
  leaf : ∀ i v, Feeds h i l → i ≠ x → dataOf h i = some v → historyOf h i = some none →
    ∀ idx, InRange v.shape idx → Raw.elem? v idx = some (V i idx)
  add : ∀ i a b, Feeds h i l → i ≠ x → historyOf h i = some (some ⟨[a, b], .add⟩) → ∀ idx, InRange (shapeOf h i) idx →
    V i idx = V a (bproj (shapeOf h a) idx) + V b (bproj (shapeOf h b) idx)
  neg : ∀ i a, Feeds h i l → i ≠ x → historyOf h i = some (some ⟨[a], .neg⟩) → ∀ idx, InRange (shapeOf h i) idx →
    V i idx = -V a idx
  relu : ∀ i a, Feeds h i l → i ≠ x → historyOf h i = some (some ⟨[a], .relu⟩) → ∀ idx, InRange (shapeOf h i) idx →
    V i idx = max (V a idx) 0
  abs : ∀ i a, Feeds h i l → i ≠ x → historyOf h i = some (some ⟨[a], .abs⟩) → ∀ idx, InRange (shapeOf h i) idx →
    V i idx = |V a idx|
  tanh : ∀ i a, Feeds h i l → i ≠ x → historyOf h i = some (some ⟨[a], .tanh⟩) → ∀ idx, InRange (shapeOf h i) idx →
    V i idx = Real.tanh (V a idx)
  bmm : ∀ i a b, Feeds h i l → i ≠ x → historyOf h i = some (some ⟨[a, b], .bmm⟩) → ∀ m k n, shapeOf h a = [m, k] →
    shapeOf h b = [k, n] → ∀ r < m, ∀ c < n, V i [r, c] = ∑ j ∈ Finset.range k, V a [r, j] * V b [j, c]
  sum : ∀ i a, Feeds h i l → i ≠ x → historyOf h i = some (some ⟨[a], .sum⟩) →
    V i [] = ((allIndices (shapeOf h a)).map (V a)).sum
  dot : ∀ i a b, Feeds h i l → i ≠ x → historyOf h i = some (some ⟨[a, b], .dot⟩) →
    V i [0] = ((allIndices (shapeOf h a)).map fun idx => V a idx * V b idx).sum

/-- Losses that `backward` handles: one element; the last operation is `sum`, `add`, `neg`, `relu`, `tanh` or `dot`, the operations before
are `add`, `neg`, `relu`, `abs`, `tanh`, `sum` and `bmm` of matrices; all dimensions are positive; a computed operand of the `dot` is a
matrix with one row. -/
structure RealLoss (h : Heap ℝ) (l : Nat) : Prop where
  root : ∃ d, historyOf h l = some (some d) ∧ d.kind ∈ [JvpKind.sum, .add, .neg, .relu, .tanh, .dot]
  one : (shapeOf h l).prod = 1
  data : ∀ i v, Feeds h i l → dataOf h i = some v → WF v ∧ Pos v.shape
  inner : ∀ i d, Ancestor h i l → historyOf h i = some (some d) → d.kind ∈ [JvpKind.add, .neg, .relu, .abs, .tanh, .bmm, .sum]
  mats : ∀ i a b, Feeds h i l → historyOf h i = some (some ⟨[a, b], .bmm⟩) → ∃ m k n, shapeOf h a = [m, k] ∧ shapeOf h b = [k, n]
  rows : ∀ a b, historyOf h l = some (some ⟨[a, b], .dot⟩) → ∀ i, i = a ∨ i = b → historyOf h i = some none ∨ ∃ n, shapeOf h i = [1, n]

/-- Losses with a derivative: moreover no element that goes into `relu` or `abs` is 0. -/
structure DiffLoss (h : Heap ℝ) (l : Nat) : Prop extends RealLoss h l where
  kink : ∀ i a k v, Feeds h i l → historyOf h i = some (some ⟨[a], k⟩) → k = .relu ∨ k = .abs → dataOf h a = some v → 0 ∉ v.array

/-- The matrices that depend on `x` and were multiplied by `bmm` on the way to `l` have at most 32 elements. -/
def SmallFor (h : Heap ℝ) (l x : Nat) : Prop := ∀ i a b, Feeds h i l → historyOf h i = some (some ⟨[a, b], .bmm⟩) →
  (Feeds h x a → (shapeOf h a).prod ≤ 32) ∧ (Feeds h x b → (shapeOf h b).prod ≤ 32)

/-- Results of `sum` that depend on `x` are only added, in tensors with one element: whatever was computed from them on the way to `l` is
a sum of one-element tensors. -/
def SumsOnTop (h : Heap ℝ) (l x : Nat) : Prop := ∀ i d a s b, Feeds h i l → historyOf h i = some (some d) → a ∈ d.inputs → Feeds h s a →
  historyOf h s = some (some ⟨[b], .sum⟩) → Ancestor h x s →
  (d.kind = .add ∨ d.kind = .sum) ∧ (shapeOf h a).prod = 1 ∧ (shapeOf h i).prod = 1

/-- `h2` is the heap of a second run of the computation that led to `l`, where only the elements of `x` were other ones. -/
structure Replay (h h2 : Heap ℝ) (l x : Nat) : Prop where
  shape : ∀ i, Feeds h i l → shapeOf h2 i = shapeOf h i
  history : ∀ i, Feeds h i l → i ≠ x → historyOf h2 i = historyOf h i
  leaf : ∀ i, Feeds h i l → i ≠ x → historyOf h i = some none → dataOf h2 i = dataOf h i
  data : ∀ i v, Feeds h i l → dataOf h2 i = some v → WF v

/-- Coordinate of a gradient; a missing gradient counts as zero. -/
def coord (g : Option (Raw ℝ)) (e : List Nat) : ℝ := (g.bind fun r => Raw.elem? r e).getD 0

/-- Positions of an array of length `len` when it is cut into segments of 32 from its end, and these are put in the opposite order. -/
def shuffle (len i : Nat) : Nat := len - min (32 * (i / 32 + 1)) len + i % 32

/-- Entry of an `m` x `k` matrix with shuffled positions. -/
def shuffled (m k : Nat) (f : List Nat → ℝ) (r j : Nat) : ℝ :=
  f [shuffle (m * k) (r * k + j) / k, shuffle (m * k) (r * k + j) % k]

/-- Derivatives of elements by element `e` of `x`, following the recorded operations from `x` to `l`, except that for every matrix
product the derivatives of the factors are shuffled. The derivative of `relu` and `abs` at 0 is 1. Nothing is said about `sum`. -/
structure StepRules (h : Heap ℝ) (l x : Nat) (e : List Nat) (τ : Nat → List Nat → ℝ) : Prop where
  self : ∀ idx, InRange (shapeOf h x) idx → τ x idx = if e = idx then 1 else 0
  leaf : ∀ i, Feeds h i l → i ≠ x → historyOf h i = some none → ∀ idx, InRange (shapeOf h i) idx → τ i idx = 0
  add : ∀ i a b, Feeds h i l → i ≠ x → historyOf h i = some (some ⟨[a, b], .add⟩) → ∀ idx, InRange (shapeOf h i) idx →
    τ i idx = τ a (bproj (shapeOf h a) idx) + τ b (bproj (shapeOf h b) idx)
  neg : ∀ i a, Feeds h i l → i ≠ x → historyOf h i = some (some ⟨[a], .neg⟩) → ∀ idx, InRange (shapeOf h i) idx → τ i idx = -τ a idx
  relu : ∀ i a, Feeds h i l → i ≠ x → historyOf h i = some (some ⟨[a], .relu⟩) → ∀ idx, InRange (shapeOf h i) idx →
    τ i idx = if coord (dataOf h a) idx < 0 then 0 else τ a idx
  abs : ∀ i a, Feeds h i l → i ≠ x → historyOf h i = some (some ⟨[a], .abs⟩) → ∀ idx, InRange (shapeOf h i) idx →
    τ i idx = if coord (dataOf h a) idx < 0 then -τ a idx else τ a idx
  tanh : ∀ i a, Feeds h i l → i ≠ x → historyOf h i = some (some ⟨[a], .tanh⟩) → ∀ idx, InRange (shapeOf h i) idx →
    τ i idx = (1 - Real.tanh (coord (dataOf h a) idx) ^ 2) * τ a idx
  bmm : ∀ i a b, Feeds h i l → i ≠ x → historyOf h i = some (some ⟨[a, b], .bmm⟩) → ∀ m k n, shapeOf h a = [m, k] →
    shapeOf h b = [k, n] → ∀ r < m, ∀ c < n, τ i [r, c] = ∑ j ∈ Finset.range k,
      (shuffled m k (τ a) r j * coord (dataOf h b) [j, c] + coord (dataOf h a) [r, j] * shuffled k n (τ b) j c)
  dot : ∀ i a b, Feeds h i l → i ≠ x → historyOf h i = some (some ⟨[a, b], .dot⟩) →
    τ i [0] = ((allIndices (shapeOf h a)).map fun idx => τ a idx * coord (dataOf h b) idx + coord (dataOf h a) idx * τ b idx).sum

/-- Derivatives of all elements by element `e` of `x`, with shuffled factors of matrix products. -/
structure Tangents (h : Heap ℝ) (l x : Nat) (e : List Nat) (τ : Nat → List Nat → ℝ) : Prop extends StepRules h l x e τ where
  sum : ∀ i a, Feeds h i l → i ≠ x → historyOf h i = some (some ⟨[a], .sum⟩) → τ i [] = ((allIndices (shapeOf h a)).map (τ a)).sum

/-- What `backward` computes if there are `sum`s inside of the loss. Every `sum` forgets how the loss depends on its result: `τ` are the
derivatives with the results of `sum` taken as constants, `ε i` is what the `sum`s below `i` add, once for each way from `i` to them. -/
structure Sweeps (h : Heap ℝ) (l x : Nat) (e : List Nat) (τ : Nat → List Nat → ℝ) (ε : Nat → ℝ) : Prop extends StepRules h l x e τ where
  cut : ∀ i a, Feeds h i l → i ≠ x → historyOf h i = some (some ⟨[a], .sum⟩) → τ i [] = 0
  stop : ε x = 0
  none : ∀ i, Feeds h i l → i ≠ x → historyOf h i = some none → ε i = 0
  pass : ∀ i d, Feeds h i l → i ≠ x → historyOf h i = some (some d) → d.kind ≠ .sum → ε i = (d.inputs.map ε).sum
  sums : ∀ i a, Feeds h i l → i ≠ x → historyOf h i = some (some ⟨[a], .sum⟩) → ε i = ε a + ((allIndices (shapeOf h a)).map (τ a)).sum

end Spec

end RL
