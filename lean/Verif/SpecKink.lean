import Verif.SpecGrad
import Mathlib.Data.Set.Countable

/-!
# Specification vocabulary for gradients where `relu` and `abs` have no derivative (C76)
-/

namespace RL.Spec

open RL

/-- Elements that go into `relu` or `abs` on the way to `l`. -/
def IntoKink (h : Heap ℝ) (l a : Nat) (idx : List Nat) : Prop :=
  ∃ i k, Feeds h i l ∧ historyOf h i = some (some ⟨[a], k⟩) ∧ (k = .relu ∨ k = .abs) ∧ InRange (shapeOf h a) idx

/-- `H y` is the heap of a run of the same computation of `l` in which element `c` of `x` is `y` and the other ones are those of `X`: it is a
loss with the conditions of C29 except that elements that go into `relu` or `abs` may be 0. -/
structure LossFamily (H : ℝ → Heap ℝ) (l x : Nat) (X : List Nat → ℝ) (c : List Nat) : Prop where
  reachable : ∀ y, Reachable (H y)
  loss : ∀ y, RealLoss (H y) l
  small : ∀ y, SmallFor (H y) l x
  top : ∀ y, SumsOnTop (H y) l x
  depends : ∀ y, Ancestor (H y) x l
  replay : ∀ y z, Replay (H y) (H z) l x
  elems : ∀ y, ∃ v, dataOf (H y) x = some v ∧ InRange v.shape c ∧
    ∀ idx, InRange v.shape idx → Raw.elem? v idx = some (Function.update X c y idx)
  fresh : ∀ y, gradOf (H y) x = none

/-- `H u` is the heap of a run of the same computation of `l` in which `x`, a tensor of shape `s`, has the elements `u`; otherwise as in
`LossFamily`. -/
structure LossSpace {n : Nat} (H : (Fin n → ℝ) → Heap ℝ) (l x : Nat) (s : List Nat) : Prop where
  reachable : ∀ u, Reachable (H u)
  loss : ∀ u, RealLoss (H u) l
  small : ∀ u, SmallFor (H u) l x
  top : ∀ u, SumsOnTop (H u) l x
  depends : ∀ u, Ancestor (H u) x l
  replay : ∀ u v, Replay (H u) (H v) l x
  elems : ∀ u, dataOf (H u) x = some ⟨List.ofFn u, s⟩
  fresh : ∀ u, gradOf (H u) x = none

end RL.Spec
