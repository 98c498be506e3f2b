import Verif.Lemmas.InputChange
import Mathlib.Analysis.SpecialFunctions.Artanh

/-!
# Lemmas: the values that outputs can have (C127)
-/

namespace RL

open Spec

/-- the values of an activation: all, non-negative ones, between -1 and 1 -/
def CanReach : Act → ℝ → Prop
  | .identity, _ => True
  | .relu, v => 0 ≤ v
  | .tanh, v => -1 < v ∧ v < 1

theorem fn_canReach (f : Act) (x : ℝ) : CanReach f (f.fn x) := by
  cases f
  · trivial
  · exact le_max_right x 0
  · exact ⟨Real.neg_one_lt_tanh x, Real.tanh_lt_one x⟩

theorem canReach_fn {f : Act} {v : ℝ} (h : CanReach f v) : ∃ x, f.fn x = v := by
  cases f
  · exact ⟨v, rfl⟩
  · exact ⟨v, max_eq_left h⟩
  · exact ⟨Real.artanh v, Real.tanh_artanh h⟩

end RL
