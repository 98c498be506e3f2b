import Verif.Lemmas.OutputRange

/-!
# Lemmas: the smallest loss (C128)
-/

namespace RL

open Spec

/-- how far an expected output is away from the values of the activation -/
noncomputable def floorOf : Act → ℝ → ℝ
  | .identity, _ => 0
  | .relu, y => max (-y) 0
  | .tanh, y => max (|y| - 1) 0

theorem floor_le (f : Act) (x y : ℝ) : floorOf f y ≤ |f.fn x - y| := by
  cases f
  · exact abs_nonneg _
  · refine max_le ?_ (abs_nonneg _)
    have h1 : (0 : ℝ) ≤ Act.relu.fn x := le_max_right x 0
    have h2 := le_abs_self (Act.relu.fn x - y)
    linarith
  · refine max_le ?_ (abs_nonneg _)
    have h1 : |Act.tanh.fn x| < 1 := Real.abs_tanh_lt_one x
    have h2 := abs_sub_abs_le_abs_sub y (Act.tanh.fn x)
    rw [abs_sub_comm] at h2
    linarith

theorem floor_near (f : Act) (y : ℝ) {ε : ℝ} (hε : 0 < ε) : ∃ x, |f.fn x - y| < floorOf f y + ε := by
  cases f
  · exact ⟨y, by simpa [Act.fn, floorOf] using hε⟩
  · refine ⟨y, ?_⟩
    simp only [Act.fn, floorOf]
    rcases le_total y 0 with h | h
    · rw [max_eq_right h, max_eq_left (by linarith), zero_sub, abs_of_nonneg (by linarith)]
      linarith
    · rw [max_eq_left h, max_eq_right (by linarith), sub_self, abs_zero]
      linarith
  · obtain ⟨δ, h0, h1, h2⟩ : ∃ δ : ℝ, 0 < δ ∧ δ < ε ∧ δ < 1 := ⟨min ε 1 / 2, by positivity, by have := min_le_left ε 1; linarith, by have := min_le_right ε 1; linarith⟩
    have h3 := le_max_left (|y| - 1) 0
    have h4 := le_max_right (|y| - 1) 0
    have key : ∀ v : ℝ, -1 < v → v < 1 → |v - y| ≤ max (|y| - 1) 0 + δ → ∃ x, |Act.tanh.fn x - y| < floorOf .tanh y + ε := by
      intro v hv hv' h
      obtain ⟨x, hx⟩ := canReach_fn (f := .tanh) ⟨hv, hv'⟩
      refine ⟨x, ?_⟩
      rw [hx]
      change |v - y| < max (|y| - 1) 0 + ε
      linarith
    have h5 := le_abs_self y
    have h6 := neg_abs_le y
    by_cases ha : 1 - δ < y
    · refine key (1 - δ) (by linarith) (by linarith) (abs_le.2 ⟨?_, ?_⟩) <;> linarith
    · by_cases hb : y < -1 + δ
      · refine key (-1 + δ) (by linarith) (by linarith) (abs_le.2 ⟨?_, ?_⟩) <;> linarith
      · refine key y (by linarith) (by linarith) ?_
        rw [sub_self, abs_zero]
        linarith

theorem floor_attained {f : Act} {y : ℝ} (h : f = .tanh → |y| < 1) : ∃ x, |f.fn x - y| = floorOf f y := by
  cases f
  · exact ⟨y, by simp [Act.fn, floorOf]⟩
  · refine ⟨y, ?_⟩
    simp only [Act.fn, floorOf]
    rcases le_total y 0 with h | h
    · rw [max_eq_right h, max_eq_left (by linarith), zero_sub, abs_of_nonneg (by linarith)]
    · rw [max_eq_left h, max_eq_right (by linarith), sub_self, abs_zero]
  · obtain ⟨x, hx⟩ := canReach_fn (f := .tanh) (abs_lt.1 (h rfl))
    refine ⟨x, ?_⟩
    rw [hx, sub_self, abs_zero, floorOf, max_eq_right (by linarith [h rfl])]

theorem floor_lt {y : ℝ} (hy : 1 ≤ |y|) (x : ℝ) : floorOf .tanh y < |Act.tanh.fn x - y| := by
  have h1 : |Act.tanh.fn x| < 1 := Real.abs_tanh_lt_one x
  have h2 := abs_sub_abs_le_abs_sub y (Act.tanh.fn x)
  rw [abs_sub_comm] at h2
  rw [floorOf, max_eq_left (by linarith)]
  linarith

end RL
