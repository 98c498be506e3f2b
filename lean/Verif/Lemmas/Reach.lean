import Verif.Lemmas.Grid

/-!
# Lemmas: output biases below expected outputs that cannot be reached (C119)
-/

namespace RL

open Spec

variable {m k n : Nat} {pre : List (Nat × Act)} {θ : Nat → Nat → ℝ}

theorem tanh_slope_pos (x : ℝ) : 0 < Act.tanh.slope x := by
  have := (sq_lt_one_iff_abs_lt_one _).2 (Real.abs_tanh_lt_one x)
  simp only [Act.slope]
  nlinarith

theorem tanh_slope_le (x : ℝ) : Act.tanh.slope x ≤ 1 := by
  simp only [Act.slope]
  nlinarith [sq_nonneg (Real.tanh x)]

/-- the step of an output bias if the expected outputs are out of reach above -/
theorem bias_up {lr : ℝ} (a b θ : Nat → Nat → ℝ) {j : Nat} (hj : j < n) (hy : ∀ i < m, 1 ≤ b i j) : shuffledDescend lr m k (pre ++ [(n, .tanh)]) a b θ (2 * pre.length + 1) j =
    θ (2 * pre.length + 1) j + lr * ∑ i ∈ Finset.range m, Act.tanh.slope (lastIn k n pre θ a i j) := by
  rw [descend_last_bias a b θ hj, sub_eq_add_neg, ← mul_neg, ← Finset.sum_neg_distrib]
  congr 2
  refine Finset.sum_congr rfl fun i hi => ?_
  have h1 : Act.tanh.fn (lastIn k n pre θ a i j) < b i j := lt_of_lt_of_le (abs_lt.1 (Real.abs_tanh_lt_one _)).2 (hy i (Finset.mem_range.1 hi))
  rw [if_pos h1]
  ring

/-- the same below -/
theorem bias_down {lr : ℝ} (a b θ : Nat → Nat → ℝ) {j : Nat} (hj : j < n) (hy : ∀ i < m, b i j ≤ -1) : shuffledDescend lr m k (pre ++ [(n, .tanh)]) a b θ (2 * pre.length + 1) j =
    θ (2 * pre.length + 1) j - lr * ∑ i ∈ Finset.range m, Act.tanh.slope (lastIn k n pre θ a i j) := by
  rw [descend_last_bias a b θ hj]
  congr 2
  refine Finset.sum_congr rfl fun i hi => ?_
  have h1 : ¬ Act.tanh.fn (lastIn k n pre θ a i j) < b i j := not_lt.2 ((hy i (Finset.mem_range.1 hi)).trans (abs_lt.1 (Real.abs_tanh_lt_one _)).1.le)
  rw [if_neg h1, one_mul]

theorem slopes_pos (hm : 0 < m) (z : Nat → ℝ) : 0 < ∑ i ∈ Finset.range m, Act.tanh.slope (z i) :=
  Finset.sum_pos (fun i _ => tanh_slope_pos _) ⟨0, Finset.mem_range.2 hm⟩

theorem slopes_le (z : Nat → ℝ) : ∑ i ∈ Finset.range m, Act.tanh.slope (z i) ≤ m := by
  calc _ ≤ ∑ _i ∈ Finset.range m, (1 : ℝ) := Finset.sum_le_sum fun i _ => tanh_slope_le _
    _ = m := by simp

end RL
