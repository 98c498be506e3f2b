import Verif.Lemmas.Settle
import Verif.Lemmas.Repeat

/-!
# Lemmas: the steps of the biases of the last layer (C115)
-/

namespace RL

open Spec

variable {m k n : Nat} {f : Act} {pre : List (Nat × Act)} {θ : Nat → Nat → ℝ}

theorem slope_grid (hf : f ≠ .tanh) (x : ℝ) : f.slope x = 0 ∨ f.slope x = 1 := by
  cases f with
  | tanh => exact absurd rfl hf
  | relu =>
    by_cases h : x < 0 <;> simp [Act.slope, h]
  | identity => simp [Act.slope]

/-- the sum of steps by -1, 0 or 1 -/
theorem sum_grid (s : Nat → ℝ) (h : ∀ i, s i = -1 ∨ s i = 0 ∨ s i = 1) : ∀ m : Nat, ∃ z : ℤ, |z| ≤ m ∧ ∑ i ∈ Finset.range m, s i = z
  | 0 => ⟨0, by simp, by simp⟩
  | m + 1 => by
    obtain ⟨z, hz, e⟩ := sum_grid s h m
    rw [Finset.sum_range_succ, e]
    rw [abs_le] at hz
    rcases h m with h | h | h <;> rw [h]
    · exact ⟨z - 1, by rw [abs_le]; push_cast; omega, by push_cast; ring⟩
    · exact ⟨z, by rw [abs_le]; push_cast; omega, by push_cast; ring⟩
    · exact ⟨z + 1, by rw [abs_le]; push_cast; omega, by push_cast; ring⟩

/-- the sum of steps by -1 or 1 -/
theorem sum_odd (s : Nat → ℝ) (h : ∀ i, s i = -1 ∨ s i = 1) : ∀ m : Nat, ∃ z : ℤ, |z| ≤ m ∧ z % 2 = m % 2 ∧ ∑ i ∈ Finset.range m, s i = z
  | 0 => ⟨0, by simp, by simp, by simp⟩
  | m + 1 => by
    obtain ⟨z, hz, e2, e⟩ := sum_odd s h m
    rw [Finset.sum_range_succ, e]
    rw [abs_le] at hz
    rcases h m with h | h <;> rw [h]
    · exact ⟨z - 1, by rw [abs_le]; push_cast; omega, by push_cast; omega, by push_cast; ring⟩
    · exact ⟨z + 1, by rw [abs_le]; push_cast; omega, by push_cast; omega, by push_cast; ring⟩

/-- large inputs of `tanh` have small slopes -/
theorem tanh_slope_small (m : Nat) : ∃ x : ℝ, 0 < Act.tanh.slope x ∧ m * Act.tanh.slope x < 1 := by
  refine ⟨2 * m + 1, slope_pos .tanh (by positivity), ?_⟩
  have h1 : (m : ℝ) + 1 ≤ Real.cosh (2 * m + 1) := by
    rw [Real.cosh_eq]
    have := Real.add_one_le_exp (2 * (m : ℝ) + 1)
    have := Real.exp_pos (-(2 * (m : ℝ) + 1))
    linarith
  have h2 : Act.tanh.slope (2 * m + 1) = 1 / Real.cosh (2 * m + 1) ^ 2 := by
    have := (Real.cosh_pos (2 * (m : ℝ) + 1)).ne'
    simp only [Act.slope]
    rw [Real.tanh_eq_sinh_div_cosh]
    field_simp
    rw [Real.sinh_sq]
    ring
  have hm : (0 : ℝ) ≤ m := Nat.cast_nonneg m
  rw [h2, mul_one_div, div_lt_one (by positivity)]
  nlinarith

theorem descend_last_bias {lr : ℝ} (a b θ : Nat → Nat → ℝ) {j : Nat} (hj : j < n) : shuffledDescend lr m k (pre ++ [(n, f)]) a b θ (2 * pre.length + 1) j =
    θ (2 * pre.length + 1) j -
      lr * ∑ i ∈ Finset.range m, (if f.fn (lastIn k n pre θ a i j) < b i j then -1 else 1) * f.slope (lastIn k n pre θ a i j) := by
  rw [← loss_last_bias a b hj]
  rfl

end RL
