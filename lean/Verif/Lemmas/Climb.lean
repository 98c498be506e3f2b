import Verif.Lemmas.Reach
import Verif.Lemmas.Blank
import Mathlib.Topology.Order.MonotoneConvergence
import Mathlib.Analysis.SpecialFunctions.Exp

/-!
# Lemmas: the output bias of a network of zeros grows without limit (C118)
-/

namespace RL

open Spec Filter Topology

theorem tanh_top : Tendsto Real.tanh atTop (𝓝 1) := by
  have h1 : ∀ x : ℝ, Real.tanh x = 1 - 2 / (Real.exp (2 * x) + 1) := by
    intro x
    rw [Real.tanh_eq_sinh_div_cosh, Real.sinh_eq, Real.cosh_eq, show 2 * x = x + x by ring, Real.exp_add, Real.exp_neg]
    have := Real.exp_pos x
    field_simp
    ring
  have h2 : Tendsto (fun x : ℝ => 1 - 2 / (Real.exp (2 * x) + 1)) atTop (𝓝 (1 - 0)) := by
    refine tendsto_const_nhds.sub (Tendsto.div_atTop tendsto_const_nhds (tendsto_atTop_add_const_right _ _ (Real.tendsto_exp_atTop.comp ?_)))
    exact tendsto_id.const_mul_atTop (by norm_num)
  rw [sub_zero] at h2
  exact h2.congr fun x => (h1 x).symm

/-- steps by the slope of `tanh` lead to infinity -/
theorem climb {c : ℝ} (hc : 0 < c) (s : Nat → ℝ) (h : ∀ N, s (N + 1) = s N + c * Act.tanh.slope (s N)) : Tendsto s atTop atTop := by
  have hmono : Monotone s := monotone_nat_of_le_succ fun N => by
    have := mul_pos hc (tanh_slope_pos (s N))
    rw [h]
    linarith
  rcases tendsto_atTop_of_monotone hmono with h1 | ⟨L, h1⟩
  · exact h1
  · exfalso
    have hcont : Continuous Act.tanh.slope := by
      have : Continuous Real.tanh := by
        rw [show Real.tanh = fun x => Real.sinh x / Real.cosh x from funext Real.tanh_eq_sinh_div_cosh]
        exact Real.continuous_sinh.div Real.continuous_cosh fun x => (Real.cosh_pos x).ne'
      exact continuous_const.sub (this.pow 2)
    have h2 : Tendsto (fun N => s (N + 1)) atTop (𝓝 (L + c * Act.tanh.slope L)) := by
      simp only [h]
      exact h1.add (((hcont.tendsto L).comp h1).const_mul c)
    have h3 := tendsto_nhds_unique h2 (h1.comp (tendsto_add_atTop_nat 1))
    have := mul_pos hc (tanh_slope_pos L)
    linarith
theorem bias_climb {m : Nat} {lr : ℝ} {b : Nat → Nat → ℝ} {j : Nat} (hm : 0 < m) (hlr : 0 < lr) (hy : ∀ i < m, 1 ≤ b i j) (β : Nat → ℝ) :
    Tendsto (fun N => Real.tanh ((biasStep .tanh lr m b)^[N] β j)) atTop (𝓝 1) := by
  refine tanh_top.comp (climb (c := lr * m) (mul_pos hlr (Nat.cast_pos.2 hm)) _ fun N => ?_)
  rw [Function.iterate_succ_apply']
  generalize (biasStep .tanh lr m b)^[N] β = γ
  simp only [biasStep]
  have h : ∀ i ∈ Finset.range m, (if Act.tanh.fn (γ j) < b i j then (-1 : ℝ) else 1) * Act.tanh.slope (γ j) = -Act.tanh.slope (γ j) := by
    intro i hi
    have h1 : Act.tanh.fn (γ j) < b i j := lt_of_lt_of_le (abs_lt.1 (Real.abs_tanh_lt_one _)).2 (hy i (Finset.mem_range.1 hi))
    rw [if_pos h1]
    ring
  rw [Finset.sum_congr rfl h, Finset.sum_const, Finset.card_range, nsmul_eq_mul]
  ring

end RL
