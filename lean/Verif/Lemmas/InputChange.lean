import Verif.Lemmas.Unread
import Verif.Lemmas.Precision

/-!
# Lemmas: how the outputs of a network change with its inputs (C125, C126)
-/

namespace RL

open Spec

theorem tanh_mono {x y : ℝ} (h : x ≤ y) : Real.tanh x ≤ Real.tanh y := by
  rw [Real.tanh_eq_sinh_div_cosh, Real.tanh_eq_sinh_div_cosh, div_le_div_iff₀ (Real.cosh_pos x) (Real.cosh_pos y)]
  have h1 := Real.sinh_sub y x
  have h2 : 0 ≤ Real.sinh (y - x) := Real.sinh_nonneg_iff.2 (by linarith)
  linarith

theorem fn_mono (f : Act) {x y : ℝ} (h : x ≤ y) : f.fn x ≤ f.fn y := by
  cases f
  · exact h
  · exact max_le_max_right 0 h
  · exact tanh_mono h

theorem fn_le_iff {f : Act} (hf : f ≠ .relu) {x y : ℝ} : f.fn x ≤ f.fn y ↔ x ≤ y := by
  refine ⟨fun h => ?_, fn_mono f⟩
  cases f
  · exact h
  · exact absurd rfl hf
  · change Real.tanh x ≤ Real.tanh y at h
    rw [Real.tanh_eq_sinh_div_cosh, Real.tanh_eq_sinh_div_cosh, div_le_div_iff₀ (Real.cosh_pos x) (Real.cosh_pos y)] at h
    have h1 := Real.sinh_sub y x
    have h2 : 0 ≤ y - x := Real.sinh_nonneg_iff.1 (by linarith)
    linarith

theorem fn_lipschitz (f : Act) (x y : ℝ) : |f.fn x - f.fn y| ≤ |x - y| := by
  cases f
  · exact le_rfl
  · exact abs_max_sub_max_le_abs x y 0
  · exact Tracked.tanh_lipschitz x y

theorem value_mono {θ : Nat → Nat → ℝ} {i i' : Nat} : ∀ (ds : List (Nat × Act)) (k q : Nat) (a a' : Nat → Nat → ℝ), q % 2 = 0 →
    (∀ p ∈ coords k q ds, p.1 % 2 = 0 → 0 ≤ θ p.1 p.2) → (∀ r < k, a i r ≤ a' i' r) →
    ∀ j < lastWidth k ds, netValue k (layerFns θ q ds) a i j ≤ netValue k (layerFns θ q ds) a' i' j := by
  intro ds
  induction ds with
  | nil => exact fun k q a a' _ _ ha j hj => ha j hj
  | cons d ds ih =>
    obtain ⟨n, f⟩ := d
    intro k q a a' hq hw ha j hj
    refine ih n (q + 2) _ _ (by omega) (fun p hp => hw p (by simp [coords, hp])) (fun r hr => fn_mono f ?_) j hj
    rw [affine_sum, affine_sum]
    refine add_le_add_left (Finset.sum_le_sum fun r' hr' => mul_le_mul_of_nonneg_right (ha r' (Finset.mem_range.1 hr')) ?_) _
    exact hw (q, r' * n + r) (by simp [coords, mul_add_lt (Finset.mem_range.1 hr') hr]) hq

/-- the absolute values of the weights that feed a unit add up to at most `L` -/
def RowSums (θ : Nat → Nat → ℝ) (L : ℝ) : Nat → Nat → List (Nat × Act) → Prop
  | _, _, [] => True
  | k, q, (n, _) :: ds => (∀ j < n, ∑ r ∈ Finset.range k, |θ q (r * n + j)| ≤ L) ∧ RowSums θ L n (q + 2) ds

theorem value_lipschitz {θ : Nat → Nat → ℝ} {i i' : Nat} {L : ℝ} (hL : 0 ≤ L) : ∀ (ds : List (Nat × Act)) (k q : Nat) (a a' : Nat → Nat → ℝ) (ε : ℝ), 0 ≤ ε → RowSums θ L k q ds →
    (∀ r < k, |a i r - a' i' r| ≤ ε) → ∀ j < lastWidth k ds, |netValue k (layerFns θ q ds) a i j - netValue k (layerFns θ q ds) a' i' j| ≤ L ^ ds.length * ε := by
  intro ds
  induction ds with
  | nil =>
    intro k q a a' ε _ _ ha j hj
    simpa [layerFns, netValue] using ha j hj
  | cons d ds ih =>
    obtain ⟨n, f⟩ := d
    intro k q a a' ε hε hw ha j hj
    have h := ih n (q + 2) (fun i j => f.fn (affine k a (fun i j => θ q (i * n + j)) (θ (q + 1)) i j)) (fun i j => f.fn (affine k a' (fun i j => θ q (i * n + j)) (θ (q + 1)) i j))
      (L * ε) (mul_nonneg hL hε) hw.2 (fun r hr => (fn_lipschitz f _ _).trans ?_) j hj
    · rw [List.length_cons, pow_succ, mul_assoc]
      exact h
    · rw [affine_sum, affine_sum, add_sub_add_right_eq_sub, ← Finset.sum_sub_distrib]
      refine (Finset.abs_sum_le_sum_abs _ _).trans (le_trans (Finset.sum_le_sum fun r' hr' => ?_) ((Finset.sum_mul _ _ ε).symm.le.trans (mul_le_mul_of_nonneg_right (hw.1 r hr) hε)))
      rw [← sub_mul, abs_mul, mul_comm]
      exact mul_le_mul_of_nonneg_left (ha r' (Finset.mem_range.1 hr')) (abs_nonneg _)

end RL
