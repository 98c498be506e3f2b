import Verif.Props.ConvergeExact
import Verif.Lemmas.Adjoint

/-!
# Lemmas: a layer with any activation whose loss does not depend on the weight that training changes (C54)
-/

namespace RL

open Spec

namespace LayerTest

open ConvergeTest

/-- around some point an activation is a constant plus an odd function with slope 1 -/
theorem odd_at (f : Act) : ∃ (β : ℝ) (φ : ℝ → ℝ), f.slope β = 1 ∧ HasDerivAt φ 1 0 ∧ φ 0 = 0 ∧ (f = .relu → 0 < β) ∧
    ∀ z, |z| ≤ 1 / 2 → |φ z| ≤ 1 ∧ ∀ s : ℝ, s = 1 ∨ s = -1 → f.fn (s * z + β) = f.fn β + s * φ z := by
  cases f with
  | identity =>
    refine ⟨0, id, rfl, hasDerivAt_id 0, rfl, by simp, fun z hz => ⟨by simp only [id]; linarith, fun s _ => ?_⟩⟩
    simp [Act.fn]
  | relu =>
    refine ⟨1, id, by simp [Act.slope], hasDerivAt_id 0, rfl, by simp, fun z hz => ⟨by simp only [id]; linarith, fun s hs => ?_⟩⟩
    obtain ⟨h1, h2⟩ := abs_le.1 hz
    have h3 : 0 ≤ s * z + 1 := by rcases hs with rfl | rfl <;> linarith
    simp only [Act.fn, id]
    rw [max_eq_left h3, max_eq_left zero_le_one]
    ring
  | tanh =>
    refine ⟨0, Real.tanh, by simp [Act.slope], ?_, Real.tanh_zero, by simp, fun z _ => ⟨(Real.abs_tanh_lt_one z).le, fun s hs => ?_⟩⟩
    · simpa using hasDerivAt_tanh 0
    · rcases hs with rfl | rfl <;> simp [Act.fn, Real.tanh_neg]

variable {k n : Nat} {f : Act} {β : ℝ} {φ : ℝ → ℝ}

/-- expected outputs around the value at the bias -/
noncomputable def target (v : ℝ) (i j : Nat) : ℝ := v + expected i j

theorem sgn_cases (i : Nat) : sgn i = 1 ∨ sgn i = -1 := by
  simp only [sgn]
  split <;> simp

theorem pre_out (hk : 0 < k) (θ : Nat → Nat → ℝ) (i j : Nat) :
    affine k rows (fun i j => θ 0 (i * n + j)) (θ 1) i j = sgn i * θ 0 j + θ 1 j := by
  rw [affine_sum, Finset.sum_eq_single 0]
  · simp [rows]
  · intro r _ hr
    simp [rows, hr]
  · simp; omega

theorem layer_loss (hφ : ∀ z, |z| ≤ 1 / 2 → |φ z| ≤ 1 ∧ ∀ s : ℝ, s = 1 ∨ s = -1 → f.fn (s * z + β) = f.fn β + s * φ z) (hk : 0 < k) (hn : 0 < n)
    (θ : Nat → Nat → ℝ) (hθ : ∀ j < n, |θ 0 j| ≤ 1 / 2 ∧ θ 1 j = β) :
    netLoss 4 k [(n, f)] rows (target (f.fn β)) θ = 4 * |φ (θ 0 0) - 1| + (n - 1 : ℝ) * 16 := by
  have h0 : netLoss 4 k [(n, f)] rows (target (f.fn β)) θ =
      netLoss 4 k [(n, .identity)] rows expected fun q c => if q = 0 ∧ c < n then φ (θ 0 c) else 0 := by
    simp only [netLoss, lastWidth, out hk]
    refine Finset.sum_congr rfl fun i _ => Finset.sum_congr rfl fun j hj => ?_
    have hj := Finset.mem_range.1 hj
    simp only [layerFns, netValue, Nat.zero_add]
    rw [pre_out hk, (hθ j hj).2, (hφ _ (hθ j hj).1).2 _ (sgn_cases i), target]
    simp only [hj, and_self, if_true]
    congr 1
    norm_num
  rw [h0, ConvergeTest.loss hk hn]
  · simp [hn]
  · intro j hj
    simp only [hj, and_self, if_true]
    refine ⟨?_, by simp⟩
    have := (hφ _ (hθ j hj).1).1
    linarith

theorem layer_tangent (hs : f.slope β = 1) (hk : 0 < k) (hn : 0 < n) (hkn : 32 < k * n) (δ : Nat → Nat → ℝ) :
    lossTangent 4 k [(n, f)] rows (target (f.fn β)) (fun q _ => if q = 1 then β else 0) δ = -4 * δ 0 (k * n - 32) := by
  rw [← ConvergeTest.tangent hk hn hkn (fun _ _ => 0) δ rfl (by simp)]
  simp only [lossTangent, lastWidth, out hk, layerFns, netValue, netTangent, Nat.zero_add]
  refine Finset.sum_congr rfl fun i _ => Finset.sum_congr rfl fun j _ => ?_
  have h1 := pre_out (n := n) hk (fun q _ => if q = 1 then β else 0) i j
  simp only [zero_ne_one, if_false, if_true, mul_zero, zero_add] at h1
  have h2 := pre_out (n := n) hk (fun _ _ => 0) i j
  simp only [zero_ne_one, if_false, if_true]
  rw [h1, hs, target]
  congr 1
  rw [h2]
  simp [Act.fn]

end LayerTest

end RL
