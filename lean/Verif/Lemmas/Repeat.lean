import Verif.Lemmas.Batch
import Verif.Lemmas.Settle
import Verif.Lemmas.Bound

/-!
# Lemmas: repeated rows, parameters multiplied by a number (C111, C112)
-/

namespace RL

open Spec

theorem sum_repeat (m : Nat) (f : Nat → ℝ) (r : Nat) : ∑ i ∈ Finset.range (r * m), f (i % m) = r * ∑ i ∈ Finset.range m, f i := by
  induction r with
  | zero => simp
  | succ r ih =>
    rw [Nat.succ_mul, Finset.sum_range_add, ih, Nat.cast_succ, add_mul, one_mul]
    congr 1
    refine Finset.sum_congr rfl fun i hi => ?_
    rw [Nat.mul_comm, Nat.mul_add_mod, Nat.mod_eq_of_lt (Finset.mem_range.1 hi)]

theorem affine_mul (k : Nat) (a w : Nat → Nat → ℝ) (b : Nat → ℝ) (c : ℝ) (i j : Nat) :
    affine k a (fun i j => c * w i j) (fun j => c * b j) i j = c * affine k a w b i j := by
  simp only [affine_sum, mul_add, Finset.mul_sum]
  congr 1
  exact Finset.sum_congr rfl fun kk _ => by ring

theorem fn_mul {f : Act} (hf : f ≠ .tanh) {c : ℝ} (hc : 0 < c) (z : ℝ) : f.fn (c * z) = c * f.fn z ∧ f.slope (c * z) = f.slope z := by
  cases f with
  | identity => exact ⟨rfl, rfl⟩
  | relu =>
    have h1 : c * z < 0 ↔ z < 0 := ⟨fun h => by_contra fun h' => absurd h (not_lt.2 (mul_nonneg hc.le (not_lt.1 h'))), mul_neg_of_pos_of_neg hc⟩
    simp only [Act.fn, Act.slope, h1, and_true]
    rw [mul_max_of_nonneg _ _ hc.le, mul_zero]
  | tanh => exact absurd rfl hf

theorem slope_le_one (f : Act) (z : ℝ) : f.slope z ≤ 1 := by
  cases f with
  | identity => exact le_rfl
  | relu =>
    simp only [Act.slope]
    split <;> norm_num
  | tanh =>
    simp only [Act.slope]
    linarith [sq_nonneg (Real.tanh z)]

theorem slope_nonneg (f : Act) (z : ℝ) : 0 ≤ f.slope z := by
  cases f with
  | identity => exact zero_le_one
  | relu =>
    simp only [Act.slope]
    split <;> norm_num
  | tanh =>
    have := (sq_lt_one_iff_abs_lt_one _).2 (Real.abs_tanh_lt_one z)
    simp only [Act.slope]
    linarith

/-- the parameters that show that C112 needs a single layer: biases `s` in the last layer but one, weights `s` in the last layer, all others 0 -/
noncomputable def C112_params (p : Nat) (s : ℝ) : Nat → Nat → ℝ := fun q _ => s * if q = 2 * p + 1 ∨ q = 2 * p + 2 then 1 else 0

theorem deep_slope (m k n₁ n : Nat) (pre : List (Nat × Act)) (g f : Act) (s : ℝ) (hs : 0 < s) (b : Nat → Nat → ℝ) (hb : ∀ i j, b i j < 0) (j : Nat)
    (hj : j < n₁) (hf : ∀ z, 0 ≤ z → 0 ≤ f.fn z) (hg : 0 ≤ g.fn s) :
    lossTangent m k (pre ++ [(n₁, g), (n, f)]) (fun _ _ => 0) b (C112_params pre.length s) (unit (2 * pre.length + 1) j) =
      n * (m * (s * (f.slope (n₁ * (g.fn s * s)) * g.slope s))) := by
  have h1 : ∀ i j, affine (lastWidth k pre) (netValue k (layerFns (C112_params pre.length s) 0 pre) (fun _ _ => 0))
      (fun i j => C112_params pre.length s (0 + 2 * pre.length) (i * n₁ + j)) (C112_params pre.length s (0 + 2 * pre.length + 1)) i j = s := by
    intro i j
    simp [affine_sum, C112_params]
  have h2 : ∀ i j, affine n₁ (fun i j => g.fn s) (fun i j => C112_params pre.length s (0 + 2 * pre.length + 2) (i * n + j))
      (C112_params pre.length s (0 + 2 * pre.length + 2 + 1)) i j = n₁ * (g.fn s * s) := by
    intro i j
    simp [affine_sum, C112_params]
  have hv : 0 ≤ f.fn (n₁ * (g.fn s * s)) := hf _ (mul_nonneg n₁.cast_nonneg (mul_nonneg hg hs.le))
  have h3 : ∀ i < m, ∀ j' < n, netTangent m (C112_params pre.length s) (unit (2 * pre.length + 1) j) k 0 (pre ++ [(n₁, g), (n, f)]) (fun _ _ => 0) (fun _ _ => 0) i j' =
      s * f.slope (n₁ * (g.fn s * s)) * ∑ kk ∈ Finset.range n₁, shuffledMat m n₁ (fun _ kk => g.slope s * if kk = j then 1 else 0) i kk := by
    intro i _ j' _
    rw [tangent_before _ pre k 0 _ (fun p hp c => by simp only [unit]; rw [if_neg (by omega)])]
    simp only [netTangent, h1, h2]
    simp only [zero_add]
    have e0 : ∀ c, unit (2 * pre.length + 1) j (2 * pre.length) c = 0 := fun c => by simp only [unit]; rw [if_neg (by omega)]
    have e1 : ∀ c, unit (2 * pre.length + 1) j (2 * pre.length + 1) c = if c = j then 1 else 0 := fun c => by simp [unit]
    have e2 : ∀ c, unit (2 * pre.length + 1) j (2 * pre.length + 2) c = 0 := fun c => by simp only [unit]; rw [if_neg (by omega)]
    have e3 : ∀ c, unit (2 * pre.length + 1) j (2 * pre.length + 2 + 1) c = 0 := fun c => by simp only [unit]; rw [if_neg (by omega)]
    simp only [e0, e1, e2, e3, shuffledMat, zero_mul, mul_zero, add_zero, zero_add, Finset.sum_const_zero]
    rw [Finset.mul_sum, Finset.mul_sum]
    refine Finset.sum_congr rfl fun kk _ => ?_
    rw [show C112_params pre.length s (2 * pre.length + 2) (kk * n + j') = s by simp [C112_params]]
    ring
  rw [lossTangent, lastWidth_append]
  have h4 : ∀ i ∈ Finset.range m, (∑ j' ∈ Finset.range (lastWidth (lastWidth k pre) [(n₁, g), (n, f)]),
      (if netValue k (layerFns (C112_params pre.length s) 0 (pre ++ [(n₁, g), (n, f)])) (fun _ _ => 0) i j' < b i j' then -1 else 1) *
        netTangent m (C112_params pre.length s) (unit (2 * pre.length + 1) j) k 0 (pre ++ [(n₁, g), (n, f)]) (fun _ _ => 0) (fun _ _ => 0) i j') =
      n * (s * f.slope (n₁ * (g.fn s * s)) * ∑ kk ∈ Finset.range n₁, shuffledMat m n₁ (fun _ kk => g.slope s * if kk = j then 1 else 0) i kk) := by
    intro i hi
    rw [show ∀ X : ℝ, n * X = ∑ _ ∈ Finset.range n, X from fun X => by simp]
    refine Finset.sum_congr (by simp [lastWidth]) fun j' hj' => ?_
    rw [h3 i (Finset.mem_range.1 hi) j' (by simpa [lastWidth] using hj'), value_append]
    simp only [netValue, layerFns, h1, h2]
    rw [if_neg (not_lt.2 ((hb i j').le.trans hv)), one_mul]
  rw [Finset.sum_congr rfl h4, ← Finset.mul_sum, ← Finset.mul_sum, shuffledMat_sum (fun x => x)]
  simp only [Finset.sum_ite_eq', Finset.mem_range, hj, if_true, Finset.sum_const, Finset.card_range, nsmul_eq_mul, ← Finset.mul_sum, mul_one]
  ring

theorem tanh_nonneg' {z : ℝ} (hz : 0 ≤ z) : 0 ≤ Real.tanh z := by
  rw [Real.tanh_eq_sinh_div_cosh]
  exact div_nonneg (Real.sinh_nonneg_iff.2 hz) (Real.cosh_pos z).le

theorem fn_nonneg (f : Act) {z : ℝ} (hz : 0 ≤ z) : 0 ≤ f.fn z := by
  cases f with
  | identity => exact hz
  | relu => exact le_max_right _ _
  | tanh => exact tanh_nonneg' hz

theorem slope_pos (f : Act) {z : ℝ} (hz : 0 ≤ z) : 0 < f.slope z := by
  cases f with
  | identity => exact one_pos
  | relu =>
    simp only [Act.slope]
    rw [if_neg (not_lt.2 hz)]
    exact one_pos
  | tanh =>
    have := (sq_lt_one_iff_abs_lt_one _).2 (Real.abs_tanh_lt_one z)
    simp only [Act.slope]
    linarith

theorem bias_mem_append (k : Nat) (ds ds' : List (Nat × Act)) (q c : Nat) (h : (q, c) ∈ coords k 0 ds) : (q, c) ∈ coords k 0 (ds ++ ds') := by
  have : ∀ (ds : List (Nat × Act)) (k p : Nat), (q, c) ∈ coords k p ds → (q, c) ∈ coords k p (ds ++ ds') := by
    intro ds
    induction ds with
    | nil => intro k p h; simp [coords] at h
    | cons d ds ih =>
      intro k p h
      simp only [List.cons_append, coords, Finset.mem_union] at h ⊢
      exact h.imp_right (ih _ _)
  exact this ds k 0 h

end RL
