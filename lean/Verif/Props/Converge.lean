import Verif.Lemmas.Converge
import Verif.Props.Descent

/-!
# Convergence of training (C77)
-/

namespace RL

open Spec

/-- C77, full statement: training of a layer without activation. The smallest of the losses computed in the first `N` rounds of the loop
exceeds the loss of any other parameters `θ'` by at most `d ^ 2 / (2 * lr * N) + lr * G / 2`, where `d` is the distance of the initial
parameters from `θ'` and `G` only depends on the data. It is false: see `C77_false`. -/
def C77_statement : Prop :=
  ∀ (h : Heap ℝ) (mlp : Mlp ℝ) (x y m k n : Nat) (a b θ θ' : Nat → Nat → ℝ) (lr : ℝ) (N : Nat), Training h mlp x y m k [(n, .identity)] a b θ →
    0 < lr → 0 < N → ∃ t < N, ∃ h1 mlp1 h2 l L, train mlp h x y lr t = .ok (h1, mlp1) ∧ trainLoss mlp1 h1 x y = .ok (h2, l) ∧
      dataOf h2 l = some ⟨[L], []⟩ ∧
      L ≤ netLoss m k [(n, .identity)] a b θ' + sqDist k [(n, .identity)] θ θ' / (2 * lr * N) + lr * slopeBound m k n a / 2

/-- C77: what a training step subtracts from the parameters is `lr` times a subgradient of the loss, also at its kinks; it does not depend on
`lr`, and the square of its length is at most `slopeBound`. -/
theorem C77_subgradient (h : Heap ℝ) (mlp : Mlp ℝ) (x y m k n : Nat) (a b θ : Nat → Nat → ℝ) (ht : Training h mlp x y m k [(n, .identity)] a b θ)
    (hS : k * n ≤ 32) : ∃ g : Nat → Nat → ℝ,
      (∀ θ', netLoss m k [(n, .identity)] a b θ + ∑ p ∈ coords k 0 [(n, .identity)], (θ' p.1 p.2 - θ p.1 p.2) * g p.1 p.2 ≤ netLoss m k [(n, .identity)] a b θ') ∧
      ∑ p ∈ coords k 0 [(n, .identity)], g p.1 p.2 ^ 2 ≤ slopeBound m k n a ∧
      ∀ lr, ∃ h' mlp', trainStep mlp h x y lr = .ok (h', mlp') ∧ Training h' mlp' x y m k [(n, .identity)] a b fun q c => θ q c - lr * g q c := by
  refine ⟨fun q c => lossTangent m k [(n, .identity)] a b θ (unit q c), fun θ' => ?_, ?_, fun lr => C50_step_actual h mlp x y m k _ a b θ lr ht⟩
  · simp only [lossTangent_small (m := m) (k := k) (ds := [(n, .identity)]) ⟨hS, by simp, trivial⟩]
    have := linear_subgradient m k n a b θ θ'
    rw [lossDiff_expand] at this
    exact this
  · simp only [lossTangent_small (m := m) (k := k) (ds := [(n, .identity)]) ⟨hS, by simp, trivial⟩]
    exact linear_slope m k n (training_pos ht).2 a b θ

/-- C77 for layers with at most 32 weights. Missing: more weights; for these it is false. -/
theorem C77_partial (h : Heap ℝ) (mlp : Mlp ℝ) (x y m k n : Nat) (a b θ θ' : Nat → Nat → ℝ) (lr : ℝ) (N : Nat)
    (ht : Training h mlp x y m k [(n, .identity)] a b θ) (hlr : 0 < lr) (hN : 0 < N) (hS : k * n ≤ 32) :
    ∃ t < N, ∃ h1 mlp1 h2 l L, train mlp h x y lr t = .ok (h1, mlp1) ∧ trainLoss mlp1 h1 x y = .ok (h2, l) ∧
      dataOf h2 l = some ⟨[L], []⟩ ∧
      L ≤ netLoss m k [(n, .identity)] a b θ' + sqDist k [(n, .identity)] θ θ' / (2 * lr * N) + lr * slopeBound m k n a / 2 := by
  have hsm : SmallNet m k [(n, .identity)] := ⟨hS, by simp, trivial⟩
  obtain ⟨t, htN, hle⟩ := best_of_steps (k := k) (ds := [(n, .identity)]) (L := netLoss m k [(n, .identity)] a b) (θ' := θ')
    (g := fun θ q c => lossTangent m k [(n, .identity)] a b θ (unit q c)) (G := slopeBound m k n a) hlr (fun θ => by
      simp only [lossTangent_small hsm]
      have := linear_subgradient m k n a b θ θ'
      rw [lossDiff_expand] at this
      exact this) (fun θ => by
      simp only [lossTangent_small hsm]
      exact linear_slope m k n (training_pos ht).2 a b θ) θ N hN
  obtain ⟨h1, mlp1, e1, ht1⟩ := C50_actual t h mlp x y m k _ a b θ lr ht
  obtain ⟨h2, l, e2, e3⟩ := C54_loss _ _ _ _ _ _ _ _ _ _ ht1
  exact ⟨t, htN, h1, mlp1, h2, l, _, e1, e2, e3, hle⟩

/-- C77: with the learning rate `d / sqrt (N * G)` the excess is at most `d * sqrt (G / N)`: it goes to 0 as `N` grows. -/
theorem C77_rate_partial (h : Heap ℝ) (mlp : Mlp ℝ) (x y m k n : Nat) (a b θ θ' : Nat → Nat → ℝ) (d : ℝ) (N : Nat)
    (ht : Training h mlp x y m k [(n, .identity)] a b θ) (hd : 0 < d) (hdist : sqDist k [(n, .identity)] θ θ' ≤ d ^ 2)
    (hN : 0 < N) (hS : k * n ≤ 32) :
    ∃ t < N, ∃ h1 mlp1 h2 l L, train mlp h x y (d / Real.sqrt (N * slopeBound m k n a)) t = .ok (h1, mlp1) ∧ trainLoss mlp1 h1 x y = .ok (h2, l) ∧
      dataOf h2 l = some ⟨[L], []⟩ ∧ L ≤ netLoss m k [(n, .identity)] a b θ' + d * Real.sqrt (slopeBound m k n a / N) := by
  have hN' : (0 : ℝ) < N := by exact_mod_cast hN
  have hpos : 0 < slopeBound m k n a := by
    obtain ⟨hm, hw⟩ := training_pos ht
    have hm' : (0 : ℝ) < m := by exact_mod_cast hm
    have hn' : (0 : ℝ) < n := by exact_mod_cast (show 0 < n from hw)
    have : 0 ≤ ∑ r ∈ Finset.range k, (∑ i ∈ Finset.range m, |a i r|) ^ 2 := Finset.sum_nonneg fun r _ => sq_nonneg _
    unfold slopeBound
    positivity
  set G := slopeBound m k n a with hG
  have hs : 0 < Real.sqrt (N * G) := Real.sqrt_pos.2 (by positivity)
  obtain ⟨t, htN, h1, mlp1, h2, l, L, e1, e2, e3, hle⟩ := C77_partial h mlp x y m k n a b θ θ' (d / Real.sqrt (N * G)) N ht (by positivity) hN hS
  refine ⟨t, htN, h1, mlp1, h2, l, L, e1, e2, e3, hle.trans ?_⟩
  rw [← hG]
  have hsq : Real.sqrt (N * G) * Real.sqrt (N * G) = N * G := Real.mul_self_sqrt (by positivity)
  have h4 : Real.sqrt (G / N) = Real.sqrt (N * G) / N := by
    rw [Real.sqrt_eq_iff_mul_self_eq (by positivity) (by positivity)]
    rw [div_mul_div_comm, hsq]
    field_simp
  have h5 : sqDist k [(n, .identity)] θ θ' / (2 * (d / Real.sqrt (N * G)) * N) ≤ d * Real.sqrt (N * G) / (2 * N) := by
    rw [div_le_div_iff₀ (by positivity) (by positivity)]
    have : d * Real.sqrt (N * G) * (2 * (d / Real.sqrt (N * G)) * N) = d ^ 2 * (2 * N) := by
      field_simp
    rw [this]
    exact mul_le_mul_of_nonneg_right hdist (by positivity)
  have h6 : d / Real.sqrt (N * G) * G / 2 = d * Real.sqrt (N * G) / (2 * N) := by
    rw [div_mul_eq_mul_div, div_div, div_eq_div_iff (by positivity) (by positivity)]
    linear_combination (-2 * d) * hsq
  rw [h4, h6]
  have h7 : d * (Real.sqrt (N * G) / N) = d * Real.sqrt (N * G) / (2 * N) + d * Real.sqrt (N * G) / (2 * N) := by
    field_simp
    ring
  linarith

/-- C77, test: the hypotheses of `C77_partial` for one weight 2, bias 0, input 1, expected output 3, and the excess over the loss 0 of
weight 3 that it allows: `1 / (2 * lr * N) + lr`. -/
example (lr : ℝ) (N : Nat) (hlr : 0 < lr) (hN : 0 < N) :
    ∃ t < N, ∃ h1 mlp1 h2 l L, train C50_net [leafNode ⟨[1], [1, 1]⟩, leafNode ⟨[2], [1, 1]⟩, leafNode ⟨[0], [1]⟩, leafNode ⟨[3], [1, 1]⟩] 0 3 lr t = .ok (h1, mlp1) ∧
      trainLoss mlp1 h1 0 3 = .ok (h2, l) ∧ dataOf h2 l = some ⟨[L], []⟩ ∧ L ≤ 1 / (2 * lr * N) + lr := by
  obtain ⟨t, ht, h1, mlp1, h2, l, L, e1, e2, e3, hle⟩ := C77_partial _ _ _ _ _ _ _ _ _ _ (fun q _ => if q = 0 then 3 else 0) lr N C54_test hlr hN (by decide)
  refine ⟨t, ht, h1, mlp1, h2, l, L, e1, e2, e3, hle.trans (le_of_eq ?_)⟩
  have v1 : netLoss 1 1 [(1, .identity)] (fun _ _ => 1) (fun _ _ => 3) (fun q _ => if q = 0 then 3 else 0) = 0 := by
    simp [netLoss, lastWidth, layerFns, netValue, affine_sum, Act.fn]
  have v2 : sqDist 1 [(1, .identity)] (fun q _ => if q = 0 then 2 else 0) (fun q _ => if q = 0 then 3 else 0) = 1 := by
    rw [sqDist, sum_coords]
    norm_num
  have v3 : slopeBound 1 1 1 (fun _ _ => 1) = 2 := by
    norm_num [slopeBound]
  rw [v1, v2, v3]
  ring

/-- C77: the output for the row of `C54_row` -/
theorem C77_out (θ : Nat → Nat → ℝ) : netValue 33 (layerFns θ 0 [(1, .identity)]) C54_row 0 0 = 2 * θ 0 0 - 2 * θ 0 1 + θ 1 0 := by
  have h1 : ∑ j ∈ Finset.range 33, C54_row 0 j * θ 0 j = ∑ j ∈ Finset.range 2, C54_row 0 j * θ 0 j := by
    refine (Finset.sum_subset (Finset.range_mono (by decide)) fun j _ hj => ?_).symm
    rw [Finset.mem_range, not_lt] at hj
    simp [C54_row, show j ≠ 0 by omega, show j ≠ 1 by omega]
  simp only [layerFns, netValue, affine_sum, Act.fn, id, Nat.mul_one, Nat.add_zero, h1]
  simp [Finset.sum_range_succ, C54_row]
  ring

theorem C77_loss (θ : Nat → Nat → ℝ) : netLoss 1 33 [(1, .identity)] C54_row (fun _ _ => 1) θ = |2 * θ 0 0 - 2 * θ 0 1 + θ 1 0 - 1| := by
  simp [netLoss, lastWidth, C77_out]

/-- C77: as long as the output is below 1, what is computed as the gradient does not change -/
theorem C77_tangent (θ δ : Nat → Nat → ℝ) (h : 2 * θ 0 0 - 2 * θ 0 1 + θ 1 0 < 1) :
    lossTangent 1 33 [(1, .identity)] C54_row (fun _ _ => 1) θ δ = lossTangent 1 33 [(1, .identity)] C54_row (fun _ _ => 1) (fun _ _ => 0) δ := by
  have h0 : netValue 33 (layerFns (fun _ _ => 0) 0 [(1, .identity)]) C54_row 0 0 < 1 := by
    rw [C77_out]
    norm_num
  rw [← C77_out] at h
  simp only [lossTangent, lastWidth, Finset.sum_range_one, h, h0, if_true]
  simp [netTangent, Act.slope, shuffledMat]

/-- C77: the output only gets smaller -/
theorem C77_worse (lr : ℝ) (hlr : 0 < lr) (t : Nat) :
    let θ := (shuffledDescend lr 1 33 [(1, .identity)] C54_row fun _ _ => 1)^[t] fun _ _ => 0
    2 * θ 0 0 - 2 * θ 0 1 + θ 1 0 = -3 * lr * t := by
  induction t with
  | zero => simp
  | succ t ih =>
    simp only [Function.iterate_succ_apply'] at ih ⊢
    set θ := (shuffledDescend lr 1 33 [(1, .identity)] C54_row fun _ _ => 1)^[t] fun _ _ => 0 with hθ
    have hlt : 2 * θ 0 0 - 2 * θ 0 1 + θ 1 0 < 1 := by
      rw [ih]
      have : (0 : ℝ) ≤ t := Nat.cast_nonneg t
      nlinarith
    have w : ∀ c, shuffledDescend lr 1 33 [(1, .identity)] C54_row (fun _ _ => 1) θ 0 c =
        θ 0 c + lr * ∑ j ∈ Finset.range 33, C54_row 0 j * if shuffle 33 j = c then 1 else 0 := by
      intro c
      rw [shuffledDescend, C77_tangent θ _ hlt, C54_weight]
      ring
    have wb : shuffledDescend lr 1 33 [(1, .identity)] C54_row (fun _ _ => 1) θ 1 0 = θ 1 0 + lr := by
      rw [shuffledDescend, C77_tangent θ _ hlt, C54_bias]
      ring
    rw [w, w, wb, C54_w0, C54_w1]
    push_cast
    linarith

/-- C77 is false: for the layer of `C54_false`, with learning rate 1/100, all losses are at least 1; there are parameters with loss 0 at
distance 1, so that one of the first 100 losses should be at most 0.545. -/
theorem C77_false : ¬ C77_statement := by
  intro H
  obtain ⟨t, _, h1, mlp1, h2, l, L, e1, e2, e3, hle⟩ := H _ _ _ _ _ _ _ _ _ _ (fun q c => if q = 1 ∧ c = 0 then 1 else 0) (1 / 100) 100 C54_training (by norm_num) (by norm_num)
  obtain ⟨h1', mlp1', e4, ht1⟩ := C50_actual t _ _ _ _ _ _ _ _ _ _ (1 / 100) C54_training
  rw [e1] at e4
  cases e4
  obtain ⟨h2', l', e5, e6⟩ := C54_loss _ _ _ _ _ _ _ _ _ _ ht1
  rw [e2] at e5
  cases e5
  rw [e3] at e6
  simp only [Option.some.injEq, Raw.mk.injEq, List.cons.injEq, and_true] at e6
  have hw := C77_worse (1 / 100) (by norm_num) t
  simp only at hw
  have v1 : 1 ≤ L := by
    rw [e6, C77_loss, hw]
    have : (0 : ℝ) ≤ t := Nat.cast_nonneg t
    rw [abs_of_neg (by linarith)]
    linarith
  have v2 : netLoss 1 33 [(1, .identity)] C54_row (fun _ _ => 1) (fun q c => if q = 1 ∧ c = 0 then 1 else 0) = 0 := by
    rw [C77_loss]
    simp
  have v3 : sqDist 33 [(1, .identity)] (fun _ _ => 0) (fun q c => if q = 1 ∧ c = 0 then 1 else 0) = 1 := by
    rw [sqDist, sum_coords]
    simp
  have v4 : slopeBound 1 33 1 C54_row = 9 := by
    have h1 : ∑ r ∈ Finset.range 33, (∑ i ∈ Finset.range 1, |C54_row i r|) ^ 2 = ∑ r ∈ Finset.range 2, |C54_row 0 r| ^ 2 := by
      simp only [Finset.sum_range_one]
      refine (Finset.sum_subset (Finset.range_mono (by decide)) fun j _ hj => ?_).symm
      rw [Finset.mem_range, not_lt] at hj
      simp [C54_row, show j ≠ 0 by omega, show j ≠ 1 by omega]
    rw [slopeBound, h1]
    norm_num [Finset.sum_range_succ, C54_row]
  rw [v2, v3, v4] at hle
  norm_num at hle
  linarith

end RL
