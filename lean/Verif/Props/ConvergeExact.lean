import Verif.Props.Converge
import Verif.Lemmas.TrainStart

/-!
# Exactly which layers converge (C77)
-/

namespace RL

open Spec

namespace ConvergeTest

/-- the first input: 1, 1, -1, -1 -/
noncomputable def sgn (i : Nat) : ℝ := if i < 2 then 1 else -1

/-- four rows of inputs; only the first input is not 0 -/
noncomputable def rows (i r : Nat) : ℝ := if r = 0 then sgn i else 0

/-- expected outputs: the first one is the first input, the others do not favour any direction -/
noncomputable def expected (i j : Nat) : ℝ := if j = 0 then sgn i else if i = 0 ∨ i = 3 then 4 else -4

theorem out {k n : Nat} (hk : 0 < k) (θ : Nat → Nat → ℝ) (i j : Nat) :
    netValue k (layerFns θ 0 [(n, .identity)]) rows i j = sgn i * θ 0 j + θ 1 j := by
  simp only [layerFns, netValue, affine_sum, Act.fn, id]
  rw [Finset.sum_eq_single 0]
  · simp [rows]
  · intro r _ hr
    simp [rows, hr]
  · simp; omega

/-- the loss as long as the weights are small -/
theorem loss {k n : Nat} (hk : 0 < k) (hn : 0 < n) (θ : Nat → Nat → ℝ) (hθ : ∀ j < n, |θ 0 j| ≤ 4 ∧ θ 1 j = 0) :
    netLoss 4 k [(n, .identity)] rows expected θ = 4 * |θ 0 0 - 1| + (n - 1 : ℝ) * 16 := by
  obtain ⟨n, rfl⟩ : ∃ x, n = x + 1 := ⟨n - 1, by omega⟩
  simp only [netLoss, lastWidth, out hk]
  rw [Finset.sum_comm, Finset.sum_range_succ']
  have h0 : ∑ j ∈ Finset.range n, ∑ i ∈ Finset.range 4, |sgn i * θ 0 (j + 1) + θ 1 (j + 1) - expected i (j + 1)| = ∑ j ∈ Finset.range n, 16 := by
    refine Finset.sum_congr rfl fun j hj => ?_
    obtain ⟨h1, h2⟩ := hθ (j + 1) (by have := Finset.mem_range.1 hj; omega)
    obtain ⟨h3, h4⟩ := abs_le.1 h1
    simp only [Finset.sum_range_succ, Finset.sum_range_zero, h2, sgn, expected]
    norm_num
    rw [abs_of_nonpos (by linarith), abs_of_nonneg (by linarith), abs_of_nonneg (by linarith), abs_of_nonpos (by linarith)]
    ring
  rw [h0, (hθ 0 (by omega)).2]
  simp only [Finset.sum_range_succ, Finset.sum_range_zero, sgn, expected]
  norm_num
  rw [show -θ 0 0 + 1 = -(θ 0 0 - 1) by ring, abs_neg]
  ring

/-- what is computed as the gradient has one entry, at the wrong place -/
theorem tangent {k n : Nat} (hk : 0 < k) (hn : 0 < n) (hkn : 32 < k * n) (θ δ : Nat → Nat → ℝ) (h0 : θ 0 0 = 0) (hθ : ∀ j < n, |θ 0 j| < 4 ∧ θ 1 j = 0) :
    lossTangent 4 k [(n, .identity)] rows expected θ δ = -4 * δ 0 (k * n - 32) := by
  obtain ⟨n, rfl⟩ : ∃ x, n = x + 1 := ⟨n - 1, by omega⟩
  have ht : ∀ i j, netTangent 4 θ δ k 0 [(n + 1, .identity)] rows (fun _ _ => 0) i j =
      sgn i * δ 0 (shuffle (k * (n + 1)) j) + δ 1 j := by
    intro i j
    simp only [netTangent, Act.slope, one_mul, Nat.zero_add]
    rw [Finset.sum_eq_single 0]
    · simp [rows, shuffledMat, Nat.div_add_mod']
    · intro r _ hr
      simp [rows, hr, shuffledMat]
    · simp; omega
  simp only [lossTangent, lastWidth, out hk, ht]
  rw [Finset.sum_comm, Finset.sum_range_succ', Finset.sum_eq_zero, zero_add]
  · rw [h0, (hθ 0 (by omega)).2]
    simp only [Finset.sum_range_succ, Finset.sum_range_zero, sgn, expected]
    norm_num
    rw [show shuffle (k * (n + 1)) 0 = k * (n + 1) - 32 by simp [shuffle]; omega]
    ring
  · intro j hj
    obtain ⟨h1, h2⟩ := hθ (j + 1) (by have := Finset.mem_range.1 hj; omega)
    obtain ⟨h3, h4⟩ := abs_lt.1 h1
    simp only [Finset.sum_range_succ, Finset.sum_range_zero, h2, sgn, expected]
    norm_num
    rw [if_pos h4, if_neg (by linarith), if_neg (by linarith), if_pos (by linarith)]
    ring

/-- training only changes one weight, on which the loss does not depend -/
theorem steps {k n : Nat} (hk : 0 < k) (hn : 0 < n) (hkn : 32 < k * n) (lr : ℝ) (hlr : 0 < lr) (N : Nat) (hN : lr * N ≤ 1) (t : Nat) (ht : t < N) :
    (shuffledDescend lr 4 k [(n, .identity)] rows expected)^[t] (fun _ _ => 0) = fun q c => if q = 0 ∧ c = k * n - 32 then 4 * lr * t else 0 := by
  induction t with
  | zero => funext q c; simp
  | succ t ih =>
    rw [Function.iterate_succ_apply', ih (by omega)]
    funext q c
    have hb : |4 * lr * t| < 4 := by
      have h1 : (t : ℝ) + 1 ≤ N := by exact_mod_cast (by omega : t + 1 ≤ N)
      rw [abs_of_nonneg (by positivity)]
      nlinarith
    rw [shuffledDescend, tangent hk hn hkn]
    · by_cases hc : q = 0 ∧ c = k * n - 32
      · obtain ⟨rfl, rfl⟩ := hc
        simp
        ring
      · rw [if_neg hc, if_neg fun h => hc ⟨h.1.symm, h.2.symm⟩, if_neg hc]
        ring
    · rw [if_neg (by omega)]
    · intro j _
      constructor
      · split_ifs
        · exact hb
        · norm_num
      · simp

end ConvergeTest

/-- C77, exactly: the bound for the losses holds for all training runs of layers with `k` inputs and `n` outputs if and only if they have at
most 32 weights. For any larger layer there are four rows of inputs on which training changes nothing but a weight that the loss does not
depend on. -/
theorem C77_exact (k n : Nat) :
    (∀ (h : Heap ℝ) (mlp : Mlp ℝ) (x y m : Nat) (a b θ θ' : Nat → Nat → ℝ) (lr : ℝ) (N : Nat), Training h mlp x y m k [(n, .identity)] a b θ →
      0 < lr → 0 < N → ∃ t < N, ∃ h1 mlp1 h2 l L, train mlp h x y lr t = .ok (h1, mlp1) ∧ trainLoss mlp1 h1 x y = .ok (h2, l) ∧
        dataOf h2 l = some ⟨[L], []⟩ ∧
        L ≤ netLoss m k [(n, .identity)] a b θ' + sqDist k [(n, .identity)] θ θ' / (2 * lr * N) + lr * slopeBound m k n a / 2) ↔
      k * n ≤ 32 := by
  refine ⟨fun H => ?_, fun hS h mlp x y m a b θ θ' lr N ht hlr hN => C77_partial h mlp x y m k n a b θ θ' lr N ht hlr hN hS⟩
  by_contra hkn
  have hkn : 32 < k * n := by omega
  have hk : 0 < k := Nat.pos_of_ne_zero fun e => by simp [e] at hkn
  have hn : 0 < n := Nat.pos_of_ne_zero fun e => by simp [e] at hkn
  have hn1 : (1 : ℝ) ≤ n := by exact_mod_cast hn
  have hT := training_exists 4 k [(n, .identity)] ConvergeTest.rows ConvergeTest.expected (fun _ _ => 0) (by decide) hk (by simp [hn])
  have hlr : (0 : ℝ) < 1 / (16 * n) := by positivity
  have hlN : (1 : ℝ) / (16 * n) * (16 * n : Nat) = 1 := by
    push_cast
    field_simp
  obtain ⟨t, htN, h1, mlp1, h2, l, L, e1, e2, e3, hle⟩ := H _ _ _ _ _ _ _ _ (unit 0 0) (1 / (16 * n)) (16 * n) hT hlr (by omega)
  obtain ⟨h1', mlp1', e4, ht1⟩ := C50_actual t _ _ _ _ _ _ _ _ _ _ (1 / (16 * n)) hT
  rw [e1] at e4
  cases e4
  obtain ⟨h2', l', e5, e6⟩ := C54_loss _ _ _ _ _ _ _ _ _ _ ht1
  rw [e2] at e5
  cases e5
  rw [e3] at e6
  simp only [Option.some.injEq, Raw.mk.injEq, List.cons.injEq, and_true] at e6
  have hb : |4 * (1 / (16 * n)) * (t : ℝ)| ≤ 4 := by
    have h3 : (t : ℝ) ≤ (16 * n : Nat) := by exact_mod_cast htN.le
    rw [abs_of_nonneg (by positivity)]
    nlinarith
  rw [ConvergeTest.steps hk hn hkn _ hlr _ hlN.le t htN, ConvergeTest.loss hk hn] at e6
  · rw [ConvergeTest.loss hk hn] at hle
    · have v3 : sqDist k [(n, .identity)] (fun _ _ => 0) (unit 0 0) = 1 := by
        rw [sqDist, sum_coords, Finset.sum_eq_single 0, Finset.sum_eq_zero]
        · simp [unit]
        · simp [unit]
        · intro c _ hc
          simp [unit, hc]
        · simp; omega
      have v4 : slopeBound 4 k n ConvergeTest.rows = n * 32 := by
        rw [slopeBound, Finset.sum_eq_single 0]
        · simp [Finset.sum_range_succ, ConvergeTest.rows, ConvergeTest.sgn]
          norm_num
        · intro r _ hr
          simp [ConvergeTest.rows, hr]
        · simp; omega
      rw [v3, v4, e6, mul_assoc 2, hlN, if_neg (by omega)] at hle
      have : (1 : ℝ) / (16 * n) * (n * 32) / 2 = 1 := by
        field_simp
        norm_num
      rw [this] at hle
      simp [unit] at hle
      norm_num at hle
      linarith
    · intro j _
      simp only [unit]
      constructor
      · split_ifs <;> norm_num
      · simp
  · intro j _
    constructor
    · split_ifs
      · exact hb
      · norm_num
    · simp

/-- C77, test: a run as in the theorem, of a layer with 5 inputs and 7 outputs -/
example : ∃ h mlp x y, Training h mlp x y 4 5 [(7, .identity)] ConvergeTest.rows ConvergeTest.expected (fun _ _ => 0) :=
  ⟨_, _, _, _, training_exists 4 5 [(7, .identity)] _ _ _ (by decide) (by decide) (by simp)⟩

/-- C54 for layers without activation, exactly: small steps decrease the loss, for all data and all parameters without kinks at which
the loss has a derivative other than 0, if and only if the layer has at most 32 weights. -/
theorem C54_layer_exact (k n : Nat) :
    (∀ (h : Heap ℝ) (mlp : Mlp ℝ) (x y m : Nat) (a b θ : Nat → Nat → ℝ),
      Training h mlp x y m k [(n, .identity)] a b θ → Smooth m k [(n, .identity)] a b θ →
      (∃ q c, deriv (fun z => netLoss m k [(n, .identity)] a b (Function.update θ q (Function.update (θ q) c z))) (θ q c) ≠ 0) →
      ∃ η > 0, ∀ lr, 0 < lr → lr < η → ∃ h' mlp' h1 l1 h2 l2 L1 L2, trainStep mlp h x y lr = .ok (h', mlp') ∧
        trainLoss mlp h x y = .ok (h1, l1) ∧ trainLoss mlp' h' x y = .ok (h2, l2) ∧
        dataOf h1 l1 = some ⟨[L1], []⟩ ∧ dataOf h2 l2 = some ⟨[L2], []⟩ ∧ L2 < L1) ↔
      k * n ≤ 32 := by
  refine ⟨fun H => ?_, fun hS h mlp x y m a b θ ht hK hd => C54_partial h mlp x y m k _ a b θ ht hK ⟨hS, by simp, trivial⟩ hd⟩
  by_contra hkn
  have hkn : 32 < k * n := by omega
  have hk : 0 < k := Nat.pos_of_ne_zero fun e => by simp [e] at hkn
  have hn : 0 < n := Nat.pos_of_ne_zero fun e => by simp [e] at hkn
  have hT := training_exists 4 k [(n, .identity)] ConvergeTest.rows ConvergeTest.expected (fun _ _ => 0) (by decide) hk (by simp [hn])
  have hK : Smooth 4 k [(n, .identity)] ConvergeTest.rows ConvergeTest.expected fun _ _ => 0 := by
    refine ⟨⟨by simp, trivial⟩, fun i _ j _ => ?_⟩
    rw [ConvergeTest.out hk]
    simp only [ConvergeTest.expected, ConvergeTest.sgn]
    split_ifs <;> norm_num
  obtain ⟨η, hη, h1⟩ := H _ _ _ _ _ _ _ _ hT hK ⟨0, 0, by
    have h2 : HasDerivAt (fun z : ℝ => 4 * |z - 1| + (n - 1 : ℝ) * 16) (-4) 0 := by
      have h3 : HasDerivAt (fun z : ℝ => |z - 1|) (-1) 0 :=
        HasDerivAt.comp (h₂ := fun z : ℝ => |z|) (h := fun z : ℝ => z - 1) 0 (hasDerivAt_abs_neg (by norm_num)) ((hasDerivAt_id (0 : ℝ)).sub_const 1) |>.congr_deriv (by norm_num)
      exact ((h3.const_mul 4).add_const _).congr_deriv (by norm_num)
    have h4 : (fun z : ℝ => netLoss 4 k [(n, .identity)] ConvergeTest.rows ConvergeTest.expected
        (Function.update (fun _ _ => 0) 0 (Function.update (fun _ => 0) 0 z))) =ᶠ[nhds 0] fun z => 4 * |z - 1| + (n - 1 : ℝ) * 16 := by
      filter_upwards [Metric.ball_mem_nhds (0 : ℝ) (by norm_num : (0 : ℝ) < 4)] with z hz
      rw [ConvergeTest.loss hk hn]
      · simp
      · intro j _
        have hz : |z| < 4 := by simpa using hz
        by_cases hj : j = 0
        · subst hj
          simpa using hz.le
        · simp [Function.update, hj]
    rw [(h2.congr_of_eventuallyEq h4).deriv]
    norm_num⟩
  set lr := min (η / 2) (1 / 2) with hlr
  have h0 : 0 < lr := lt_min (by linarith) (by norm_num)
  have hlt : lr < η := (min_le_left _ _).trans_lt (by linarith)
  have hle : lr * (2 : Nat) ≤ 1 := by
    have : lr ≤ 1 / 2 := min_le_right _ _
    push_cast
    linarith
  obtain ⟨h', mlp', g1, l1, g2, l2, L1, L2, e1, e2, e3, e4, e5, hL⟩ := h1 lr h0 hlt
  obtain ⟨h'', mlp'', e6, ht'⟩ := C50_step_actual _ _ _ _ _ _ _ _ _ _ lr hT
  rw [e1] at e6
  cases e6
  obtain ⟨_, _, e7, e8⟩ := C54_loss _ _ _ _ _ _ _ _ _ _ hT
  obtain ⟨_, _, e9, e10⟩ := C54_loss _ _ _ _ _ _ _ _ _ _ ht'
  rw [e2] at e7
  cases e7
  rw [e3] at e9
  cases e9
  rw [e4] at e8
  rw [e5] at e10
  simp only [Option.some.injEq, Raw.mk.injEq, List.cons.injEq, and_true] at e8 e10
  have hs := ConvergeTest.steps hk hn hkn lr h0 2 hle 1 (by decide)
  rw [Function.iterate_one] at hs
  rw [hs, ConvergeTest.loss hk hn] at e10
  · rw [ConvergeTest.loss hk hn] at e8
    · rw [if_neg (by omega)] at e10
      rw [e8, e10] at hL
      exact lt_irrefl _ hL
    · intro j _
      simp
  · intro j _
    constructor
    · have : lr ≤ 1 / 2 := min_le_right _ _
      split_ifs
      · rw [abs_of_nonneg (by positivity)]
        push_cast
        linarith
      · norm_num
    · simp

end RL
