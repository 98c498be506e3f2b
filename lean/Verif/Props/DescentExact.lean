import Verif.Lemmas.DescentLayer
import Verif.Lemmas.DescentDeep

/-!
# Exactly for which networks small steps decrease the loss (C54)
-/

namespace RL

open Spec

/-- C54 for single layers with any activation, exactly: small steps decrease the loss, for all data and all parameters without kinks at which the loss has a
derivative other than 0, if and only if the layer has at most 32 weights. -/
theorem C54_exact (k n : Nat) (f : Act) :
    (∀ (h : Heap ℝ) (mlp : Mlp ℝ) (x y m : Nat) (a b θ : Nat → Nat → ℝ), Training h mlp x y m k [(n, f)] a b θ → Smooth m k [(n, f)] a b θ →
      (∃ q c, deriv (fun z => netLoss m k [(n, f)] a b (Function.update θ q (Function.update (θ q) c z))) (θ q c) ≠ 0) →
      ∃ η > 0, ∀ lr, 0 < lr → lr < η → ∃ h' mlp' h1 l1 h2 l2 L1 L2, trainStep mlp h x y lr = .ok (h', mlp') ∧
        trainLoss mlp h x y = .ok (h1, l1) ∧ trainLoss mlp' h' x y = .ok (h2, l2) ∧
        dataOf h1 l1 = some ⟨[L1], []⟩ ∧ dataOf h2 l2 = some ⟨[L2], []⟩ ∧ L2 < L1) ↔
      k * n ≤ 32 := by
  refine ⟨fun H => ?_, fun hS h mlp x y m a b θ ht hK hd => C54_partial h mlp x y m k _ a b θ ht hK ⟨hS, by simp, trivial⟩ hd⟩
  by_contra hkn
  have hkn : 32 < k * n := by omega
  have hk : 0 < k := Nat.pos_of_ne_zero fun e => by simp [e] at hkn
  have hn : 0 < n := Nat.pos_of_ne_zero fun e => by simp [e] at hkn
  obtain ⟨β, φ, hs, hd, h00, hr, hφ⟩ := LayerTest.odd_at f
  let θ : Nat → Nat → ℝ := fun q _ => if q = 1 then β else 0
  have hT := training_exists 4 k [(n, f)] ConvergeTest.rows (LayerTest.target (f.fn β)) θ (by decide) hk (by simp [hn])
  have hpre : ∀ i j, affine k ConvergeTest.rows (fun i j => θ 0 (i * n + j)) (θ 1) i j = β := by
    intro i j
    rw [LayerTest.pre_out hk]
    simp [θ]
  have hK : Smooth 4 k [(n, f)] ConvergeTest.rows (LayerTest.target (f.fn β)) θ := by
    refine ⟨⟨fun hf i _ j _ => ?_, trivial⟩, fun i _ j _ => ?_⟩
    · rw [Nat.zero_add, hpre]
      exact (hr hf).ne'
    · simp only [layerFns, netValue, Nat.zero_add]
      rw [hpre]
      simp only [LayerTest.target, ConvergeTest.expected, ConvergeTest.sgn]
      split_ifs <;> norm_num
  obtain ⟨η, hη, h1⟩ := H _ _ _ _ _ _ _ _ hT hK ⟨0, 0, by
    have h2 : HasDerivAt (fun z : ℝ => 4 * |φ z - 1| + (n - 1 : ℝ) * 16) (-4) 0 := by
      have h3 : HasDerivAt (fun z : ℝ => |φ z - 1|) (-1) 0 :=
        HasDerivAt.comp (h₂ := fun z : ℝ => |z|) (h := fun z : ℝ => φ z - 1) 0 (hasDerivAt_abs_neg (by rw [h00]; norm_num)) (hd.sub_const 1) |>.congr_deriv
          (by norm_num)
      exact ((h3.const_mul 4).add_const _).congr_deriv (by norm_num)
    have h4 : (fun z : ℝ => netLoss 4 k [(n, f)] ConvergeTest.rows (LayerTest.target (f.fn β))
        (Function.update θ 0 (Function.update (θ 0) 0 z))) =ᶠ[nhds 0] fun z => 4 * |φ z - 1| + (n - 1 : ℝ) * 16 := by
      filter_upwards [Metric.ball_mem_nhds (0 : ℝ) (by norm_num : (0 : ℝ) < 1 / 2)] with z hz
      rw [LayerTest.layer_loss hφ hk hn]
      · simp
      · intro j _
        have hz : |z| < 1 / 2 := by simpa using hz
        by_cases hj : j = 0
        · subst hj
          simpa [θ] using hz.le
        · simp [Function.update, hj, θ]
    have h5 : θ 0 0 = 0 := by simp [θ]
    rw [h5, (h2.congr_of_eventuallyEq h4).deriv]
    norm_num⟩
  set lr := min (η / 2) (1 / 8) with hlr
  have h0 : 0 < lr := lt_min (by linarith) (by norm_num)
  have hlt : lr < η := (min_le_left _ _).trans_lt (by linarith)
  have hle : lr ≤ 1 / 8 := min_le_right _ _
  obtain ⟨h', mlp', g1, l1, g2, l2, L1, L2, e1, e2, e3, e4, e5, hL⟩ := h1 lr h0 hlt
  obtain ⟨h'', mlp'', e6, ht'⟩ := C50_step_actual _ _ _ _ _ _ _ _ _ _ lr hT
  rw [e1] at e6
  cases e6
  obtain ⟨_, _, e7, e8⟩ := C54_loss _ _ _ _ _ _ _ _ _ _ hT
  obtain ⟨_, _, e9, e10⟩ := C54_loss _ _ _ _ _ _ _ _ _ _ ht'
  rw [e2] at e7
  cases e7
  rw [e3] at e9
  cases e9
  rw [e4] at e8
  rw [e5] at e10
  simp only [Option.some.injEq, Raw.mk.injEq, List.cons.injEq, and_true] at e8 e10
  have hst : shuffledDescend lr 4 k [(n, f)] ConvergeTest.rows (LayerTest.target (f.fn β)) θ = fun q c =>
      θ q c + if q = 0 ∧ c = k * n - 32 then 4 * lr else 0 := by
    funext q c
    rw [shuffledDescend, LayerTest.layer_tangent hs hk hn hkn]
    by_cases hc : q = 0 ∧ c = k * n - 32
    · obtain ⟨rfl, rfl⟩ := hc
      simp
      ring
    · rw [if_neg hc, if_neg fun h => hc ⟨h.1.symm, h.2.symm⟩]
      ring
  rw [hst, LayerTest.layer_loss hφ hk hn] at e10
  · rw [LayerTest.layer_loss hφ hk hn] at e8
    · rw [if_neg (by omega), add_zero] at e10
      rw [e8, e10] at hL
      exact lt_irrefl _ hL
    · intro j _
      simp [θ]
  · intro j _
    simp only [θ, zero_ne_one, if_false, if_true, zero_add, true_and, one_ne_zero, false_and, add_zero, and_true]
    split_ifs
    · rw [abs_of_nonneg (by positivity)]
      linarith
    · norm_num

/-- C54, test: a run as in the theorem, of a `relu` layer with 5 inputs and 7 outputs -/
example : ∃ h mlp x y, Training h mlp x y 4 5 [(7, .relu)] ConvergeTest.rows (LayerTest.target 1) (fun q _ => if q = 1 then 1 else 0) :=
  ⟨_, _, _, _, training_exists 4 5 [(7, .relu)] _ _ _ (by decide) (by decide) (by simp)⟩

/-- C54, exactly: small steps decrease the loss, for all data and all parameters without kinks at which the loss has a derivative other than 0, if and only if
the network is a single layer with at most 32 weights. For every network of several layers there are 64 rows of data for which the computed gradient is the
negative of the gradient. -/
theorem C54_net_exact (k : Nat) (ds : List (Nat × Act)) (hk : 0 < k) (hd : ∀ d ∈ ds, 0 < d.1) (hds : ds ≠ []) :
    (∀ (h : Heap ℝ) (mlp : Mlp ℝ) (x y m : Nat) (a b θ : Nat → Nat → ℝ), Training h mlp x y m k ds a b θ → Smooth m k ds a b θ →
      (∃ q c, deriv (fun z => netLoss m k ds a b (Function.update θ q (Function.update (θ q) c z))) (θ q c) ≠ 0) →
      ∃ η > 0, ∀ lr, 0 < lr → lr < η → ∃ h' mlp' h1 l1 h2 l2 L1 L2, trainStep mlp h x y lr = .ok (h', mlp') ∧
        trainLoss mlp h x y = .ok (h1, l1) ∧ trainLoss mlp' h' x y = .ok (h2, l2) ∧
        dataOf h1 l1 = some ⟨[L1], []⟩ ∧ dataOf h2 l2 = some ⟨[L2], []⟩ ∧ L2 < L1) ↔
      ∃ n f, ds = [(n, f)] ∧ k * n ≤ 32 := by
  constructor
  swap
  · rintro ⟨n, f, rfl, hS⟩
    exact (C54_exact k n f).2 hS
  intro H
  obtain ⟨pre, ⟨n, f⟩, rfl⟩ := (List.eq_nil_or_concat' ds).resolve_left hds
  rcases List.eq_nil_or_concat' pre with rfl | ⟨pre, ⟨n₁, g⟩, rfl⟩
  · exact ⟨n, f, rfl, (C54_exact k n f).1 H⟩
  exfalso
  have hn₁ : 0 < n₁ := hd (n₁, g) (by simp)
  have hn : 0 < n := hd (n, f) (by simp)
  have hpre : ∀ d ∈ pre, 0 < d.1 := fun d h => hd d (by simp [h])
  have hK0 : 0 < lastWidth k pre := lastWidth_pos pre k hk hpre
  rw [List.append_assoc, List.cons_append, List.nil_append] at *
  have hlev : ∀ i, 0 < DeepTest.level i := fun i => by
    simp only [DeepTest.level]
    split <;> norm_num
  have hg1 : 0 < g.fn 1 := (DeepTest.fn_pos g one_pos one_lt_two).1
  have hn₁' : (0 : ℝ) < n₁ := by exact_mod_cast hn₁
  have hz : 0 < n₁ * g.fn 1 := mul_pos hn₁' hg1
  have hT := training_exists 64 k (pre ++ [(n₁, g), (n, f)]) (fun i _ => DeepTest.level i) (fun i _ => DeepTest.output n₁ g f + DeepTest.side i)
    (DeepTest.params (2 * pre.length)) (by decide) hk hd
  have hK : Smooth 64 k (pre ++ [(n₁, g), (n, f)]) (fun i _ => DeepTest.level i) (fun i _ => DeepTest.output n₁ g f + DeepTest.side i)
      (DeepTest.params (2 * pre.length)) := by
    refine ⟨?_, fun i _ j _ => ?_⟩
    · refine DeepTest.smooth_ones pre k 0 (by omega) rfl hk hpre _ hlev ?_
      simp only [ReluSmooth, Nat.zero_add, DeepTest.affine_hidden, DeepTest.affine_last _ _ _ (by omega : 2 * pre.length % 2 = 0)]
      exact ⟨fun _ _ _ _ _ => one_ne_zero, fun _ _ _ _ _ => hz.ne', trivial⟩
    · rw [DeepTest.value_all]
      simp only [DeepTest.side]
      split <;> norm_num
  -- the slope by the first weight of the last layer but one is not 0
  have hS : ∑ i ∈ Finset.range 64, DeepTest.side i * DeepTest.through k pre (DeepTest.level i) = 32 * (DeepTest.through k pre 2 - DeepTest.through k pre 1) := by
    simp only [DeepTest.side, DeepTest.level]
    rw [show (64 : Nat) = 32 + 32 from rfl, Finset.sum_range_add]
    have h1 : ∑ i ∈ Finset.range 32, (if i < 32 then 1 else -1 : ℝ) * DeepTest.through k pre (if i < 32 then 2 else 1) =
        ∑ i ∈ Finset.range 32, DeepTest.through k pre 2 :=
      Finset.sum_congr rfl fun i hi => by rw [if_pos (Finset.mem_range.1 hi), if_pos (Finset.mem_range.1 hi), one_mul]
    have h2 : ∑ i ∈ Finset.range 32, (if 32 + i < 32 then 1 else -1 : ℝ) * DeepTest.through k pre (if 32 + i < 32 then 2 else 1) =
        ∑ i ∈ Finset.range 32, -DeepTest.through k pre 1 :=
      Finset.sum_congr rfl fun i _ => by rw [if_neg (by omega), if_neg (by omega), neg_one_mul]
    rw [h1, h2, Finset.sum_const, Finset.sum_const, Finset.card_range, nsmul_eq_mul, nsmul_eq_mul]
    push_cast
    ring
  have hne : lossDiff 64 k (pre ++ [(n₁, g), (n, f)]) (fun i _ => DeepTest.level i) (fun i _ => DeepTest.output n₁ g f + DeepTest.side i)
      (DeepTest.params (2 * pre.length)) (unit (2 * pre.length) 0) ≠ 0 := by
    rw [DeepTest.actual, hS, Finset.sum_eq_single 0, Finset.sum_eq_single 0]
    · have h1 := (DeepTest.through_pos pre k hk hpre 1 2 one_pos one_lt_two).2
      have h2 := slope_pos f hz.le
      have h3 := slope_pos g zero_le_one
      have h4 : (0 : ℝ) < n := by exact_mod_cast hn
      have h5 : 0 < DeepTest.through k pre 2 - DeepTest.through k pre 1 := by linarith
      simp only [unit, Nat.zero_mul, Nat.zero_add, and_self, if_true]
      exact (neg_neg_of_pos (by positivity)).ne
    · intro kk _ hk
      simp [unit, hk]
    · simp [hn₁.ne']
    · intro r _ hr
      refine Finset.sum_eq_zero fun kk _ => ?_
      simp [unit, hr, hn₁.ne']
    · simp [hK0.ne']
  have hder := fun q c => (netLoss_partial hK q c).deriv
  obtain ⟨η, hη, h1⟩ := H _ _ _ _ _ _ _ _ hT hK ⟨2 * pre.length, 0, by rw [hder]; exact hne⟩
  obtain ⟨g1, l1, L1, e1, e2, L2, -, e3, -, e4⟩ := C54_actual _ _ _ _ _ _ _ _ _ _ hT hK _ rfl
  obtain ⟨η', hη', h2⟩ := e4 (by
    have hp : ∀ p : Nat × Nat, lossTangent 64 k (pre ++ [(n₁, g), (n, f)]) (fun i _ => DeepTest.level i) (fun i _ => DeepTest.output n₁ g f + DeepTest.side i)
        (DeepTest.params (2 * pre.length)) (fun q c => if q = p.1 ∧ c = p.2 then 1 else 0) *
        deriv (fun z => netLoss 64 k (pre ++ [(n₁, g), (n, f)]) (fun i _ => DeepTest.level i) (fun i _ => DeepTest.output n₁ g f + DeepTest.side i)
          (Function.update (DeepTest.params (2 * pre.length)) p.1 (Function.update (DeepTest.params (2 * pre.length) p.1) p.2 z)))
          (DeepTest.params (2 * pre.length) p.1 p.2) =
        -lossDiff 64 k (pre ++ [(n₁, g), (n, f)]) (fun i _ => DeepTest.level i) (fun i _ => DeepTest.output n₁ g f + DeepTest.side i)
          (DeepTest.params (2 * pre.length)) (unit p.1 p.2) ^ 2 := by
      intro p
      rw [hder]
      have e := DeepTest.computed (k := k) (n₁ := n₁) (n := n) (pre := pre) (g := g) (f := f) (unit p.1 p.2)
      rw [← neg_eq_iff_eq_neg.2 (DeepTest.actual (k := k) (n₁ := n₁) (n := n) (pre := pre) (g := g) (f := f) (unit p.1 p.2))] at e
      have e' : lossTangent 64 k (pre ++ [(n₁, g), (n, f)]) (fun i _ => DeepTest.level i) (fun i _ => DeepTest.output n₁ g f + DeepTest.side i)
        (DeepTest.params (2 * pre.length)) (fun q c => if q = p.1 ∧ c = p.2 then 1 else 0) = _ := e
      rw [e']
      ring
    rw [Finset.sum_congr rfl fun p _ => hp p, Finset.sum_neg_distrib, neg_lt_zero]
    refine Finset.sum_pos' (fun p _ => sq_nonneg _) ⟨(2 * pre.length, 0), ?_, by positivity⟩
    exact mem_coords hK (by rw [gradient, hder]; exact hne))
  obtain ⟨h', mlp', g1', l1', g2, l2, L1', L2', f1, f2, f3, f4, f5, hL⟩ := h1 (min η η' / 2) (by positivity) (by linarith [min_le_left η η', lt_min hη hη'])
  obtain ⟨h'', mlp'', g2', l2', f6, f7, f8⟩ := e3 (min η η' / 2)
  rw [f1] at f6
  cases f6
  rw [f2] at e1
  cases e1
  rw [f3] at f7
  cases f7
  rw [f4] at e2
  cases e2
  rw [f5] at f8
  cases f8
  exact lt_asymm hL (h2 _ (by positivity) (by linarith [min_le_right η η', lt_min hη hη']))

/-- C54, test: `relu` layers with 8 units on 4 features satisfy the condition of the theorem, two layers of width 1 do not. -/
example : (∃ n f, [(8, Act.relu)] = [(n, f)] ∧ 4 * n ≤ 32) ∧ ¬ ∃ n f, [(1, Act.identity), (1, Act.identity)] = [(n, f)] ∧ 1 * n ≤ 32 := by
  refine ⟨⟨8, .relu, rfl, by omega⟩, ?_⟩
  rintro ⟨n, f, h, _⟩
  cases h

end RL
