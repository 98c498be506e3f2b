import Verif.Lemmas.Descent
import Verif.Props.Train

/-!
# Property theorems: the loss decreases (C54)
-/

namespace RL

open Spec

/-- C54: the loss that is computed is the sum of the distances of the outputs of the network to the expected outputs. -/
theorem C54_loss (h : Heap ℝ) (mlp : Mlp ℝ) (x y m k : Nat) (ds : List (Nat × Act)) (a b θ : Nat → Nat → ℝ)
    (ht : Training h mlp x y m k ds a b θ) : ∃ h' l, trainLoss mlp h x y = .ok (h', l) ∧ dataOf h' l = some ⟨[netLoss m k ds a b θ], []⟩ :=
  loss_value ht

/-- C54, full statement: if some derivative of the loss by a parameter coordinate is not 0 then, with every small enough learning rate,
the loss computed after a training step is smaller than the one computed before. It is false: see `C54_false`. -/
def C54_statement : Prop :=
  ∀ (h : Heap ℝ) (mlp : Mlp ℝ) (x y m k : Nat) (ds : List (Nat × Act)) (a b θ : Nat → Nat → ℝ),
    Training h mlp x y m k ds a b θ → Smooth m k ds a b θ →
    (∃ q c, deriv (fun z => netLoss m k ds a b (Function.update θ q (Function.update (θ q) c z))) (θ q c) ≠ 0) →
    ∃ η > 0, ∀ lr, 0 < lr → lr < η → ∃ h' mlp' h1 l1 h2 l2 L1 L2, trainStep mlp h x y lr = .ok (h', mlp') ∧
      trainLoss mlp h x y = .ok (h1, l1) ∧ trainLoss mlp' h' x y = .ok (h2, l2) ∧
      dataOf h1 l1 = some ⟨[L1], []⟩ ∧ dataOf h2 l2 = some ⟨[L2], []⟩ ∧ L2 < L1

/-- C54 for networks of any depth whose matrices have at most 32 elements.
Missing: larger matrices (`SmallNet`); for these it is false. -/
theorem C54_partial (h : Heap ℝ) (mlp : Mlp ℝ) (x y m k : Nat) (ds : List (Nat × Act)) (a b θ : Nat → Nat → ℝ)
    (ht : Training h mlp x y m k ds a b θ) (hK : Smooth m k ds a b θ) (hS : SmallNet m k ds)
    (hd : ∃ q c, deriv (fun z => netLoss m k ds a b (Function.update θ q (Function.update (θ q) c z))) (θ q c) ≠ 0) :
    ∃ η > 0, ∀ lr, 0 < lr → lr < η → ∃ h' mlp' h1 l1 h2 l2 L1 L2, trainStep mlp h x y lr = .ok (h', mlp') ∧
      trainLoss mlp h x y = .ok (h1, l1) ∧ trainLoss mlp' h' x y = .ok (h2, l2) ∧
      dataOf h1 l1 = some ⟨[L1], []⟩ ∧ dataOf h2 l2 = some ⟨[L2], []⟩ ∧ L2 < L1 := by
  obtain ⟨q, c, hqc⟩ := hd
  obtain ⟨η, hη, h1⟩ := less_of_deriv (descent_deriv hK) (by
    rw [neg_lt_zero]
    exact Finset.sum_pos' (fun p _ => sq_nonneg _) ⟨(q, c), mem_coords hK hqc, by positivity⟩)
  refine ⟨η, hη, fun lr h0 h2 => ?_⟩
  obtain ⟨h', mlp', e1, ht', _⟩ := C50_step_partial h mlp x y m k ds a b θ lr ht hK hS
  obtain ⟨g1, l1, e2, e3⟩ := C54_loss _ _ _ _ _ _ _ _ _ _ ht
  obtain ⟨g2, l2, e4, e5⟩ := C54_loss _ _ _ _ _ _ _ _ _ _ ht'
  refine ⟨h', mlp', g1, l1, g2, l2, _, _, e1, e2, e4, e3, e5, ?_⟩
  have h3 := h1 lr h0 h2
  rwa [descend_along _ _ _ _ _ _ 0, along_zero] at h3

/-- C54, what holds for all sizes: the change of the loss is, to first order in the learning rate, minus the inner product of the
computed (shuffled) gradient with the gradient; the loss decreases if it is positive and increases if it is negative. -/
theorem C54_actual (h : Heap ℝ) (mlp : Mlp ℝ) (x y m k : Nat) (ds : List (Nat × Act)) (a b θ : Nat → Nat → ℝ)
    (ht : Training h mlp x y m k ds a b θ) (hK : Smooth m k ds a b θ) (ip : ℝ)
    (hip : ip = ∑ p ∈ coords k 0 ds, lossTangent m k ds a b θ (fun q c => if q = p.1 ∧ c = p.2 then 1 else 0) *
      deriv (fun z => netLoss m k ds a b (Function.update θ p.1 (Function.update (θ p.1) p.2 z))) (θ p.1 p.2)) :
    ∃ h1 l1 L1, trainLoss mlp h x y = .ok (h1, l1) ∧ dataOf h1 l1 = some ⟨[L1], []⟩ ∧ ∃ L2 : ℝ → ℝ, HasDerivAt L2 (-ip) 0 ∧
      (∀ lr, ∃ h' mlp' h2 l2, trainStep mlp h x y lr = .ok (h', mlp') ∧ trainLoss mlp' h' x y = .ok (h2, l2) ∧
        dataOf h2 l2 = some ⟨[L2 lr], []⟩) ∧
      (0 < ip → ∃ η > 0, ∀ lr, 0 < lr → lr < η → L2 lr < L1) ∧ (ip < 0 → ∃ η > 0, ∀ lr, 0 < lr → lr < η → L1 < L2 lr) := by
  obtain ⟨g1, l1, e2, e3⟩ := C54_loss _ _ _ _ _ _ _ _ _ _ ht
  have hder : HasDerivAt (fun lr => netLoss m k ds a b (shuffledDescend lr m k ds a b θ)) (-ip) 0 := by
    rw [hip]
    exact shuffled_deriv hK
  have hz : shuffledDescend 0 m k ds a b θ = θ := by
    funext q c
    simp [shuffledDescend]
  refine ⟨g1, l1, _, e2, e3, _, hder, fun lr => ?_, fun hpos => ?_, fun hneg => ?_⟩
  · obtain ⟨h', mlp', e1, ht'⟩ := C50_step_actual h mlp x y m k ds a b θ lr ht
    obtain ⟨g2, l2, e4, e5⟩ := C54_loss _ _ _ _ _ _ _ _ _ _ ht'
    exact ⟨h', mlp', g2, l2, e1, e4, e5⟩
  · obtain ⟨η, hη, h1⟩ := less_of_deriv hder (by linarith)
    refine ⟨η, hη, fun lr h0 h2 => ?_⟩
    have h3 := h1 lr h0 h2
    rwa [hz] at h3
  · obtain ⟨η, hη, h1⟩ := less_of_deriv hder.neg (by linarith)
    refine ⟨η, hη, fun lr h0 h2 => ?_⟩
    have h3 := h1 lr h0 h2
    simp only [Pi.neg_apply, hz] at h3
    linarith

/-! ### witness and tests -/

noncomputable section

/-- C54: an input row 2, -2, 0, ..., 0, weights and bias 0, the expected output 1. -/
def C54_start : Heap ℝ :=
  [leafNode ⟨2 :: -2 :: List.replicate 31 0, [1, 33]⟩, leafNode ⟨List.replicate 33 0, [33, 1]⟩, leafNode ⟨[0], [1]⟩, leafNode ⟨[1], [1, 1]⟩]

/-- C54: the input row -/
def C54_row : Nat → Nat → ℝ := fun _ j => if j = 0 then 2 else if j = 1 then -2 else 0

theorem C54_row_get (i j : Nat) (hj : j < 33) : (2 :: -2 :: List.replicate 31 (0 : ℝ))[j]? = some (C54_row i j) := by
  rcases j with _ | _ | j
  · rfl
  · rfl
  · simp only [List.getElem?_cons_succ, List.getElem?_replicate]
    rw [if_pos (by omega)]
    simp [C54_row]

theorem C54_training : Training C54_start C50_net 0 3 1 33 [(1, .identity)] C54_row (fun _ _ => 1) (fun _ _ => 0) := by
  refine ⟨⟨[.new (2 :: -2 :: List.replicate 31 0) [1, 33], .new (List.replicate 33 0) [33, 1], .new [0] [1], .new [1] [1, 1]], rfl⟩,
    ⟨⟨⟨by decide, acts_code .identity, _, _, rfl, rfl, ?_, ?_⟩, trivial⟩, rfl⟩, ⟨_, rfl, ?_⟩, ⟨_, rfl, ?_⟩, ?_⟩
  · refine ⟨rfl, by simp [WF, leafNode], fun i hi j hj => ?_⟩
    have hj' : j < 1 := hj
    obtain rfl : j = 0 := by omega
    simp only [Raw.elem?, leafNode, rowMajor_pair, List.getElem?_replicate]
    rw [if_pos (by omega)]
  · refine ⟨Or.inl rfl, rfl, fun j hj => ?_⟩
    have hj' : j < 1 := hj
    obtain rfl : j = 0 := by omega
    rfl
  · refine ⟨rfl, by simp [WF, leafNode], fun i hi j hj => ?_⟩
    obtain rfl : i = 0 := by omega
    simp only [Raw.elem?, leafNode, rowMajor_pair, Nat.zero_mul, Nat.zero_add]
    exact C54_row_get 0 j hj
  · refine ⟨rfl, rfl, fun i hi j hj => ?_⟩
    have hj' : j < 1 := hj
    obtain rfl : i = 0 := by omega
    obtain rfl : j = 0 := by omega
    rfl
  · refine C50_fresh _ _ _ _ (by decide) (by decide) (by decide) ?_
    intro s hs
    have : s = 0 ∨ s = 3 ∨ s = 1 ∨ s = 2 := by simpa [Mlp.params, C50_net, Linear.params] using hs
    rcases this with rfl | rfl | rfl | rfl <;>
      exact ⟨_, rfl, by simp [WF, leafNode], by simp [Pos, leafNode], rfl, rfl⟩

theorem C54_smooth : Smooth 1 33 [(1, .identity)] C54_row (fun _ _ => 1) (fun _ _ => 0) := by
  refine ⟨⟨by simp, trivial⟩, fun i _ j _ => ?_⟩
  simp [layerFns, netValue, affine_sum, Act.fn]

/-- the computed derivative by weight `c` -/
theorem C54_weight (c : Nat) : lossTangent 1 33 [(1, .identity)] C54_row (fun _ _ => 1) (fun _ _ => 0) (fun q' c' => if q' = 0 ∧ c' = c then 1 else 0) =
    -∑ j ∈ Finset.range 33, C54_row 0 j * if shuffle 33 j = c then 1 else 0 := by
  simp [lossTangent, lastWidth, layerFns, netValue, netTangent, affine_sum, Act.fn, Act.slope, shuffledMat, Nat.mod_one]

/-- the computed derivative by the bias -/
theorem C54_bias : lossTangent 1 33 [(1, .identity)] C54_row (fun _ _ => 1) (fun _ _ => 0) (fun q' c' => if q' = 1 ∧ c' = 0 then 1 else 0) = -1 := by
  simp [lossTangent, lastWidth, layerFns, netValue, netTangent, affine_sum, Act.fn, Act.slope, shuffledMat]

theorem C54_w0 : ∑ j ∈ Finset.range 33, C54_row 0 j * (if shuffle 33 j = 0 then 1 else 0) = 0 := by
  refine Finset.sum_eq_zero fun j hj => ?_
  by_cases h0 : j = 0
  · subst h0
    rw [if_neg (by decide), mul_zero]
  · by_cases h1 : j = 1
    · subst h1
      rw [if_neg (by decide), mul_zero]
    · simp [C54_row, h0, h1]

theorem C54_w1 : ∑ j ∈ Finset.range 33, C54_row 0 j * (if shuffle 33 j = 1 then 1 else 0) = 2 := by
  rw [Finset.sum_eq_single 0]
  · rw [if_pos (by decide)]
    simp [C54_row]
  · intro j _ h0
    by_cases h1 : j = 1
    · subst h1
      rw [if_neg (by decide), mul_zero]
    · simp [C54_row, h0, h1]
  · simp

/-- C54 is false: for this layer with 33 weights the loss after a step is 1 + 3 lr instead of 1. -/
theorem C54_false : ¬ C54_statement := by
  intro H
  have ht := C54_training
  obtain ⟨η, hη, h1⟩ := H _ _ _ _ _ _ _ _ _ _ ht C54_smooth ⟨1, 0, by
    have h : (fun z : ℝ => netLoss 1 33 [(1, .identity)] C54_row (fun _ _ => 1) (Function.update (fun _ _ => 0) 1 (Function.update (fun _ => 0) 0 z))) =
        fun z => |z - 1| := by
      funext z
      simp [netLoss, lastWidth, layerFns, netValue, affine_sum, Act.fn]
    have h2 : HasDerivAt (fun z : ℝ => |z - 1|) (-1) 0 :=
      HasDerivAt.comp (h₂ := fun z : ℝ => |z|) (h := fun z : ℝ => z - 1) 0 (hasDerivAt_abs_neg (by norm_num)) ((hasDerivAt_id (0 : ℝ)).sub_const 1) |>.congr_deriv (by norm_num)
    rw [h, h2.deriv]
    norm_num⟩
  obtain ⟨h', mlp', g1, l1, g2, l2, L1, L2, e1, e2, e3, e4, e5, hlt⟩ := h1 (η / 2) (by linarith) (by linarith)
  obtain ⟨h'', mlp'', e6, ht'⟩ := C50_step_actual _ _ _ _ _ _ _ _ _ _ (η / 2) ht
  rw [e1] at e6
  cases e6
  obtain ⟨g3, l3, e7, e8⟩ := C54_loss _ _ _ _ _ _ _ _ _ _ ht
  obtain ⟨g4, l4, e9, e10⟩ := C54_loss _ _ _ _ _ _ _ _ _ _ ht'
  rw [e2] at e7
  cases e7
  rw [e3] at e9
  cases e9
  rw [e4] at e8
  rw [e5] at e10
  simp only [Option.some.injEq, Raw.mk.injEq, List.cons.injEq, and_true] at e8 e10
  have v1 : L1 = 1 := by
    rw [e8]
    simp [netLoss, lastWidth, layerFns, netValue, affine_sum, Act.fn]
  have v2 : L2 = |(-3) * (η / 2) - 1| := by
    rw [e10]
    have w : ∀ c, shuffledDescend (η / 2) 1 33 [(1, .identity)] C54_row (fun _ _ => 1) (fun _ _ => 0) 0 c =
        η / 2 * ∑ j ∈ Finset.range 33, C54_row 0 j * if shuffle 33 j = c then 1 else 0 := by
      intro c
      rw [shuffledDescend, C54_weight]
      ring
    have wb : shuffledDescend (η / 2) 1 33 [(1, .identity)] C54_row (fun _ _ => 1) (fun _ _ => 0) 1 0 = η / 2 := by
      rw [shuffledDescend, C54_bias]
      ring
    simp only [netLoss, lastWidth, layerFns, netValue, affine_sum, Act.fn, Finset.range_one, Finset.sum_singleton, id, Nat.zero_add, Nat.mul_one, Nat.add_zero, wb, w]
    congr 2
    rw [← Finset.sum_subset (s₁ := {0, 1}) (by decide)]
    · rw [Finset.sum_pair (by decide), C54_w0, C54_w1]
      simp only [C54_row, if_true, one_ne_zero, if_false]
      ring
    · intro j _ hj
      simp only [Finset.mem_insert, Finset.mem_singleton, not_or] at hj
      simp [C54_row, hj.1, hj.2]
  rw [v1, v2] at hlt
  rw [abs_of_neg (by linarith)] at hlt
  linarith

/-- C54: one weight 2, bias 0, input 1, expected output 3. -/
theorem C54_test : Training [leafNode ⟨[1], [1, 1]⟩, leafNode ⟨[2], [1, 1]⟩, leafNode ⟨[0], [1]⟩, leafNode ⟨[3], [1, 1]⟩] C50_net 0 3 1 1 [(1, .identity)]
    (fun _ _ => 1) (fun _ _ => 3) (fun q _ => if q = 0 then 2 else 0) := by
  have mat : ∀ c : ℝ, Matrix (⟨[c], [1, 1]⟩ : Raw ℝ) 1 1 (fun _ _ => c) := by
    intro c
    refine ⟨rfl, rfl, fun i hi j hj => ?_⟩
    obtain rfl : i = 0 := by omega
    obtain rfl : j = 0 := by omega
    rfl
  refine ⟨⟨[.new [1] [1, 1], .new [2] [1, 1], .new [0] [1], .new [3] [1, 1]], rfl⟩,
    ⟨⟨⟨by decide, acts_code .identity, _, _, rfl, rfl, by simpa [leafNode] using mat 2, Or.inl rfl, rfl, ?_⟩, trivial⟩, rfl⟩,
    ⟨_, rfl, mat 1⟩, ⟨_, rfl, mat 3⟩, ?_⟩
  · intro j hj
    obtain rfl : j = 0 := by simpa using hj
    simp [leafNode]
  · refine C50_fresh _ _ _ _ (by decide) (by decide) (by decide) ?_
    intro s hs
    have : s = 0 ∨ s = 3 ∨ s = 1 ∨ s = 2 := by simpa [Mlp.params, C50_net, Linear.params] using hs
    rcases this with rfl | rfl | rfl | rfl <;>
      exact ⟨_, rfl, by simp [WF, leafNode], by simp [Pos, leafNode], rfl, rfl⟩

/-- C54, test: one weight 2, bias 0, input 1, expected output 3. The hypotheses of `C54_partial` are satisfied. -/
example : Training [leafNode ⟨[1], [1, 1]⟩, leafNode ⟨[2], [1, 1]⟩, leafNode ⟨[0], [1]⟩, leafNode ⟨[3], [1, 1]⟩] C50_net 0 3 1 1 [(1, .identity)]
      (fun _ _ => 1) (fun _ _ => 3) (fun q _ => if q = 0 then 2 else 0) ∧
    Smooth 1 1 [(1, .identity)] (fun _ _ => 1) (fun _ _ => 3) (fun q _ => if q = 0 then 2 else 0) ∧ SmallNet 1 1 [(1, .identity)] ∧
    deriv (fun z => netLoss 1 1 [(1, .identity)] (fun _ _ => 1) (fun _ _ => 3)
      (Function.update (fun q _ => if q = 0 then 2 else 0) 0 (Function.update (fun _ => 2) 0 z))) 2 ≠ 0 := by
  refine ⟨C54_test, ⟨⟨by simp, trivial⟩, ?_⟩, by simp [SmallNet], ?_⟩
  · intro i _ j _
    simp [layerFns, netValue, affine_sum, Act.fn]
  · have h : (fun z : ℝ => netLoss 1 1 [(1, .identity)] (fun _ _ => 1) (fun _ _ => 3)
        (Function.update (fun q _ => if q = 0 then 2 else 0) 0 (Function.update (fun _ => 2) 0 z))) = fun z => |z - 3| := by
      funext z
      simp [netLoss, lastWidth, layerFns, netValue, affine_sum, Act.fn]
    have h2 : HasDerivAt (fun z : ℝ => |z - 3|) (-1) 2 :=
      HasDerivAt.comp (h₂ := fun z : ℝ => |z|) (h := fun z : ℝ => z - 3) 2 (hasDerivAt_abs_neg (by norm_num)) ((hasDerivAt_id (2 : ℝ)).sub_const 3)
        |>.congr_deriv (by norm_num)
    rw [h, h2.deriv]
    norm_num

end

end RL
