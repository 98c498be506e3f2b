import Verif.Props.Batch
import Verif.Props.Settle
import Verif.Lemmas.Repeat

/-!
# Property theorems: batches that repeat their rows (C111), the unit of the outputs (C112)
-/

namespace RL

open Spec

/-! ## repeated rows (C111) -/

/-- C111, full statement: training on a batch that has all rows of another one `r` times gives the same parameters, after any number of steps, as training
on this one with `r` times the learning rate. It is false: see `C111_false`. -/
def C111_statement : Prop :=
  ∀ (h₁ h₂ : Heap ℝ) (mlp₁ mlp₂ : Mlp ℝ) (x₁ y₁ x₂ y₂ m r k : Nat) (ds : List (Nat × Act)) (a b θ : Nat → Nat → ℝ) (lr : ℝ) (N : Nat),
    Training h₁ mlp₁ x₁ y₁ m k ds a b θ → Training h₂ mlp₂ x₂ y₂ (r * m) k ds (fun i => a (i % m)) (fun i => b (i % m)) θ →
    ∃ h₁' mlp₁' h₂' mlp₂' θ', train mlp₁ h₁ x₁ y₁ (r * lr) N = .ok (h₁', mlp₁') ∧ train mlp₂ h₂ x₂ y₂ lr N = .ok (h₂', mlp₂') ∧
      NetIs h₁' mlp₁' k ds θ' ∧ NetIs h₂' mlp₂' k ds θ'

/-- C111 if the outputs of all layers but the last have at most 32 elements, for the batch with the repeated rows; the weights may have any size, and for one
layer there is no condition. It also holds at kinks. Missing: larger ones; for these it is false in general. -/
theorem C111_partial (h₁ h₂ : Heap ℝ) (mlp₁ mlp₂ : Mlp ℝ) (x₁ y₁ x₂ y₂ m r k : Nat) (ds : List (Nat × Act)) (a b θ : Nat → Nat → ℝ) (lr : ℝ) (N : Nat)
    (ht₁ : Training h₁ mlp₁ x₁ y₁ m k ds a b θ) (ht₂ : Training h₂ mlp₂ x₂ y₂ (r * m) k ds (fun i => a (i % m)) (fun i => b (i % m)) θ)
    (hS : ∀ d ∈ ds.dropLast, r * m * d.1 ≤ 32) :
    ∃ h₁' mlp₁' h₂' mlp₂' θ', train mlp₁ h₁ x₁ y₁ (r * lr) N = .ok (h₁', mlp₁') ∧ train mlp₂ h₂ x₂ y₂ lr N = .ok (h₂', mlp₂') ∧
      NetIs h₁' mlp₁' k ds θ' ∧ NetIs h₂' mlp₂' k ds θ' := by
  obtain ⟨h₁', mlp₁', e₁, t₁⟩ := C50_actual N h₁ mlp₁ x₁ y₁ m k ds a b θ (r * lr) ht₁
  obtain ⟨h₂', mlp₂', e₂, t₂⟩ := C50_actual N h₂ mlp₂ x₂ y₂ (r * m) k ds _ _ θ lr ht₂
  refine ⟨h₁', mlp₁', h₂', mlp₂', _, e₁, e₂, t₁.net, ?_⟩
  have hm := (training_pos ht₁).1
  have hrm := (training_pos ht₂).1
  have hr : 0 < r := Nat.pos_of_mul_pos_right hrm
  have hS' : ∀ d ∈ ds.dropLast, m * d.1 ≤ 32 := fun d hd =>
    (Nat.mul_le_mul_right d.1 (Nat.le_mul_of_pos_left m hr)).trans (hS d hd)
  have hstep : shuffledDescend lr (r * m) k ds (fun i => a (i % m)) (fun i => b (i % m)) = shuffledDescend (r * lr) m k ds a b := by
    funext θ q c
    simp only [shuffledDescend]
    rw [lossTangent_rows hS hrm, lossTangent_rows hS' hm,
      sum_repeat m (fun i => lossTangent 1 k ds (fun _ => a i) (fun _ => b i) θ fun q' c' => if q' = q ∧ c' = c then 1 else 0) r]
    ring
  have := t₂.net
  rwa [hstep] at this

/-- C111 is false: three rows, of which only the second has an input other than 0, each 11 times, through two layers of width 1. The step with 33 rows
increases the first weight, the step with 3 rows decreases it. -/
theorem C111_false : ¬ C111_statement := by
  intro H
  let a : Nat → Nat → ℝ := fun i _ => if i = 1 then 1 else 0
  have ht₁ := C80_training a C80_expected 3 (by omega)
  have ht₂ := C80_training (fun i => a (i % 3)) (fun i => C80_expected (i % 3)) (11 * 3) (by omega)
  obtain ⟨h₁', mlp₁', h₂', mlp₂', θ', e₁, e₂, n₁, n₂⟩ := H _ _ _ _ _ _ _ _ 3 11 1 C80_net a C80_expected C80_params 1 1 ht₁ ht₂
  obtain ⟨_, _, f₁, t₁⟩ := C50_actual 1 _ _ _ _ _ _ _ _ _ _ ((11 : Nat) * 1) ht₁
  obtain ⟨_, _, f₂, t₂⟩ := C50_actual 1 _ _ _ _ _ _ _ _ _ _ 1 ht₂
  rw [e₁] at f₁
  cases f₁
  rw [e₂] at f₂
  cases f₂
  have c₁ := n₁.unique t₁.net (q := 0) (c := 0) (by decide)
  have c₂ := n₂.unique t₂.net (q := 0) (c := 0) (by decide)
  rw [c₁] at c₂
  have h0 : shuffle 1 0 = 0 := by decide
  simp only [Function.iterate_one, shuffledDescend, lossTangent, C80_net, lastWidth, layerFns, netValue, netTangent, affine_sum, Act.fn, Act.slope,
    Finset.range_one, Finset.sum_singleton, id, C80_params, C80_expected, shuffledMat, Nat.mul_one, Nat.add_zero, Nat.div_one, Nat.mod_one, h0, a] at c₂
  simp [Finset.sum_range_succ, shuffle] at c₂
  norm_num at c₂

/-- TEST of the hypotheses of `C111_partial`: two rows, each three times, through two layers. -/
example (a b : Nat → Nat → ℝ) : ∃ h₁ mlp₁ x₁ y₁ h₂ mlp₂ x₂ y₂, Training h₁ mlp₁ x₁ y₁ 2 1 C80_net a b C80_params ∧
    Training h₂ mlp₂ x₂ y₂ (3 * 2) 1 C80_net (fun i => a (i % 2)) (fun i => b (i % 2)) C80_params ∧ ∀ d ∈ C80_net.dropLast, 3 * 2 * d.1 ≤ 32 :=
  ⟨_, _, _, _, _, _, _, _, C80_training a b 2 (by omega), C80_training _ _ (3 * 2) (by omega), by simp [C80_net]⟩

/-! ## the unit of the outputs (C112) -/

/-- C112, full statement: if the expected outputs, the parameters and the learning rate are multiplied by a positive number, the parameters after any number
of training steps are multiplied by it. It is false: see `C112_false`. -/
def C112_statement : Prop :=
  ∀ (h₁ h₂ : Heap ℝ) (mlp₁ mlp₂ : Mlp ℝ) (x₁ y₁ x₂ y₂ m k : Nat) (ds : List (Nat × Act)) (a b θ : Nat → Nat → ℝ) (lr c : ℝ) (N : Nat), 0 < c →
    Training h₁ mlp₁ x₁ y₁ m k ds a b θ → Training h₂ mlp₂ x₂ y₂ m k ds a (fun i j => c * b i j) (fun q p => c * θ q p) →
    ∃ h₁' mlp₁' h₂' mlp₂' θ', train mlp₁ h₁ x₁ y₁ lr N = .ok (h₁', mlp₁') ∧ train mlp₂ h₂ x₂ y₂ (c * lr) N = .ok (h₂', mlp₂') ∧
      NetIs h₁' mlp₁' k ds θ' ∧ NetIs h₂' mlp₂' k ds fun q p => c * θ' q p

/-- C112 for a single layer with `relu` or without activation, of any size, also at kinks. Missing: `tanh` and networks of several layers, for which it is
false. -/
theorem C112_partial (h₁ h₂ : Heap ℝ) (mlp₁ mlp₂ : Mlp ℝ) (x₁ y₁ x₂ y₂ m k n : Nat) (f : Act) (a b θ : Nat → Nat → ℝ) (lr c : ℝ) (N : Nat) (hc : 0 < c)
    (hf : f ≠ .tanh) (ht₁ : Training h₁ mlp₁ x₁ y₁ m k [(n, f)] a b θ)
    (ht₂ : Training h₂ mlp₂ x₂ y₂ m k [(n, f)] a (fun i j => c * b i j) (fun q p => c * θ q p)) :
    ∃ h₁' mlp₁' h₂' mlp₂' θ', train mlp₁ h₁ x₁ y₁ lr N = .ok (h₁', mlp₁') ∧ train mlp₂ h₂ x₂ y₂ (c * lr) N = .ok (h₂', mlp₂') ∧
      NetIs h₁' mlp₁' k [(n, f)] θ' ∧ NetIs h₂' mlp₂' k [(n, f)] fun q p => c * θ' q p := by
  obtain ⟨h₁', mlp₁', e₁, t₁⟩ := C50_actual N h₁ mlp₁ x₁ y₁ m k _ a b θ lr ht₁
  obtain ⟨h₂', mlp₂', e₂, t₂⟩ := C50_actual N h₂ mlp₂ x₂ y₂ m k _ _ _ _ (c * lr) ht₂
  refine ⟨h₁', mlp₁', h₂', mlp₂', _, e₁, e₂, t₁.net, ?_⟩
  have hstep : Function.Semiconj (fun (θ : Nat → Nat → ℝ) q p => c * θ q p) (shuffledDescend lr m k [(n, f)] a b)
      (shuffledDescend (c * lr) m k [(n, f)] a fun i j => c * b i j) := by
    intro θ
    funext q p
    simp only [shuffledDescend, lossTangent, netValue, layerFns, netTangent, affine_mul, fn_mul hf hc, mul_lt_mul_iff_right₀ hc, shuffledMat, zero_mul,
      zero_add]
    ring
  have := t₂.net
  rwa [← (hstep.iterate_right N) θ] at this

/-- C112 is false: two layers of width 1 without activation. -/
theorem C112_false : ¬ C112_statement := by
  intro H
  let θ : Nat → Nat → ℝ := fun q _ => if q % 2 = 0 then 1 else 0
  have ht := fun b θ => training_exists 1 1 C80_net (fun _ _ => 1) b θ (by omega) (by omega) (by simp [C80_net])
  obtain ⟨h₁', mlp₁', h₂', mlp₂', θ', e₁, e₂, n₁, n₂⟩ := H _ _ _ _ _ _ _ _ 1 1 C80_net (fun _ _ => 1) (fun _ _ => 0) θ 1 2 1 two_pos (ht _ _) (ht _ _)
  obtain ⟨_, _, f₁, t₁⟩ := C50_actual 1 _ _ _ _ _ _ _ _ _ _ 1 (ht (fun _ _ => 0) θ)
  obtain ⟨_, _, f₂, t₂⟩ := C50_actual 1 _ _ _ _ _ _ _ _ _ _ (2 * 1) (ht (fun _ _ => 2 * 0) fun q p => 2 * θ q p)
  rw [e₁] at f₁
  cases f₁
  rw [e₂] at f₂
  cases f₂
  have c₁ := n₁.unique t₁.net (q := 0) (c := 0) (by decide)
  have c₂ := n₂.unique t₂.net (q := 0) (c := 0) (by decide)
  rw [c₁] at c₂
  have h0 : shuffle 1 0 = 0 := by decide
  simp [shuffledDescend, lossTangent, C80_net, lastWidth, layerFns, netValue, netTangent, affine_sum, Act.fn, Act.slope, shuffledMat, Finset.filter_singleton, h0, θ] at c₂
  norm_num at c₂

/-- C112, exactly: for these sizes it holds for a single layer with `relu` or without activation, and for no other network. -/
theorem C112_exact (m k : Nat) (ds : List (Nat × Act)) (hm : 0 < m) (hk : 0 < k) (hd : ∀ d ∈ ds, 0 < d.1) (hds : ds ≠ []) :
    (∀ (h₁ h₂ : Heap ℝ) (mlp₁ mlp₂ : Mlp ℝ) (x₁ y₁ x₂ y₂ : Nat) (a b θ : Nat → Nat → ℝ) (lr c : ℝ) (N : Nat), 0 < c →
      Training h₁ mlp₁ x₁ y₁ m k ds a b θ → Training h₂ mlp₂ x₂ y₂ m k ds a (fun i j => c * b i j) (fun q p => c * θ q p) →
      ∃ h₁' mlp₁' h₂' mlp₂' θ', train mlp₁ h₁ x₁ y₁ lr N = .ok (h₁', mlp₁') ∧ train mlp₂ h₂ x₂ y₂ (c * lr) N = .ok (h₂', mlp₂') ∧
        NetIs h₁' mlp₁' k ds θ' ∧ NetIs h₂' mlp₂' k ds fun q p => c * θ' q p) ↔ ∃ n f, ds = [(n, f)] ∧ f ≠ .tanh := by
  constructor
  · intro H
    -- equal slopes of the loss
    have key : ∀ (a b θ : Nat → Nat → ℝ) (c : ℝ), 0 < c → ∀ q p, (q, p) ∈ coords k 0 ds →
        lossTangent m k ds a (fun i j => c * b i j) (fun q p => c * θ q p) (unit q p) = lossTangent m k ds a b θ (unit q p) := by
      intro a b θ c hc q p hp
      have ht₁ := training_exists m k ds a b θ hm hk hd
      have ht₂ := training_exists m k ds a (fun i j => c * b i j) (fun q p => c * θ q p) hm hk hd
      obtain ⟨h₁', mlp₁', h₂', mlp₂', θ', e₁, e₂, n₁, n₂⟩ := H _ _ _ _ _ _ _ _ a b θ 1 c 1 hc ht₁ ht₂
      obtain ⟨_, _, f₁, t₁⟩ := C50_actual 1 _ _ _ _ _ _ _ _ _ _ 1 ht₁
      obtain ⟨_, _, f₂, t₂⟩ := C50_actual 1 _ _ _ _ _ _ _ _ _ _ (c * 1) ht₂
      rw [e₁] at f₁
      cases f₁
      rw [e₂] at f₂
      cases f₂
      have c₁ := n₁.unique t₁.net hp
      have c₂ := n₂.unique t₂.net hp
      rw [c₁] at c₂
      have h1 : c * (θ q p - 1 * lossTangent m k ds a b θ (unit q p)) =
        c * θ q p - c * 1 * lossTangent m k ds a (fun i j => c * b i j) (fun q p => c * θ q p) (unit q p) := c₂
      have h2 : c * lossTangent m k ds a (fun i j => c * b i j) (fun q p => c * θ q p) (unit q p) = c * lossTangent m k ds a b θ (unit q p) := by linarith
      exact mul_left_cancel₀ hc.ne' h2
    obtain ⟨pre, ⟨n, f⟩, rfl⟩ := (List.eq_nil_or_concat' ds).resolve_left hds
    rcases List.eq_nil_or_concat' pre with rfl | ⟨pre, ⟨n₁, g⟩, rfl⟩
    · refine ⟨n, f, rfl, ?_⟩
      rintro rfl
      have hn : 0 < n := hd (n, .tanh) (by simp)
      have h1 := key (fun _ _ => 0) (fun _ _ => -1) (fun q _ => if q = 1 then 1 else 0) 2 two_pos 1 0 (last_bias_mem k n [] .tanh hn)
      have h2 := fun y θ => loss_last_bias (m := m) (k := k) (n := n) (f := .tanh) (pre := []) (θ := θ) (fun _ _ => 0) y hn
      simp only [List.length_nil, Nat.mul_zero, Nat.zero_add, List.nil_append] at h1 h2
      rw [h2, h2] at h1
      have h3 : ∀ z : ℝ, ¬ Real.tanh z < -1 := fun z => not_lt.2 (abs_lt.1 (Real.abs_tanh_lt_one z)).1.le
      have h4 : ∀ z : ℝ, ¬ Real.tanh z < -2 := fun z h => h3 z (by linarith)
      simp [lastIn, netValue, layerFns, affine_sum, Act.fn, Act.slope, h3, h4, hm.ne'] at h1
      have h5 := (sq_eq_sq₀ (tanh_nonneg' zero_le_two) (tanh_nonneg' zero_le_one)).1 h1
      have := Real.tanh_injective h5
      norm_num at this
    · exfalso
      have hn₁ : 0 < n₁ := hd (n₁, g) (by simp)
      have hn : 0 < n := hd (n, f) (by simp)
      have hmem : (2 * pre.length + 1, 0) ∈ coords k 0 (pre ++ [(n₁, g)] ++ [(n, f)]) := bias_mem_append _ _ _ _ _ (last_bias_mem k n₁ pre g hn₁)
      have hD : 0 < f.slope (n₁ * (g.fn 1 * 1)) * g.slope 1 :=
        mul_pos (slope_pos f (mul_nonneg n₁.cast_nonneg (mul_nonneg (fn_nonneg g zero_le_one) zero_le_one))) (slope_pos g zero_le_one)
      obtain ⟨c, hc⟩ : ∃ c, c = f.slope (n₁ * (g.fn 1 * 1)) * g.slope 1 / 2 := ⟨_, rfl⟩
      have hc0 : 0 < c := by linarith
      have h1 := key (fun _ _ => 0) (fun _ _ => -1) (C112_params pre.length 1) c hc0 _ _ hmem
      have h2 : (fun q p => c * C112_params pre.length 1 q p) = C112_params pre.length c := by
        funext q p
        simp [C112_params]
      rw [h2, List.append_assoc, List.cons_append, List.nil_append,
        deep_slope m k n₁ n pre g f c hc0 _ (fun _ _ => by linarith) 0 hn₁ (fun z hz => fn_nonneg f hz) (fn_nonneg g hc0.le),
        deep_slope m k n₁ n pre g f 1 one_pos _ (fun _ _ => by norm_num) 0 hn₁ (fun z hz => fn_nonneg f hz) (fn_nonneg g zero_le_one)] at h1
      have h3 := mul_left_cancel₀ (Nat.cast_ne_zero.2 hm.ne') (mul_left_cancel₀ (Nat.cast_ne_zero.2 hn.ne') h1)
      have h4 : f.slope (n₁ * (g.fn c * c)) * g.slope c ≤ 1 := mul_le_one₀ (slope_le_one _ _) (slope_nonneg _ _) (slope_le_one _ _)
      have h5 := mul_le_mul_of_nonneg_left h4 hc0.le
      linarith
  · rintro ⟨n, f, rfl, hf⟩ h₁ h₂ mlp₁ mlp₂ x₁ y₁ x₂ y₂ a b θ lr c N hc ht₁ ht₂
    exact C112_partial h₁ h₂ mlp₁ mlp₂ x₁ y₁ x₂ y₂ m k n f a b θ lr c N hc hf ht₁ ht₂

/-- TEST: trainings as in `C112_partial` exist: a `relu` layer of 3 units, two rows of two features, the second training with everything doubled. -/
example : ∃ (h₁ h₂ : Heap ℝ) (mlp₁ mlp₂ : Mlp ℝ) (x₁ y₁ x₂ y₂ : Nat),
    Training h₁ mlp₁ x₁ y₁ 2 2 [(3, .relu)] (fun i j => i - j) (fun _ _ => 5) (fun _ _ => 1) ∧
      Training h₂ mlp₂ x₂ y₂ 2 2 [(3, .relu)] (fun i j => i - j) (fun _ _ => 2 * 5) fun _ _ => 2 * 1 :=
  ⟨_, _, _, _, _, _, _, _, training_exists 2 2 _ _ _ _ (by omega) (by omega) (by simp), training_exists 2 2 _ _ _ _ (by omega) (by omega) (by simp)⟩

/-- TEST: `relu` layers satisfy the condition of `C112_exact`, `tanh` layers and two layers do not. -/
example : (∃ n f, [(3, Act.relu)] = [(n, f)] ∧ f ≠ .tanh) ∧ (¬ ∃ n f, [(3, Act.tanh)] = [(n, f)] ∧ f ≠ .tanh) ∧
    ¬ ∃ n f, [(3, Act.relu), (1, Act.identity)] = [(n, f)] ∧ f ≠ .tanh := by
  refine ⟨⟨3, .relu, rfl, by simp⟩, ?_, ?_⟩
  · rintro ⟨n, f, h, hf⟩
    cases h
    exact hf rfl
  · rintro ⟨n, f, h, _⟩
    cases h

end RL
