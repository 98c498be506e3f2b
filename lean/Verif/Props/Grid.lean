import Verif.Lemmas.Grid
import Verif.Props.Settle

/-!
# Property theorems: the biases of the last layer stay on a grid (C115)
-/

namespace RL

open Spec

/-- C115, full statement: after any number `N` of training steps each bias of the last layer is what it was at the start plus a whole multiple, at most `N` times
the number of rows, of the learning rate. It is false: see `C115_false`. -/
def C115_statement : Prop :=
  ∀ (h : Heap ℝ) (mlp : Mlp ℝ) (x y m k n : Nat) (f : Act) (pre : List (Nat × Act)) (a b θ : Nat → Nat → ℝ) (lr : ℝ) (N : Nat),
    Training h mlp x y m k (pre ++ [(n, f)]) a b θ →
    ∃ h' mlp' θ', train mlp h x y lr N = .ok (h', mlp') ∧ NetIs h' mlp' k (pre ++ [(n, f)]) θ' ∧
      ∀ j < n, ∃ z : ℤ, |z| ≤ N * m ∧ θ' (2 * pre.length + 1) j = θ (2 * pre.length + 1) j + lr * z

/-- C115 if the last layer has relu or no activation, for all sizes and also at kinks. Missing: tanh, for which it is false (`C115_exact`). -/
theorem C115_partial (h : Heap ℝ) (mlp : Mlp ℝ) (x y m k n : Nat) (f : Act) (pre : List (Nat × Act)) (a b θ : Nat → Nat → ℝ) (lr : ℝ) (N : Nat)
    (ht : Training h mlp x y m k (pre ++ [(n, f)]) a b θ) (hf : f ≠ .tanh) :
    ∃ h' mlp' θ', train mlp h x y lr N = .ok (h', mlp') ∧ NetIs h' mlp' k (pre ++ [(n, f)]) θ' ∧
      ∀ j < n, ∃ z : ℤ, |z| ≤ N * m ∧ θ' (2 * pre.length + 1) j = θ (2 * pre.length + 1) j + lr * z := by
  obtain ⟨h', mlp', e, t⟩ := C50_actual N h mlp x y m k _ a b θ lr ht
  refine ⟨h', mlp', _, e, t.net, fun j hj => ?_⟩
  clear e t
  induction N with
  | zero => exact ⟨0, by simp, by simp⟩
  | succ N ih =>
    rw [Function.iterate_succ_apply']
    generalize (shuffledDescend lr m k (pre ++ [(n, f)]) a b)^[N] θ = θ' at ih ⊢
    obtain ⟨z, hz, e⟩ := ih
    obtain ⟨w, hw, e'⟩ := sum_grid (fun i => (if f.fn (lastIn k n pre θ' a i j) < b i j then -1 else 1) * f.slope (lastIn k n pre θ' a i j)) (fun i => by
      rcases slope_grid hf (lastIn k n pre θ' a i j) with h | h <;> split <;> simp [h]) m
    refine ⟨z - w, ?_, ?_⟩
    · rw [abs_le] at hz hw ⊢
      push_cast
      constructor <;> nlinarith
    · rw [descend_last_bias a b θ' hj, e', e]
      push_cast
      ring

/-- C115, the multiple: if the last layer has no activation, it is even if and only if the number of steps times the number of rows is. -/
theorem C115_parity (h : Heap ℝ) (mlp : Mlp ℝ) (x y m k n : Nat) (pre : List (Nat × Act)) (a b θ : Nat → Nat → ℝ) (lr : ℝ) (N : Nat)
    (ht : Training h mlp x y m k (pre ++ [(n, .identity)]) a b θ) :
    ∃ h' mlp' θ', train mlp h x y lr N = .ok (h', mlp') ∧ NetIs h' mlp' k (pre ++ [(n, .identity)]) θ' ∧
      ∀ j < n, ∃ z : ℤ, |z| ≤ N * m ∧ (Even z ↔ Even (N * m)) ∧ θ' (2 * pre.length + 1) j = θ (2 * pre.length + 1) j + lr * z := by
  obtain ⟨h', mlp', e, t⟩ := C50_actual N h mlp x y m k _ a b θ lr ht
  refine ⟨h', mlp', _, e, t.net, fun j hj => ?_⟩
  clear e t
  have H : ∃ z : ℤ, |z| ≤ N * m ∧ z % 2 = (N * m : ℕ) % 2 ∧
      (shuffledDescend lr m k (pre ++ [(n, .identity)]) a b)^[N] θ (2 * pre.length + 1) j = θ (2 * pre.length + 1) j + lr * z := by
    induction N with
    | zero => exact ⟨0, by simp, by simp, by simp⟩
    | succ N ih =>
      rw [Function.iterate_succ_apply']
      generalize (shuffledDescend lr m k (pre ++ [(n, .identity)]) a b)^[N] θ = θ' at ih ⊢
      obtain ⟨z, hz, e2, e⟩ := ih
      obtain ⟨w, hw, e2', e'⟩ := sum_odd (fun i => (if Act.identity.fn (lastIn k n pre θ' a i j) < b i j then -1 else 1) *
        Act.identity.slope (lastIn k n pre θ' a i j)) (fun i => by split <;> simp [Act.slope]) m
      refine ⟨z - w, ?_, ?_, ?_⟩
      · rw [abs_le] at hz hw ⊢
        push_cast
        constructor <;> nlinarith
      · rw [Nat.add_mul, Nat.one_mul]
        generalize N * m = M at *
        omega
      · rw [descend_last_bias a b θ' hj, e', e]
        push_cast
        ring
  obtain ⟨z, h1, h2, h3⟩ := H
  refine ⟨z, h1, ?_, h3⟩
  rw [Int.even_iff, Nat.even_iff, h2]
  omega

/-- C115, a single step: if the last layer has no activation, a bias grows by the learning rate times the number of rows for which the output is too low, minus the
number of the others. -/
theorem C115_step (h : Heap ℝ) (mlp : Mlp ℝ) (x y m k n : Nat) (pre : List (Nat × Act)) (a b θ : Nat → Nat → ℝ) (lr : ℝ)
    (ht : Training h mlp x y m k (pre ++ [(n, .identity)]) a b θ) :
    ∃ h' mlp' θ', trainStep mlp h x y lr = .ok (h', mlp') ∧ NetIs h' mlp' k (pre ++ [(n, .identity)]) θ' ∧
      ∀ j < n, θ' (2 * pre.length + 1) j = θ (2 * pre.length + 1) j +
        lr * (((Finset.range m).filter fun i => netValue k (layerFns θ 0 (pre ++ [(n, .identity)])) a i j < b i j).card -
          ((Finset.range m).filter fun i => b i j ≤ netValue k (layerFns θ 0 (pre ++ [(n, .identity)])) a i j).card) := by
  obtain ⟨h', mlp', e, t⟩ := C50_step_actual h mlp x y m k _ a b θ lr ht
  refine ⟨h', mlp', _, e, t.net, fun j hj => ?_⟩
  rw [descend_last_bias a b θ hj]
  simp only [Act.slope, mul_one, value_last]
  rw [Finset.sum_ite, Finset.sum_const, Finset.sum_const]
  simp only [not_lt, nsmul_eq_mul]
  ring

/-- C115, exactly for which networks: those whose last layer does not have tanh. -/
theorem C115_exact (m k n : Nat) (f : Act) (pre : List (Nat × Act)) (hm : 0 < m) (hk : 0 < k) (hd : ∀ d ∈ pre ++ [(n, f)], 0 < d.1) :
    (∀ (h : Heap ℝ) (mlp : Mlp ℝ) (x y : Nat) (a b θ : Nat → Nat → ℝ) (lr : ℝ) (N : Nat), Training h mlp x y m k (pre ++ [(n, f)]) a b θ →
      ∃ h' mlp' θ', train mlp h x y lr N = .ok (h', mlp') ∧ NetIs h' mlp' k (pre ++ [(n, f)]) θ' ∧
        ∀ j < n, ∃ z : ℤ, |z| ≤ N * m ∧ θ' (2 * pre.length + 1) j = θ (2 * pre.length + 1) j + lr * z) ↔ f ≠ .tanh := by
  constructor
  · rintro H rfl
    have hn : 0 < n := hd (n, .tanh) (by simp)
    obtain ⟨β, h0, h1⟩ := tanh_slope_small m
    obtain ⟨θ, hθ⟩ : ∃ θ : Nat → Nat → ℝ, θ = fun q _ => if q = 2 * pre.length + 1 then β else 0 := ⟨_, rfl⟩
    obtain ⟨b, hb⟩ : ∃ b : Nat → Nat → ℝ, b = fun _ _ => Real.tanh β := ⟨_, rfl⟩
    have ht := training_exists m k _ (fun _ _ => 0) b θ hm hk hd
    obtain ⟨h', mlp', θ', e, net, heq⟩ := H _ _ _ _ _ b θ 1 1 ht
    obtain ⟨_, _, e', t⟩ := C50_actual 1 _ _ _ _ _ _ _ _ _ _ 1 ht
    rw [e] at e'
    cases e'
    obtain ⟨z, _, hz⟩ := heq 0 hn
    rw [net.unique t.net (last_bias_mem k n pre .tanh hn)] at hz
    have hin : ∀ i, lastIn k n pre θ (fun _ _ => 0) i 0 = β := by
      intro i
      rw [lastIn, affine_sum, Finset.sum_eq_zero, zero_add, hθ]
      · simp
      · intro r _
        rw [hθ]
        simp
    have h2 : θ (2 * pre.length + 1) 0 - 1 * lossTangent m k (pre ++ [(n, .tanh)]) (fun _ _ => 0) b θ (unit (2 * pre.length + 1) 0) =
      θ (2 * pre.length + 1) 0 + 1 * z := hz
    rw [loss_last_bias _ _ hn] at h2
    simp only [hin, hb] at h2
    rw [Finset.sum_congr rfl fun i _ => by rw [if_neg (by simp [Act.fn]), one_mul], Finset.sum_const, Finset.card_range, nsmul_eq_mul] at h2
    have h3 : (m : ℝ) * Act.tanh.slope β = (-z : ℤ) := by
      push_cast
      linarith
    have hm' : (0 : ℝ) < m := Nat.cast_pos.2 hm
    have h4 : (0 : ℝ) < (-z : ℤ) := h3 ▸ mul_pos hm' h0
    have h5 : ((-z : ℤ) : ℝ) < (1 : ℤ) := by
      rw [← h3]
      exact_mod_cast h1
    have h6 : 0 < -z := by exact_mod_cast h4
    have h7 : -z < 1 := by exact_mod_cast h5
    omega
  · intro hf h mlp x y a b θ lr N ht
    exact C115_partial h mlp x y m k n f pre a b θ lr N ht hf

/-- C115 is false for tanh. -/
theorem C115_false : ¬ C115_statement := by
  intro H
  exact (C115_exact 1 1 1 .tanh [] (by omega) (by omega) (by simp)).1 (fun h mlp x y a b θ lr N ht => H h mlp x y 1 1 1 .tanh [] a b θ lr N ht) rfl

/-- TEST of the hypotheses of `C115_partial`, `C115_parity` and `C115_step`: 32 rows, 2 features, 100 hidden units. -/
example (a b θ : Nat → Nat → ℝ) : ∃ h mlp x y, Training h mlp x y 32 2 ([(100, .tanh)] ++ [(1, .identity)]) a b θ :=
  ⟨_, _, _, _, training_exists 32 2 _ _ _ _ (by omega) (by omega) (by simp)⟩

end RL
