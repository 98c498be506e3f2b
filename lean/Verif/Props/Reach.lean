import Verif.Lemmas.Reach
import Verif.Props.Settle

/-!
# Property theorems: expected outputs that tanh never reaches (C119)
-/

namespace RL

open Spec

/-- C119: if an output is a `tanh` and its expected values are at least 1 in all rows, then every training step raises its bias, in `N` steps by at most `N * lr * m`; the loss
does not become 0. -/
theorem C119_up (N : Nat) (h : Heap ℝ) (mlp : Mlp ℝ) (x y m k n : Nat) (pre : List (Nat × Act)) (a b θ : Nat → Nat → ℝ) (lr : ℝ) (hm : 0 < m) (hlr : 0 < lr) (j : Nat) (hj : j < n)
    (hy : ∀ i < m, 1 ≤ b i j) (ht : Training h mlp x y m k (pre ++ [(n, .tanh)]) a b θ) :
    ∃ h₁ mlp₁ θ₁ h₂ mlp₂ θ₂, train mlp h x y lr N = .ok (h₁, mlp₁) ∧ NetIs h₁ mlp₁ k (pre ++ [(n, .tanh)]) θ₁ ∧
      trainStep mlp₁ h₁ x y lr = .ok (h₂, mlp₂) ∧ NetIs h₂ mlp₂ k (pre ++ [(n, .tanh)]) θ₂ ∧
      θ₁ (2 * pre.length + 1) j < θ₂ (2 * pre.length + 1) j ∧ θ₂ (2 * pre.length + 1) j ≤ θ (2 * pre.length + 1) j + (N + 1) * (lr * m) ∧
      0 < netLoss m k (pre ++ [(n, .tanh)]) a b θ₁ := by
  obtain ⟨h₁, mlp₁, e₁, t₁⟩ := C50_actual N h mlp x y m k _ a b θ lr ht
  obtain ⟨h₂, mlp₂, e₂, t₂⟩ := C50_step_actual h₁ mlp₁ x y m k _ a b _ lr t₁
  refine ⟨h₁, mlp₁, _, h₂, mlp₂, _, e₁, t₁.net, e₂, t₂.net, ?_, ?_, ?_⟩
  · rw [bias_up a b _ hj hy]
    have := mul_pos hlr (slopes_pos hm fun i => lastIn k n pre ((shuffledDescend lr m k (pre ++ [(n, .tanh)]) a b)^[N] θ) a i j)
    linarith
  · have H : ∀ N : Nat, (shuffledDescend lr m k (pre ++ [(n, .tanh)]) a b)^[N] θ (2 * pre.length + 1) j ≤ θ (2 * pre.length + 1) j + N * (lr * m) := by
      intro N
      induction N with
      | zero => simp
      | succ N ih =>
        rw [Function.iterate_succ_apply', bias_up a b _ hj hy]
        have := mul_le_mul_of_nonneg_left (slopes_le (m := m) fun i => lastIn k n pre ((shuffledDescend lr m k (pre ++ [(n, .tanh)]) a b)^[N] θ) a i j) hlr.le
        push_cast
        linarith
    have := H (N + 1)
    rw [Function.iterate_succ_apply'] at this
    push_cast at this
    exact this
  · generalize (shuffledDescend lr m k (pre ++ [(n, .tanh)]) a b)^[N] θ = η
    refine Finset.sum_pos' (fun i _ => Finset.sum_nonneg fun j _ => abs_nonneg _) ⟨0, Finset.mem_range.2 hm, ?_⟩
    rw [lastWidth_append]
    refine Finset.sum_pos' (fun j _ => abs_nonneg _) ⟨j, Finset.mem_range.2 hj, abs_pos.2 ?_⟩
    rw [value_last]
    have h1 : Act.tanh.fn (lastIn k n pre η a 0 j) < 1 := (abs_lt.1 (Real.abs_tanh_lt_one _)).2
    have := hy 0 hm
    exact (by linarith : _ < (0 : ℝ)).ne

/-- C119, the same for expected values of at most -1: every step lowers the bias. -/
theorem C119_down (N : Nat) (h : Heap ℝ) (mlp : Mlp ℝ) (x y m k n : Nat) (pre : List (Nat × Act)) (a b θ : Nat → Nat → ℝ) (lr : ℝ) (hm : 0 < m) (hlr : 0 < lr) (j : Nat) (hj : j < n)
    (hy : ∀ i < m, b i j ≤ -1) (ht : Training h mlp x y m k (pre ++ [(n, .tanh)]) a b θ) :
    ∃ h₁ mlp₁ θ₁ h₂ mlp₂ θ₂, train mlp h x y lr N = .ok (h₁, mlp₁) ∧ NetIs h₁ mlp₁ k (pre ++ [(n, .tanh)]) θ₁ ∧
      trainStep mlp₁ h₁ x y lr = .ok (h₂, mlp₂) ∧ NetIs h₂ mlp₂ k (pre ++ [(n, .tanh)]) θ₂ ∧
      θ₂ (2 * pre.length + 1) j < θ₁ (2 * pre.length + 1) j ∧ θ (2 * pre.length + 1) j - (N + 1) * (lr * m) ≤ θ₂ (2 * pre.length + 1) j ∧
      0 < netLoss m k (pre ++ [(n, .tanh)]) a b θ₁ := by
  obtain ⟨h₁, mlp₁, e₁, t₁⟩ := C50_actual N h mlp x y m k _ a b θ lr ht
  obtain ⟨h₂, mlp₂, e₂, t₂⟩ := C50_step_actual h₁ mlp₁ x y m k _ a b _ lr t₁
  refine ⟨h₁, mlp₁, _, h₂, mlp₂, _, e₁, t₁.net, e₂, t₂.net, ?_, ?_, ?_⟩
  · rw [bias_down a b _ hj hy]
    have := mul_pos hlr (slopes_pos hm fun i => lastIn k n pre ((shuffledDescend lr m k (pre ++ [(n, .tanh)]) a b)^[N] θ) a i j)
    linarith
  · have H : ∀ N : Nat, θ (2 * pre.length + 1) j - N * (lr * m) ≤ (shuffledDescend lr m k (pre ++ [(n, .tanh)]) a b)^[N] θ (2 * pre.length + 1) j := by
      intro N
      induction N with
      | zero => simp
      | succ N ih =>
        rw [Function.iterate_succ_apply', bias_down a b _ hj hy]
        have := mul_le_mul_of_nonneg_left (slopes_le (m := m) fun i => lastIn k n pre ((shuffledDescend lr m k (pre ++ [(n, .tanh)]) a b)^[N] θ) a i j) hlr.le
        push_cast
        linarith
    have := H (N + 1)
    rw [Function.iterate_succ_apply'] at this
    push_cast at this
    exact this
  · generalize (shuffledDescend lr m k (pre ++ [(n, .tanh)]) a b)^[N] θ = η
    refine Finset.sum_pos' (fun i _ => Finset.sum_nonneg fun j _ => abs_nonneg _) ⟨0, Finset.mem_range.2 hm, ?_⟩
    rw [lastWidth_append]
    refine Finset.sum_pos' (fun j _ => abs_nonneg _) ⟨j, Finset.mem_range.2 hj, abs_pos.2 ?_⟩
    rw [value_last]
    have h1 : -1 < Act.tanh.fn (lastIn k n pre η a 0 j) := (abs_lt.1 (Real.abs_tanh_lt_one _)).1
    have := hy 0 hm
    exact (by linarith : (0 : ℝ) < _).ne'

/-- C119 for the network of `main` (`/repo/src/main.rs` 29-45, 75-93): whatever is drawn, each of the 8 output biases rises in both steps, together by at most 2/100. -/
theorem C119_main (h : Heap ℝ) (mlp : Mlp ℝ) (x y : Nat) (a θ : Nat → Nat → ℝ) (j : Nat) (hj : j < 8)
    (ht : Training h mlp x y 1 8 [(8192, .relu), (8192, .tanh), (8, .tanh)] a (fun _ _ => 1) θ) :
    ∃ h₁ mlp₁ θ₁ h₂ mlp₂ θ₂, trainStep mlp h x y (1 / 100) = .ok (h₁, mlp₁) ∧ NetIs h₁ mlp₁ 8 [(8192, .relu), (8192, .tanh), (8, .tanh)] θ₁ ∧
      trainStep mlp₁ h₁ x y (1 / 100) = .ok (h₂, mlp₂) ∧ NetIs h₂ mlp₂ 8 [(8192, .relu), (8192, .tanh), (8, .tanh)] θ₂ ∧
      θ 5 j < θ₁ 5 j ∧ θ₁ 5 j < θ₂ 5 j ∧ θ₂ 5 j ≤ θ 5 j + 2 / 100 := by
  obtain ⟨h₁, mlp₁, e₁, t₁⟩ := C50_step_actual h mlp x y 1 8 _ a _ θ (1 / 100) ht
  obtain ⟨h₂, mlp₂, e₂, t₂⟩ := C50_step_actual h₁ mlp₁ x y 1 8 _ a _ _ (1 / 100) t₁
  have B : ∀ η : Nat → Nat → ℝ, η 5 j < shuffledDescend (1 / 100) 1 8 [(8192, .relu), (8192, .tanh), (8, .tanh)] a (fun _ _ => 1) η 5 j ∧
      shuffledDescend (1 / 100) 1 8 [(8192, .relu), (8192, .tanh), (8, .tanh)] a (fun _ _ => 1) η 5 j ≤ η 5 j + 1 / 100 := by
    intro η
    have h1 := bias_up (m := 1) (k := 8) (n := 8) (pre := [(8192, .relu), (8192, .tanh)]) (lr := 1 / 100) a (fun _ _ => 1) η hj fun _ _ => le_refl _
    have h2 := slopes_pos (m := 1) (by omega) fun i => lastIn 8 8 [(8192, .relu), (8192, .tanh)] η a i j
    have h3 := slopes_le (m := 1) fun i => lastIn 8 8 [(8192, .relu), (8192, .tanh)] η a i j
    generalize ∑ i ∈ Finset.range 1, Act.tanh.slope (lastIn 8 8 [(8192, .relu), (8192, .tanh)] η a i j) = S at h1 h2 h3
    have h4 : shuffledDescend (1 / 100) 1 8 [(8192, .relu), (8192, .tanh), (8, .tanh)] a (fun _ _ => 1) η 5 j = η 5 j + 1 / 100 * S := h1
    rw [h4]
    push_cast at h3
    constructor <;> linarith
  refine ⟨h₁, mlp₁, _, h₂, mlp₂, _, e₁, t₁.net, e₂, t₂.net, (B _).1, (B _).1, ?_⟩
  have h1 := (B θ).2
  have h2 := (B (shuffledDescend (1 / 100) 1 8 [(8192, .relu), (8192, .tanh), (8, .tanh)] a (fun _ _ => 1) θ)).2
  linarith

/-- TEST of the hypotheses of `C119_main` and `C119_up`: the network of `main` with any numbers. -/
example (a θ : Nat → Nat → ℝ) : (∃ h mlp x y, Training h mlp x y 1 8 [(8192, .relu), (8192, .tanh), (8, .tanh)] a (fun _ _ => 1) θ) ∧ ∀ i < 1, (1 : ℝ) ≤ (fun _ _ => 1 : Nat → Nat → ℝ) i 0 :=
  ⟨⟨_, _, _, _, training_exists 1 8 _ _ _ _ (by omega) (by omega) (by simp)⟩, fun _ _ => le_refl _⟩

/-- TEST of the hypotheses of `C119_down`: 3 rows, one expected value of which is -2. -/
example (a θ : Nat → Nat → ℝ) : (∃ h mlp x y, Training h mlp x y 3 2 ([(4, .relu)] ++ [(1, .tanh)]) a (fun i _ => if i = 1 then -2 else -1) θ) ∧
    ∀ i < 3, (fun i _ => if i = 1 then -2 else -1 : Nat → Nat → ℝ) i 0 ≤ -1 :=
  ⟨⟨_, _, _, _, training_exists 3 2 _ _ _ _ (by omega) (by omega) (by simp)⟩, fun i _ => by
    by_cases h : i = 1 <;> simp [h]⟩

end RL
