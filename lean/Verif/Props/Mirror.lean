import Verif.Lemmas.Mirror
import Verif.Props.Descent
import Verif.Props.Settle

/-!
# Mirrored networks (C92) and shifted outputs (C93)
-/

namespace RL

open Spec

/-! ## mirrored layers (C92) -/

/-- C92: mirroring the outputs of any layers without activation or with `tanh`, that is, negating what feeds them and what reads them (also
the input data and, for the last layer, the expected outputs), commutes with any number of training steps, for networks of every depth and
size. If the last layer is mirrored, this needs that no output is exactly the expected one on the way. -/
theorem C92_mirror (h₁ h₂ : Heap ℝ) (mlp₁ mlp₂ : Mlp ℝ) (x₁ y₁ x₂ y₂ m k : Nat) (ds : List (Nat × Act)) (a b θ : Nat → Nat → ℝ) (lr : ℝ) (N : Nat)
    (σ : Nat → ℝ) (hσ : Signs σ) (hm : Mirrorable σ ds) (ht₁ : Training h₁ mlp₁ x₁ y₁ m k ds a b θ)
    (ht₂ : Training h₂ mlp₂ x₂ y₂ m k ds (fun i j => σ 0 * a i j) (fun i j => σ ds.length * b i j) (mirrored σ θ))
    (hne : σ ds.length = 1 ∨ ∀ t < N, ∀ h' mlp' θ', train mlp₁ h₁ x₁ y₁ lr t = .ok (h', mlp') → NetIs h' mlp' k ds θ' →
      ∀ i < m, ∀ j < lastWidth k ds, netValue k (layerFns θ' 0 ds) a i j ≠ b i j) :
    ∃ h₁' mlp₁' h₂' mlp₂' θ', train mlp₁ h₁ x₁ y₁ lr N = .ok (h₁', mlp₁') ∧ train mlp₂ h₂ x₂ y₂ lr N = .ok (h₂', mlp₂') ∧
      NetIs h₁' mlp₁' k ds θ' ∧ NetIs h₂' mlp₂' k ds (mirrored σ θ') := by
  obtain ⟨h₁', mlp₁', e₁, t₁⟩ := C50_actual N h₁ mlp₁ x₁ y₁ m k ds a b θ lr ht₁
  obtain ⟨h₂', mlp₂', e₂, t₂⟩ := C50_actual N h₂ mlp₂ x₂ y₂ m k ds _ _ _ lr ht₂
  refine ⟨h₁', mlp₁', h₂', mlp₂', _, e₁, e₂, t₁.net, ?_⟩
  have hcomm : ∀ t ≤ N, (shuffledDescend lr m k ds (fun i j => σ 0 * a i j) (fun i j => σ ds.length * b i j))^[t] (mirrored σ θ) =
      mirrored σ ((shuffledDescend lr m k ds a b)^[t] θ) := by
    intro t
    induction t with
    | zero => exact fun _ => rfl
    | succ t ih =>
      intro hN
      rw [Function.iterate_succ_apply', Function.iterate_succ_apply', ih (by omega)]
      refine shuffledDescend_mirrored hσ lr hm (hne.imp_right fun h => ?_)
      obtain ⟨h', mlp', e, t'⟩ := C50_actual t h₁ mlp₁ x₁ y₁ m k ds a b θ lr ht₁
      exact h t (by omega) h' mlp' _ e t'.net
  rw [← hcomm N le_rfl]
  exact t₂.net

/-- C92: the loss is the same. -/
theorem C92_loss (h₁ h₂ : Heap ℝ) (mlp₁ mlp₂ : Mlp ℝ) (x₁ y₁ x₂ y₂ m k : Nat) (ds : List (Nat × Act)) (a b θ : Nat → Nat → ℝ)
    (σ : Nat → ℝ) (hσ : Signs σ) (hm : Mirrorable σ ds) (ht₁ : Training h₁ mlp₁ x₁ y₁ m k ds a b θ)
    (ht₂ : Training h₂ mlp₂ x₂ y₂ m k ds (fun i j => σ 0 * a i j) (fun i j => σ ds.length * b i j) (mirrored σ θ)) :
    ∃ h₁' l₁ h₂' l₂ L, trainLoss mlp₁ h₁ x₁ y₁ = .ok (h₁', l₁) ∧ trainLoss mlp₂ h₂ x₂ y₂ = .ok (h₂', l₂) ∧
      dataOf h₁' l₁ = some ⟨[L], []⟩ ∧ dataOf h₂' l₂ = some ⟨[L], []⟩ := by
  obtain ⟨h₁', l₁, e₁, d₁⟩ := C54_loss _ _ _ _ _ _ _ _ _ _ ht₁
  obtain ⟨h₂', l₂, e₂, d₂⟩ := C54_loss _ _ _ _ _ _ _ _ _ _ ht₂
  rw [netLoss_mirrored hσ m k a b hm] at d₂
  exact ⟨h₁', l₁, h₂', l₂, _, e₁, e₂, d₁, d₂⟩

/-- C92, the last condition is needed: a layer without activation whose outputs are the expected ones, and its mirror image, both get smaller
biases from a step, so the results are no mirror images. -/
theorem C92_kink (h₁ h₂ : Heap ℝ) (mlp₁ mlp₂ : Mlp ℝ) (x₁ y₁ x₂ y₂ m k n : Nat) (a b θ : Nat → Nat → ℝ) (lr : ℝ) (hlr : lr ≠ 0)
    (hm : 0 < m) (hn : 0 < n) (ht₁ : Training h₁ mlp₁ x₁ y₁ m k [(n, .identity)] a b θ)
    (ht₂ : Training h₂ mlp₂ x₂ y₂ m k [(n, .identity)] a (fun i j => -b i j) fun q c => -θ q c)
    (hfit : ∀ i < m, ∀ j < n, netValue k (layerFns θ 0 [(n, .identity)]) a i j = b i j) :
    ¬ ∃ h₁' mlp₁' h₂' mlp₂' θ', trainStep mlp₁ h₁ x₁ y₁ lr = .ok (h₁', mlp₁') ∧ trainStep mlp₂ h₂ x₂ y₂ lr = .ok (h₂', mlp₂') ∧
      NetIs h₁' mlp₁' k [(n, .identity)] θ' ∧ NetIs h₂' mlp₂' k [(n, .identity)] fun q c => -θ' q c := by
  rintro ⟨h₁', mlp₁', h₂', mlp₂', θ', e₁, e₂, n₁, n₂⟩
  have hfit' : ∀ i < m, ∀ j < n, netValue k (layerFns (fun q c => -θ q c) 0 [(n, .identity)]) a i j = -b i j := by
    intro i hi j hj
    rw [← hfit i hi j hj]
    simp only [layerFns, netValue, affine_sum, Act.fn, id]
    rw [neg_add, ← Finset.sum_neg_distrib]
    simp
  obtain ⟨g₁, l₁, θ₁, f₁, t₁, c₁⟩ := C91_fit h₁ mlp₁ x₁ y₁ m k n [] a b θ lr ht₁ hfit
  obtain ⟨g₂, l₂, θ₂, f₂, t₂, c₂⟩ := C91_fit h₂ mlp₂ x₂ y₂ m k n [] a _ _ lr ht₂ hfit'
  rw [e₁] at f₁
  cases f₁
  rw [e₂] at f₂
  cases f₂
  have u₁ := n₁.unique t₁.net (last_bias_mem k n [] .identity hn)
  have u₂ := n₂.unique t₂.net (last_bias_mem k n [] .identity hn)
  rw [c₁ 0 hn] at u₁
  rw [c₂ 0 hn, u₁] at u₂
  have : lr * (m : ℝ) = 0 := by linarith
  rcases mul_eq_zero.1 this with h | h
  · exact hlr h
  · exact hm.ne' (by exact_mod_cast h)

/-- C92, test: the hidden layer of a `tanh` network is mirrored; this negates its weights and its bias, and the weights of the next layer. -/
example (θ : Nat → Nat → ℝ) : Mirrorable (fun l => if l = 1 then -1 else 1) [(40, .tanh), (5, .relu)] ∧
    Signs (fun l => if l = 1 then -1 else 1) ∧ ∀ c, mirrored (fun l => if l = 1 then -1 else 1) θ 0 c = -θ 0 c ∧
    mirrored (fun l => if l = 1 then -1 else 1) θ 1 c = -θ 1 c ∧ mirrored (fun l => if l = 1 then -1 else 1) θ 2 c = -θ 2 c ∧
    mirrored (fun l => if l = 1 then -1 else 1) θ 3 c = θ 3 c := by
  refine ⟨fun l n h => ?_, fun l => ?_, fun c => by norm_num [mirrored]⟩
  · match l, h with
    | 0, h => simp at h
    | l + 1, _ => simp
  · dsimp only
    split
    · exact .inr rfl
    · exact .inl rfl

/-- C92, test: for `relu` layers it is false. The mirror image of one unit with input 1 and weight 1 puts out 0, not -1. -/
example : netValue 1 (layerFns (mirrored (fun l => if l = 1 then -1 else 1) fun q _ => if q = 0 then 1 else 0) 0 [(1, .relu)]) (fun _ _ => 1) 0 0 = 0 ∧
    netValue 1 (layerFns (fun q _ => if q = 0 then 1 else 0) 0 [(1, .relu)]) (fun _ _ => 1) 0 0 = 1 := by
  norm_num [layerFns, netValue, affine_sum, Act.fn, mirrored]

/-! ## shifted outputs (C93) -/

/-- C93: adding the same values to the bias of a last layer without activation and to the expected outputs of all rows commutes with any number
of training steps, for networks of every depth and size, also at kinks. -/
theorem C93_shift (h₁ h₂ : Heap ℝ) (mlp₁ mlp₂ : Mlp ℝ) (x₁ y₁ x₂ y₂ m k n : Nat) (pre : List (Nat × Act)) (a b θ : Nat → Nat → ℝ) (lr : ℝ) (N : Nat)
    (s : Nat → ℝ) (ht₁ : Training h₁ mlp₁ x₁ y₁ m k (pre ++ [(n, .identity)]) a b θ)
    (ht₂ : Training h₂ mlp₂ x₂ y₂ m k (pre ++ [(n, .identity)]) a (fun i j => b i j + s j) (shifted (2 * pre.length) s θ)) :
    ∃ h₁' mlp₁' h₂' mlp₂' θ', train mlp₁ h₁ x₁ y₁ lr N = .ok (h₁', mlp₁') ∧ train mlp₂ h₂ x₂ y₂ lr N = .ok (h₂', mlp₂') ∧
      NetIs h₁' mlp₁' k (pre ++ [(n, .identity)]) θ' ∧ NetIs h₂' mlp₂' k (pre ++ [(n, .identity)]) (shifted (2 * pre.length) s θ') := by
  obtain ⟨h₁', mlp₁', e₁, t₁⟩ := C50_actual N h₁ mlp₁ x₁ y₁ m k _ a b θ lr ht₁
  obtain ⟨h₂', mlp₂', e₂, t₂⟩ := C50_actual N h₂ mlp₂ x₂ y₂ m k _ _ _ _ lr ht₂
  refine ⟨h₁', mlp₁', h₂', mlp₂', _, e₁, e₂, t₁.net, ?_⟩
  have hcomm : ∀ t, (shuffledDescend lr m k (pre ++ [(n, .identity)]) a fun i j => b i j + s j)^[t] (shifted (2 * pre.length) s θ) =
      shifted (2 * pre.length) s ((shuffledDescend lr m k (pre ++ [(n, .identity)]) a b)^[t] θ) := by
    intro t
    induction t with
    | zero => rfl
    | succ t ih => rw [Function.iterate_succ_apply', Function.iterate_succ_apply', ih, shuffledDescend_shifted]
  rw [← hcomm]
  exact t₂.net

/-- C93: the loss is the same. -/
theorem C93_loss (h₁ h₂ : Heap ℝ) (mlp₁ mlp₂ : Mlp ℝ) (x₁ y₁ x₂ y₂ m k n : Nat) (pre : List (Nat × Act)) (a b θ : Nat → Nat → ℝ)
    (s : Nat → ℝ) (ht₁ : Training h₁ mlp₁ x₁ y₁ m k (pre ++ [(n, .identity)]) a b θ)
    (ht₂ : Training h₂ mlp₂ x₂ y₂ m k (pre ++ [(n, .identity)]) a (fun i j => b i j + s j) (shifted (2 * pre.length) s θ)) :
    ∃ h₁' l₁ h₂' l₂ L, trainLoss mlp₁ h₁ x₁ y₁ = .ok (h₁', l₁) ∧ trainLoss mlp₂ h₂ x₂ y₂ = .ok (h₂', l₂) ∧
      dataOf h₁' l₁ = some ⟨[L], []⟩ ∧ dataOf h₂' l₂ = some ⟨[L], []⟩ := by
  obtain ⟨h₁', l₁, e₁, d₁⟩ := C54_loss _ _ _ _ _ _ _ _ _ _ ht₁
  obtain ⟨h₂', l₂, e₂, d₂⟩ := C54_loss _ _ _ _ _ _ _ _ _ _ ht₂
  rw [netLoss_shifted] at d₂
  exact ⟨h₁', l₁, h₂', l₂, _, e₁, e₂, d₁, d₂⟩

/-- C93, test: both trainings exist, for 3 rows and 40 hidden units. -/
example (a b θ : Nat → Nat → ℝ) (s : Nat → ℝ) : (∃ h mlp x y, Training h mlp x y 3 2 ([(40, .relu)] ++ [(1, .identity)]) a b θ) ∧
    ∃ h mlp x y, Training h mlp x y 3 2 ([(40, .relu)] ++ [(1, .identity)]) a (fun i j => b i j + s j) (shifted 2 s θ) :=
  ⟨⟨_, _, _, _, training_exists 3 2 _ a b θ (by omega) (by omega) (by simp)⟩, _, _, _, _, training_exists 3 2 _ a _ _ (by omega) (by omega) (by simp)⟩

/-- C93, test: with `tanh` in the last layer it is false. A unit with the parameters 0 puts out 0; with the bias 1 it does not put out 1. -/
example : netValue 1 (layerFns (fun _ _ => 0) 0 [(1, .tanh)]) (fun _ _ => 0) 0 0 = 0 ∧
    netValue 1 (layerFns (shifted 0 (fun _ => 1) fun _ _ => 0) 0 [(1, .tanh)]) (fun _ _ => 0) 0 0 ≠ 1 := by
  constructor
  · simp [layerFns, netValue, affine_sum, Act.fn]
  · simp only [layerFns, netValue, affine_sum, Act.fn, shifted]
    norm_num
    exact (Real.tanh_lt_one 1).ne

end RL
