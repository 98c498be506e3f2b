import Verif.Lemmas.RepeatWide
import Verif.Props.Repeat

/-!
# Property theorems: batches that repeat their rows, in larger networks (C111)
-/

namespace RL

open Spec

/-- C111 for more networks than in `C111_partial`: for each layer but the last, its output has at most 32 elements for the batch with the repeated rows, or its
number of elements for the other batch divides 32 or is a multiple of 32. Missing: all others. -/
theorem C111_wide_partial (h₁ h₂ : Heap ℝ) (mlp₁ mlp₂ : Mlp ℝ) (x₁ y₁ x₂ y₂ m r k : Nat) (ds : List (Nat × Act)) (a b θ : Nat → Nat → ℝ) (lr : ℝ) (N : Nat)
    (ht₁ : Training h₁ mlp₁ x₁ y₁ m k ds a b θ) (ht₂ : Training h₂ mlp₂ x₂ y₂ (r * m) k ds (fun i => a (i % m)) (fun i => b (i % m)) θ)
    (hS : ∀ d ∈ ds.dropLast, r * (m * d.1) ≤ 32 ∨ r = 1 ∨ m * d.1 ∣ 32 ∨ 32 ∣ m * d.1) :
    ∃ h₁' mlp₁' h₂' mlp₂' θ', train mlp₁ h₁ x₁ y₁ (r * lr) N = .ok (h₁', mlp₁') ∧ train mlp₂ h₂ x₂ y₂ lr N = .ok (h₂', mlp₂') ∧
      NetIs h₁' mlp₁' k ds θ' ∧ NetIs h₂' mlp₂' k ds θ' := by
  obtain ⟨h₁', mlp₁', e₁, t₁⟩ := C50_actual N h₁ mlp₁ x₁ y₁ m k ds a b θ (r * lr) ht₁
  obtain ⟨h₂', mlp₂', e₂, t₂⟩ := C50_actual N h₂ mlp₂ x₂ y₂ (r * m) k ds _ _ θ lr ht₂
  refine ⟨h₁', mlp₁', h₂', mlp₂', _, e₁, e₂, t₁.net, ?_⟩
  have hstep : shuffledDescend lr (r * m) k ds (fun i => a (i % m)) (fun i => b (i % m)) = shuffledDescend (r * lr) m k ds a b := by
    funext θ q c
    simp only [shuffledDescend]
    rw [lossTangent_repeat hS]
    ring
  have := t₂.net
  rwa [hstep] at this

/-- TEST of the hypotheses of `C111_wide_partial`: 16 rows, each 5 times, through a layer of width 6 and one of width 1. -/
example (a b θ : Nat → Nat → ℝ) : ∃ h₁ mlp₁ x₁ y₁ h₂ mlp₂ x₂ y₂, Training h₁ mlp₁ x₁ y₁ 16 2 [(6, .relu), (1, .identity)] a b θ ∧
    Training h₂ mlp₂ x₂ y₂ (5 * 16) 2 [(6, .relu), (1, .identity)] (fun i => a (i % 16)) (fun i => b (i % 16)) θ ∧
    ∀ d ∈ [(6, Act.relu), (1, .identity)].dropLast, 5 * (16 * d.1) ≤ 32 ∨ 5 = 1 ∨ 16 * d.1 ∣ 32 ∨ 32 ∣ 16 * d.1 :=
  ⟨_, _, _, _, _, _, _, _, training_exists 16 2 _ _ _ _ (by omega) (by omega) (by simp), training_exists (5 * 16) 2 _ _ _ _ (by omega) (by omega) (by simp),
    by simp⟩

end RL
