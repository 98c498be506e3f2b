import Verif.Lemmas.RepeatExact
import Verif.Props.RepeatWide

/-!
# Property theorems: exactly when repeated rows change nothing (C111)
-/

namespace RL

open Spec

/-- C111, exactly: for these sizes it holds for all data, parameters, learning rates and numbers of steps if and only if for each layer but the last its output
for the batch with the repeated rows has at most 32 elements, or each row is there only once, or the number of elements of its output for the other batch
divides 32 or is a multiple of 32. -/
theorem C111_exact (m r k : Nat) (ds : List (Nat × Act)) (hm : 0 < m) (hr : 0 < r) (hk : 0 < k) (hd : ∀ d ∈ ds, 0 < d.1) :
    (∀ (h₁ h₂ : Heap ℝ) (mlp₁ mlp₂ : Mlp ℝ) (x₁ y₁ x₂ y₂ : Nat) (a b θ : Nat → Nat → ℝ) (lr : ℝ) (N : Nat),
      Training h₁ mlp₁ x₁ y₁ m k ds a b θ → Training h₂ mlp₂ x₂ y₂ (r * m) k ds (fun i => a (i % m)) (fun i => b (i % m)) θ →
      ∃ h₁' mlp₁' h₂' mlp₂' θ', train mlp₁ h₁ x₁ y₁ (r * lr) N = .ok (h₁', mlp₁') ∧ train mlp₂ h₂ x₂ y₂ lr N = .ok (h₂', mlp₂') ∧
        NetIs h₁' mlp₁' k ds θ' ∧ NetIs h₂' mlp₂' k ds θ') ↔
    ∀ d ∈ ds.dropLast, r * (m * d.1) ≤ 32 ∨ r = 1 ∨ m * d.1 ∣ 32 ∨ 32 ∣ m * d.1 := by
  constructor
  · intro H
    by_contra hS
    obtain ⟨pre, n, f, rest, rfl, hne, hN, hrest⟩ := last_not (fun n => Repeats r (m * n)) ds hS
    obtain ⟨a, b, θ, c, hc, hdiff⟩ := repeat_differs hm hr hk hd hne hN hrest
    have hp : (2 * pre.length, c) ∈ coords k 0 (pre ++ (n, f) :: rest) :=
      mem_coords_at pre _ k 0 _ (by simp [coords, hc])
    have ht₁ := training_exists m k _ a b θ hm hk hd
    have ht₂ := training_exists (r * m) k _ (fun i => a (i % m)) (fun i => b (i % m)) θ (Nat.mul_pos hr hm) hk hd
    obtain ⟨h₁', mlp₁', h₂', mlp₂', θ', e₁, e₂, n₁, n₂⟩ := H _ _ _ _ _ _ _ _ a b θ 1 1 ht₁ ht₂
    obtain ⟨_, _, f₁, t₁⟩ := C50_actual 1 _ _ _ _ _ _ _ _ _ _ (r * 1) ht₁
    obtain ⟨_, _, f₂, t₂⟩ := C50_actual 1 _ _ _ _ _ _ _ _ _ _ 1 ht₂
    rw [e₁] at f₁
    cases f₁
    rw [e₂] at f₂
    cases f₂
    have c₁ := n₁.unique t₁.net hp
    have c₂ := n₂.unique t₂.net hp
    rw [c₁] at c₂
    have h1 : θ (2 * pre.length) c - r * 1 * lossTangent m k (pre ++ (n, f) :: rest) a b θ (unit (2 * pre.length) c) =
      θ (2 * pre.length) c - 1 * lossTangent (r * m) k (pre ++ (n, f) :: rest) (fun i => a (i % m)) (fun i => b (i % m)) θ (unit (2 * pre.length) c) := c₂
    exact hdiff (by linarith)
  · intro hS h₁ h₂ mlp₁ mlp₂ x₁ y₁ x₂ y₂ a b θ lr N ht₁ ht₂
    exact C111_wide_partial h₁ h₂ mlp₁ mlp₂ x₁ y₁ x₂ y₂ m r k ds a b θ lr N ht₁ ht₂ hS

/-- TEST of `C111_exact`: 3 rows, each twice, through a layer of width 4: 12 elements do not divide 32, but 24 are at most 32; each three times, it fails. -/
example : (∀ d ∈ [(4, Act.relu), (1, .identity)].dropLast, 2 * (3 * d.1) ≤ 32 ∨ 2 = 1 ∨ 3 * d.1 ∣ 32 ∨ 32 ∣ 3 * d.1) ∧
    ¬ ∀ d ∈ [(4, Act.relu), (1, .identity)].dropLast, 3 * (3 * d.1) ≤ 32 ∨ 3 = 1 ∨ 3 * d.1 ∣ 32 ∨ 32 ∣ 3 * d.1 := by
  constructor <;> simp

end RL
