import Verif.Lemmas.Feature
import Verif.Props.Units

/-!
# Exactly for which networks units that never react keep their weights: C83
-/

namespace RL

open Spec

/-- C83, exactly for which networks: those whose first layer has at most 32 weights, or a number of units that divides 32. -/
theorem C83_exact (m k n : Nat) (ds : List (Nat × Act)) (hm : 0 < m) (hk : 0 < k) (hd : ∀ d ∈ (n, Act.relu) :: ds, 0 < d.1) :
    (∀ (h : Heap ℝ) (mlp : Mlp ℝ) (x y : Nat) (a b θ : Nat → Nat → ℝ) (lr : ℝ) (j : Nat), Training h mlp x y m k ((n, .relu) :: ds) a b θ → j < n →
      (∀ i < m, affine k a (fun r j => θ 0 (r * n + j)) (θ 1) i j < 0) →
      ∃ h' mlp' θ', trainStep mlp h x y lr = .ok (h', mlp') ∧ NetIs h' mlp' k ((n, .relu) :: ds) θ' ∧
        (∀ r < k, θ' 0 (r * n + j) = θ 0 (r * n + j)) ∧ θ' 1 j = θ 1 j) ↔ k * n ≤ 32 ∨ n ∣ 32 := by
  have hn := hd _ List.mem_cons_self
  constructor
  · intro H
    by_contra hS
    simp only [not_or, not_le] at hS
    obtain ⟨hS, hdvd⟩ := hS
    have hs : shuffle (k * n) 0 = k * n - 32 := by
      simp only [shuffle]
      omega
    have hj0 : (k * n - 32) % n ≠ 0 := by
      intro h0
      apply hdvd
      have h1 : n ∣ k * n - (k * n - 32) := Nat.dvd_sub (Nat.dvd_mul_left n k) (Nat.dvd_of_mod_eq_zero h0)
      rwa [show k * n - (k * n - 32) = 32 by omega] at h1
    have hlt : k * n - 32 < k * n := by omega
    have hj := Nat.mod_lt (k * n - 32) hn
    have ht := training_exists m k ((n, .relu) :: ds) (onPath fun _ => 1) (fun _ _ => 0) (oneDead ((k * n - 32) % n)) hm hk hd
    have hpos := lossTangent_pos (θ := oneDead ((k * n - 32) % n)) (f := .relu) (ds := ds) hm hk hd hn (fun q c h => by simp [oneDead, h])
      (fun q c h2 h => by
        simp only [oneDead, h]
        rw [if_neg (by omega), if_neg (by omega)])
      (by simp [oneDead, hj0.symm]) (fun j' _ => le_max_right _ _)
    rw [hs] at hpos
    generalize hc : k * n - 32 = c at *
    have hr : c / n < k := (Nat.div_lt_iff_lt_mul hn).2 hlt
    obtain ⟨h', mlp', θ', e, net, hkeep, _⟩ := H _ _ _ _ _ _ _ 1 (c % n) ht hj fun i _ => by
      rw [affine_sum, Finset.sum_eq_single 0]
      · simp [onPath, oneDead]
      · intro r _ hr
        simp [onPath, hr]
      · simp [hk]
    obtain ⟨_, _, e2, t2⟩ := C50_step_actual _ _ _ _ _ _ _ _ _ _ 1 ht
    rw [e] at e2
    cases e2
    have hk' := hkeep (c / n) hr
    rw [Nat.div_add_mod', net.unique t2.net (by simp [coords, hlt])] at hk'
    change oneDead (c % n) 0 c - 1 * lossTangent m k ((n, .relu) :: ds) _ _ (oneDead (c % n)) (unit 0 c) = oneDead (c % n) 0 c at hk'
    linarith
  · intro hS h mlp x y a b θ lr j ht hj hdead
    obtain ⟨h', mlp', θ', e, t, H⟩ := C83_partial h mlp x y m k n ds a b θ lr 1 j ht hj hdead hS
    refine ⟨h', mlp', θ', ?_, t, H⟩
    simp only [train, R.bind_eq_ok] at e
    obtain ⟨⟨h1, mlp1⟩, e1, e2⟩ := e
    rw [e1]
    exact e2

/-- C83, test: `C83_exact` tells apart first layers with the same number of weights: 11 inputs and 4 units, 4 inputs and 11 units. -/
example : (11 * 4 ≤ 32 ∨ 4 ∣ 32) ∧ ¬ (4 * 11 ≤ 32 ∨ 11 ∣ 32) := by decide

/-- C83, test: 100 inputs and 16 units, all of which never react: training changes nothing in the first layer. -/
example (b : Nat → Nat → ℝ) (lr : ℝ) (N j : Nat) (hj : j < 16) : ∃ h mlp h' mlp' θ',
    Training h mlp 0 1 5 100 [(16, .relu), (1, .identity)] (fun _ _ => 1) b (fun q _ => if q = 1 then -1 else 0) ∧
      train mlp h 0 1 lr N = .ok (h', mlp') ∧ NetIs h' mlp' 100 [(16, .relu), (1, .identity)] θ' ∧ (∀ r < 100, θ' 0 (r * 16 + j) = 0) ∧ θ' 1 j = -1 := by
  have ht := training_exists 5 100 [(16, .relu), (1, .identity)] (fun _ _ => 1) b (fun q _ => if q = 1 then -1 else 0) (by omega) (by omega) (by simp)
  obtain ⟨h', mlp', θ', e, net, h1, h2⟩ := C83_partial _ _ 0 1 5 100 16 [(1, .identity)] _ b _ lr N j ht hj
    (fun i _ => by simp [affine_sum]) (.inr (by decide))
  exact ⟨_, _, h', mlp', θ', ht, e, net, fun r hr => by rw [h1 r hr]; simp, by rw [h2]; simp⟩

end RL
