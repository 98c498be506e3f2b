import Verif.Lemmas.Outputs
import Verif.Props.Order

/-!
# Property theorems: the order of the outputs (C122)

The outputs are renamed by `renameUnits (2 * pre.length) n 1 σ`; there is no next layer, of which the width 1 is taken.
-/

namespace RL

open Spec

/-- C122, full statement: the order of the outputs does not matter for training. If the expected outputs of two runs, and the weights and biases of the last layer, only differ by the
order `σ`, then so do the parameters after any number of steps. It is false: see `C122_false`. -/
def C122_statement : Prop :=
  ∀ (h₁ h₂ : Heap ℝ) (mlp₁ mlp₂ : Mlp ℝ) (x₁ y₁ x₂ y₂ m k n : Nat) (f : Act) (pre : List (Nat × Act)) (a b θ : Nat → Nat → ℝ) (lr : ℝ) (N : Nat)
    (σ : Equiv.Perm Nat), (∀ j < n, σ j < n) → Training h₁ mlp₁ x₁ y₁ m k (pre ++ [(n, f)]) a b θ →
    Training h₂ mlp₂ x₂ y₂ m k (pre ++ [(n, f)]) a (fun i j => b i (σ j)) (renameUnits (2 * pre.length) n 1 σ θ) →
    ∃ h₁' mlp₁' h₂' mlp₂' θ', train mlp₁ h₁ x₁ y₁ lr N = .ok (h₁', mlp₁') ∧ train mlp₂ h₂ x₂ y₂ lr N = .ok (h₂', mlp₂') ∧
      NetIs h₁' mlp₁' k (pre ++ [(n, f)]) θ' ∧ NetIs h₂' mlp₂' k (pre ++ [(n, f)]) (renameUnits (2 * pre.length) n 1 σ θ')

/-- C122 if the last layer has at most 32 weights, or the number of outputs divides 32; the other layers may have any size. Missing: all other last layers; for these it is false
(`C122_exact`). -/
theorem C122_partial (h₁ h₂ : Heap ℝ) (mlp₁ mlp₂ : Mlp ℝ) (x₁ y₁ x₂ y₂ m k n : Nat) (f : Act) (pre : List (Nat × Act)) (a b θ : Nat → Nat → ℝ) (lr : ℝ) (N : Nat)
    (σ : Equiv.Perm Nat) (hσ : ∀ j < n, σ j < n) (ht₁ : Training h₁ mlp₁ x₁ y₁ m k (pre ++ [(n, f)]) a b θ)
    (ht₂ : Training h₂ mlp₂ x₂ y₂ m k (pre ++ [(n, f)]) a (fun i j => b i (σ j)) (renameUnits (2 * pre.length) n 1 σ θ)) (hS : lastWidth k pre * n ≤ 32 ∨ n ∣ 32) :
    ∃ h₁' mlp₁' h₂' mlp₂' θ', train mlp₁ h₁ x₁ y₁ lr N = .ok (h₁', mlp₁') ∧ train mlp₂ h₂ x₂ y₂ lr N = .ok (h₂', mlp₂') ∧
      NetIs h₁' mlp₁' k (pre ++ [(n, f)]) θ' ∧ NetIs h₂' mlp₂' k (pre ++ [(n, f)]) (renameUnits (2 * pre.length) n 1 σ θ') := by
  obtain ⟨h₁', mlp₁', e₁, t₁⟩ := C50_actual N h₁ mlp₁ x₁ y₁ m k _ a b θ lr ht₁
  obtain ⟨h₂', mlp₂', e₂, t₂⟩ := C50_actual N h₂ mlp₂ x₂ y₂ m k _ a _ _ lr ht₂
  refine ⟨h₁', mlp₁', h₂', mlp₂', _, e₁, e₂, t₁.net, ?_⟩
  have hn : 0 < n := training_widths ht₁ (n, f) (by simp)
  have hcomm : ∀ (N : Nat) (θ : Nat → Nat → ℝ), (shuffledDescend lr m k (pre ++ [(n, f)]) a (fun i j => b i (σ j)))^[N] (renameUnits (2 * pre.length) n 1 σ θ) =
      renameUnits (2 * pre.length) n 1 σ ((shuffledDescend lr m k (pre ++ [(n, f)]) a b)^[N] θ) := by
    intro N
    induction N with
    | zero => intro θ; rfl
    | succ N ih =>
      intro θ
      rw [Function.iterate_succ_apply, Function.iterate_succ_apply, shuffledDescend_outputs hS hn hσ, ih]
  rw [← hcomm]
  exact t₂.net

/-- C122, for all sizes: the order of the outputs does not matter for the loss. -/
theorem C122_loss (h₁ h₂ : Heap ℝ) (mlp₁ mlp₂ : Mlp ℝ) (x₁ y₁ x₂ y₂ m k n : Nat) (f : Act) (pre : List (Nat × Act)) (a b θ : Nat → Nat → ℝ)
    (σ : Equiv.Perm Nat) (hσ : ∀ j < n, σ j < n) (ht₁ : Training h₁ mlp₁ x₁ y₁ m k (pre ++ [(n, f)]) a b θ)
    (ht₂ : Training h₂ mlp₂ x₂ y₂ m k (pre ++ [(n, f)]) a (fun i j => b i (σ j)) (renameUnits (2 * pre.length) n 1 σ θ)) :
    ∃ h₁' l₁ h₂' l₂ L, trainLoss mlp₁ h₁ x₁ y₁ = .ok (h₁', l₁) ∧ trainLoss mlp₂ h₂ x₂ y₂ = .ok (h₂', l₂) ∧
      dataOf h₁' l₁ = some ⟨[L], []⟩ ∧ dataOf h₂' l₂ = some ⟨[L], []⟩ := by
  obtain ⟨h₁', l₁, e₁, d₁⟩ := C54_loss _ _ _ _ _ _ _ _ _ _ ht₁
  obtain ⟨h₂', l₂, e₂, d₂⟩ := C54_loss _ _ _ _ _ _ _ _ _ _ ht₂
  rw [netLoss_outputs hσ] at d₂
  exact ⟨h₁', l₁, h₂', l₂, _, e₁, e₂, d₁, d₂⟩

/-- C122, exactly for which networks: those whose last layer has at most 32 weights or a number of outputs that divides 32. -/
theorem C122_exact (m k n : Nat) (f : Act) (pre : List (Nat × Act)) (hm : 0 < m) (hk : 0 < k) (hd : ∀ d ∈ pre ++ [(n, f)], 0 < d.1) :
    (∀ (h₁ h₂ : Heap ℝ) (mlp₁ mlp₂ : Mlp ℝ) (x₁ y₁ x₂ y₂ : Nat) (a b θ : Nat → Nat → ℝ) (lr : ℝ) (N : Nat) (σ : Equiv.Perm Nat), (∀ j < n, σ j < n) →
      Training h₁ mlp₁ x₁ y₁ m k (pre ++ [(n, f)]) a b θ →
      Training h₂ mlp₂ x₂ y₂ m k (pre ++ [(n, f)]) a (fun i j => b i (σ j)) (renameUnits (2 * pre.length) n 1 σ θ) →
      ∃ h₁' mlp₁' h₂' mlp₂' θ', train mlp₁ h₁ x₁ y₁ lr N = .ok (h₁', mlp₁') ∧ train mlp₂ h₂ x₂ y₂ lr N = .ok (h₂', mlp₂') ∧
        NetIs h₁' mlp₁' k (pre ++ [(n, f)]) θ' ∧ NetIs h₂' mlp₂' k (pre ++ [(n, f)]) (renameUnits (2 * pre.length) n 1 σ θ')) ↔
    lastWidth k pre * n ≤ 32 ∨ n ∣ 32 := by
  have hn : 0 < n := hd (n, f) (by simp)
  constructor
  · intro H
    by_contra hS
    rw [not_or] at hS
    obtain ⟨hS, hdvd⟩ := hS
    have hK : 0 < lastWidth k pre := Nat.pos_of_ne_zero fun h => by simp [h] at hS
    obtain ⟨K, hKe⟩ : ∃ K, K = lastWidth k pre := ⟨_, rfl⟩
    rw [← hKe] at hS hK
    have hn3 : 3 ≤ n := by
      by_contra h
      have : n = 1 ∨ n = 2 := by omega
      rcases this with rfl | rfl <;> exact hdvd (by decide)
    obtain ⟨s, hs⟩ : ∃ s, s = K * n - 32 := ⟨_, rfl⟩
    have h0 : shuffle (K * n) 0 = s := by unfold shuffle; omega
    have hc0 : s % n ≠ 0 := fun h => hdvd (by
      have h1 : n ∣ K * n - s := Nat.dvd_sub (Nat.dvd_mul_left n K) (Nat.dvd_of_mod_eq_zero h)
      rwa [show K * n - s = 32 by omega] at h1)
    have hcn : s % n < n := Nat.mod_lt _ hn
    obtain ⟨d, hdn, hd0, hdc⟩ : ∃ d < n, d ≠ 0 ∧ d ≠ s % n := by
      by_cases h : s % n = 1
      · exact ⟨2, by omega, by omega, by omega⟩
      · exact ⟨1, by omega, by omega, by omega⟩
    have hσ : ∀ j < n, Equiv.swap (s % n) d j < n := by
      intro j hj
      rw [Equiv.swap_apply_def]
      split
      · exact hdn
      · split
        · exact hcn
        · exact hj
    have hσ0 : ∀ j, Equiv.swap (s % n) d j = 0 ↔ j = 0 := by
      intro j
      rw [Equiv.swap_apply_def]
      split
      · omega
      · split <;> omega
    obtain ⟨θ, a, v, hv, hval, hz⟩ := first_unit pre k
    have hθ : renameUnits (2 * pre.length) n 1 (Equiv.swap (s % n) d) θ = θ := by
      funext p c
      unfold renameUnits
      split
      · next h => rw [h, hz _ (by omega), hz _ (by omega)]
      · split
        · next h => rw [h, hz _ (by omega), hz _ (by omega)]
        · split
          · next h => rw [h, hz _ (by omega), hz _ (by omega)]
          · rfl
    obtain ⟨b, hb⟩ : ∃ b : Nat → Nat → ℝ, b = fun _ j => if j = 0 then 1 else 0 := ⟨_, rfl⟩
    have hbσ : (fun i j => b i (Equiv.swap (s % n) d j)) = b := by
      funext i j
      simp only [hb, hσ0]
    have ht := training_exists m k (pre ++ [(n, f)]) a b θ hm hk hd
    obtain ⟨h₁', mlp₁', h₂', mlp₂', θ', e₁, e₂, n₁, n₂⟩ := H _ _ _ _ _ _ _ _ a b θ 1 1 (Equiv.swap (s % n) d) hσ ht (by rw [hθ, hbσ]; exact ht)
    obtain ⟨_, _, f₁, t₁⟩ := C50_actual 1 _ _ _ _ _ _ _ _ _ _ 1 ht
    rw [e₁] at f₁ e₂
    cases f₁
    cases e₂
    have hsK : s < K * n := by omega
    have hs' : s / n * n + d < K * n := mul_add_lt ((Nat.div_lt_iff_lt_mul hn).2 hsK) hdn
    have hmem : ∀ c < K * n, (2 * pre.length, c) ∈ coords k 0 (pre ++ [(n, f)]) := fun c hc =>
      mem_coords_at pre [(n, f)] k 0 _ (by rw [← hKe]; simp [coords, hc])
    have c₁ := n₁.unique n₂ (hmem s hsK)
    have c₂ := n₁.unique t₁.net (hmem s hsK)
    have c₃ := n₁.unique t₁.net (hmem _ hs')
    have c₄ : renameUnits (2 * pre.length) n 1 (Equiv.swap (s % n) d) θ' (2 * pre.length) s = θ' (2 * pre.length) (s / n * n + d) := by
      rw [renameUnits, if_pos rfl, Equiv.swap_apply_left]
    rw [c₄, c₂, c₃] at c₁
    have c₅ : θ (2 * pre.length) s - 1 * lossTangent m k (pre ++ [(n, f)]) a b θ (unit (2 * pre.length) s) =
      θ (2 * pre.length) (s / n * n + d) - 1 * lossTangent m k (pre ++ [(n, f)]) a b θ (unit (2 * pre.length) (s / n * n + d)) := c₁
    rw [hz _ (by omega), hz _ (by omega)] at c₅
    obtain ⟨p', hp', e'⟩ := shuffle_surj hs'
    have hp0 : p' ≠ 0 := by
      rintro rfl
      rw [h0] at e'
      have := congrArg (· % n) e'
      simp only [Nat.mul_comm _ n, Nat.mul_add_mod, Nat.mod_eq_of_lt hdn] at this
      exact hdc this.symm
    have hin : ∀ i j, lastIn k n pre θ a i j = 0 := by
      intro i j
      rw [lastIn, affine_sum, hz _ (by omega)]
      simp [hz (2 * pre.length) (by omega)]
    have w₁ := loss_last_weight (m := m) (k := k) (n := n) (f := f) (pre := pre) a b θ (r := 0) (j := 0) (by rw [← hKe]; exact hK) hn
    have w₂ := loss_last_weight (m := m) (k := k) (n := n) (f := f) (pre := pre) a b θ (r := p' / n) (j := p' % n)
      (by rw [← hKe]; exact (Nat.div_lt_iff_lt_mul hn).2 hp') (Nat.mod_lt _ hn)
    rw [← hKe, Nat.zero_mul, Nat.zero_add, h0] at w₁
    rw [← hKe, Nat.div_add_mod', e'] at w₂
    simp only [hin, hval, f.fn_zero, f.slope_zero, one_mul] at w₁ w₂
    rw [w₁, w₂] at c₅
    have hm' : (0 : ℝ) < m := Nat.cast_pos.2 hm
    have hmv := mul_pos hm' hv
    simp only [hb, if_true, zero_lt_one, Finset.sum_const, Finset.card_range, nsmul_eq_mul] at c₅
    by_cases hr : p' / n = 0
    · have hj : p' % n ≠ 0 := fun h => hp0 (by rw [← Nat.div_add_mod' p' n, hr, h]; simp)
      simp only [hr, hj, if_true, if_false, lt_irrefl] at c₅
      linarith
    · simp only [hr, if_false, mul_zero] at c₅
      linarith
  · intro hS h₁ h₂ mlp₁ mlp₂ x₁ y₁ x₂ y₂ a b θ lr N σ hσ ht₁ ht₂
    exact C122_partial h₁ h₂ mlp₁ mlp₂ x₁ y₁ x₂ y₂ m k n f pre a b θ lr N σ hσ ht₁ ht₂ hS

/-- C122 is false: 11 features, 3 outputs. -/
theorem C122_false : ¬ C122_statement := by
  intro H
  have := (C122_exact 1 11 3 .identity [] (by omega) (by omega) (by simp)).1
    fun h₁ h₂ mlp₁ mlp₂ x₁ y₁ x₂ y₂ a b θ lr N σ hσ ht₁ ht₂ => H h₁ h₂ mlp₁ mlp₂ x₁ y₁ x₂ y₂ 1 11 3 .identity [] a b θ lr N σ hσ ht₁ ht₂
  simp only [lastWidth] at this
  omega

/-- TEST of the hypotheses of `C122_partial` and `C122_loss`: the network of `main` (`/repo/src/main.rs` 29-45), of which the last layer has 65536 weights, and exchanged outputs. -/
example (a b θ : Nat → Nat → ℝ) : (∃ h mlp x y, Training h mlp x y 1 8 ([(8192, .relu), (8192, .tanh)] ++ [(8, .tanh)]) a b θ) ∧
    (∃ h mlp x y, Training h mlp x y 1 8 ([(8192, .relu), (8192, .tanh)] ++ [(8, .tanh)]) a (fun i j => b i (Equiv.swap 0 1 j)) (renameUnits 4 8 1 (Equiv.swap 0 1) θ)) ∧
    (∀ j < 8, Equiv.swap 0 1 j < 8) ∧ 8 ∣ 32 :=
  ⟨⟨_, _, _, _, training_exists 1 8 _ _ _ _ (by omega) (by omega) (by simp)⟩, ⟨_, _, _, _, training_exists 1 8 _ _ _ _ (by omega) (by omega) (by simp)⟩, by decide, by decide⟩

end RL
