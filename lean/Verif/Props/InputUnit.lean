import Verif.Lemmas.InputUnit
import Verif.Props.Order

/-!
# Property theorems: the unit of the inputs (C123)
-/

namespace RL

open Spec

/-- C123, full statement: the unit of the inputs does not matter. If the inputs of two runs differ by the factor `s`, and the weights that read them by its inverse, then this also
holds after any number of steps. It is false: see `C123_false`. -/
def C123_statement : Prop :=
  ∀ (h₁ h₂ : Heap ℝ) (mlp₁ mlp₂ : Mlp ℝ) (x₁ y₁ x₂ y₂ m k n : Nat) (f : Act) (ds : List (Nat × Act)) (a b θ : Nat → Nat → ℝ) (lr s : ℝ) (N : Nat), s ≠ 0 →
    Training h₁ mlp₁ x₁ y₁ m k ((n, f) :: ds) a b θ → Training h₂ mlp₂ x₂ y₂ m k ((n, f) :: ds) (fun i r => s * a i r) b (scaleFirst s⁻¹ θ) →
    ∃ h₁' mlp₁' h₂' mlp₂' θ', train mlp₁ h₁ x₁ y₁ lr N = .ok (h₁', mlp₁') ∧ train mlp₂ h₂ x₂ y₂ lr N = .ok (h₂', mlp₂') ∧
      NetIs h₁' mlp₁' k ((n, f) :: ds) θ' ∧ NetIs h₂' mlp₂' k ((n, f) :: ds) (scaleFirst s⁻¹ θ')

/-- C123, what happens instead: inputs multiplied by `s` act like `s ^ 2` times the learning rate for the weights of the first layer, for all sizes and any number of steps. -/
theorem C123_rate (h : Heap ℝ) (mlp : Mlp ℝ) (x y m k n : Nat) (f : Act) (ds : List (Nat × Act)) (a b θ : Nat → Nat → ℝ) (lr s : ℝ) (N : Nat) (hs : s ≠ 0)
    (ht : Training h mlp x y m k ((n, f) :: ds) (fun i r => s * a i r) b (scaleFirst s⁻¹ θ)) :
    ∃ h' mlp', train mlp h x y lr N = .ok (h', mlp') ∧
      NetIs h' mlp' k ((n, f) :: ds) (scaleFirst s⁻¹ ((descendFirst (s ^ 2) lr m k ((n, f) :: ds) a b)^[N] θ)) := by
  obtain ⟨h', mlp', e, t⟩ := C50_actual N h mlp x y m k _ _ b _ lr ht
  refine ⟨h', mlp', e, ?_⟩
  have hcomm : ∀ (N : Nat) (θ : Nat → Nat → ℝ), (shuffledDescend lr m k ((n, f) :: ds) (fun i r => s * a i r) b)^[N] (scaleFirst s⁻¹ θ) =
      scaleFirst s⁻¹ ((descendFirst (s ^ 2) lr m k ((n, f) :: ds) a b)^[N] θ) := by
    intro N
    induction N with
    | zero => intro θ; rfl
    | succ N ih =>
      intro θ
      rw [Function.iterate_succ_apply, Function.iterate_succ_apply, descend_units hs, ih]
  rw [← hcomm]
  exact t.net

/-- C123 for the factors 1 and -1: the signs of the inputs do not matter. Missing: all other factors; for these it is false (`C123_exact`). -/
theorem C123_partial (h₁ h₂ : Heap ℝ) (mlp₁ mlp₂ : Mlp ℝ) (x₁ y₁ x₂ y₂ m k n : Nat) (f : Act) (ds : List (Nat × Act)) (a b θ : Nat → Nat → ℝ) (lr s : ℝ) (N : Nat) (hs : s = 1 ∨ s = -1)
    (ht₁ : Training h₁ mlp₁ x₁ y₁ m k ((n, f) :: ds) a b θ) (ht₂ : Training h₂ mlp₂ x₂ y₂ m k ((n, f) :: ds) (fun i r => s * a i r) b (scaleFirst s⁻¹ θ)) :
    ∃ h₁' mlp₁' h₂' mlp₂' θ', train mlp₁ h₁ x₁ y₁ lr N = .ok (h₁', mlp₁') ∧ train mlp₂ h₂ x₂ y₂ lr N = .ok (h₂', mlp₂') ∧
      NetIs h₁' mlp₁' k ((n, f) :: ds) θ' ∧ NetIs h₂' mlp₂' k ((n, f) :: ds) (scaleFirst s⁻¹ θ') := by
  have hs0 : s ≠ 0 := by rcases hs with rfl | rfl <;> norm_num
  have hs2 : s ^ 2 = 1 := by rcases hs with rfl | rfl <;> norm_num
  obtain ⟨h₁', mlp₁', e₁, t₁⟩ := C50_actual N h₁ mlp₁ x₁ y₁ m k _ a b θ lr ht₁
  obtain ⟨h₂', mlp₂', e₂, n₂⟩ := C123_rate h₂ mlp₂ x₂ y₂ m k n f ds a b θ lr s N hs0 ht₂
  refine ⟨h₁', mlp₁', h₂', mlp₂', _, e₁, e₂, t₁.net, ?_⟩
  have h1 : descendFirst (s ^ 2) lr m k ((n, f) :: ds) a b = shuffledDescend lr m k ((n, f) :: ds) a b := by
    funext θ q c
    rw [descendFirst, shuffledDescend, hs2, ite_self, one_mul]
  rw [h1] at n₂
  exact n₂

/-- C123, exactly for which factors, whatever the sizes. -/
theorem C123_exact (m k n : Nat) (f : Act) (ds : List (Nat × Act)) (s : ℝ) (hs : s ≠ 0) (hm : 0 < m) (hk : 0 < k) (hd : ∀ d ∈ (n, f) :: ds, 0 < d.1) :
    (∀ (h₁ h₂ : Heap ℝ) (mlp₁ mlp₂ : Mlp ℝ) (x₁ y₁ x₂ y₂ : Nat) (a b θ : Nat → Nat → ℝ) (lr : ℝ) (N : Nat),
      Training h₁ mlp₁ x₁ y₁ m k ((n, f) :: ds) a b θ → Training h₂ mlp₂ x₂ y₂ m k ((n, f) :: ds) (fun i r => s * a i r) b (scaleFirst s⁻¹ θ) →
      ∃ h₁' mlp₁' h₂' mlp₂' θ', train mlp₁ h₁ x₁ y₁ lr N = .ok (h₁', mlp₁') ∧ train mlp₂ h₂ x₂ y₂ lr N = .ok (h₂', mlp₂') ∧
        NetIs h₁' mlp₁' k ((n, f) :: ds) θ' ∧ NetIs h₂' mlp₂' k ((n, f) :: ds) (scaleFirst s⁻¹ θ')) ↔ s = 1 ∨ s = -1 := by
  constructor
  · intro H
    obtain ⟨a, b, θ, c, hc, hne⟩ := first_ne (m := m) (k := k) (n := n) (f := f) (rest := ds) hm hk hd
    have ht₁ := training_exists m k ((n, f) :: ds) a b θ hm hk hd
    have ht₂ := training_exists m k ((n, f) :: ds) (fun i r => s * a i r) b (scaleFirst s⁻¹ θ) hm hk hd
    obtain ⟨h₁', mlp₁', h₂', mlp₂', θ', e₁, e₂, n₁, n₂⟩ := H _ _ _ _ _ _ _ _ a b θ 1 1 ht₁ ht₂
    obtain ⟨_, _, f₁, t₁⟩ := C50_actual 1 _ _ _ _ _ _ _ _ _ _ 1 ht₁
    obtain ⟨_, _, f₂, t₂⟩ := C123_rate _ _ _ _ m k n f ds a b θ 1 s 1 hs ht₂
    rw [e₁] at f₁
    cases f₁
    rw [e₂] at f₂
    cases f₂
    have hw : (0, c) ∈ coords k 0 ((n, f) :: ds) := by simp [coords, hc]
    have c₁ := n₁.unique t₁.net hw
    have c₂ := n₂.unique t₂ hw
    have c₃ : s⁻¹ * θ' 0 c = s⁻¹ * (θ 0 c - (if (0 : Nat) = 0 then s ^ 2 else 1) * 1 * lossTangent m k ((n, f) :: ds) a b θ (unit 0 c)) := c₂
    have c₄ : θ' 0 c = θ 0 c - 1 * lossTangent m k ((n, f) :: ds) a b θ (unit 0 c) := c₁
    have c₅ := mul_left_cancel₀ (inv_ne_zero hs) c₃
    rw [if_pos rfl, c₄] at c₅
    have c₆ : (s ^ 2 - 1) * lossTangent m k ((n, f) :: ds) a b θ (unit 0 c) = 0 := by linarith
    have c₇ := (mul_eq_zero.1 c₆).resolve_right hne
    exact sq_eq_sq_iff_eq_or_eq_neg.1 (by linarith : s ^ 2 = 1 ^ 2)
  · intro hS h₁ h₂ mlp₁ mlp₂ x₁ y₁ x₂ y₂ a b θ lr N ht₁ ht₂
    exact C123_partial h₁ h₂ mlp₁ mlp₂ x₁ y₁ x₂ y₂ m k n f ds a b θ lr s N hS ht₁ ht₂

/-- C123 is false: one feature, one unit, twice the input. -/
theorem C123_false : ¬ C123_statement := by
  intro H
  have := (C123_exact 1 1 1 .identity [] 2 (by norm_num) (by omega) (by omega) (by simp)).1
    fun h₁ h₂ mlp₁ mlp₂ x₁ y₁ x₂ y₂ a b θ lr N ht₁ ht₂ => H h₁ h₂ mlp₁ mlp₂ x₁ y₁ x₂ y₂ 1 1 1 .identity [] a b θ lr 2 N (by norm_num) ht₁ ht₂
  norm_num at this

/-- TEST of the hypotheses of `C123_rate` and `C123_partial`: a network with more than 32 weights. -/
example (a b θ : Nat → Nat → ℝ) : (∃ h mlp x y, Training h mlp x y 5 7 [(20, .relu), (3, .tanh)] a b θ) ∧
    (∃ h mlp x y, Training h mlp x y 5 7 [(20, .relu), (3, .tanh)] (fun i r => -1 * a i r) b (scaleFirst (-1)⁻¹ θ)) ∧
    ∃ h mlp x y, Training h mlp x y 5 7 [(20, .relu), (3, .tanh)] (fun i r => 1000 * a i r) b (scaleFirst 1000⁻¹ θ) :=
  ⟨⟨_, _, _, _, training_exists 5 7 _ _ _ _ (by omega) (by omega) (by simp)⟩, ⟨_, _, _, _, training_exists 5 7 _ _ _ _ (by omega) (by omega) (by simp)⟩,
    ⟨_, _, _, _, training_exists 5 7 _ _ _ _ (by omega) (by omega) (by simp)⟩⟩

end RL
