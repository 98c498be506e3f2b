import Verif.Lemmas.Constant
import Verif.Lemmas.TrainStart
import Verif.Props.Feature

/-!
# Property theorems: a feature that is the same in all rows acts like a bias (C113)
-/

namespace RL

open Spec

/-- C113, full statement: if a feature has the same value `c` in all rows of the batch, training changes each of its weights by `c` times what it changes the
bias of the same unit. It is false: see `C113_false`. -/
def C113_statement : Prop :=
  ∀ (h : Heap ℝ) (mlp : Mlp ℝ) (x y m k n : Nat) (f : Act) (ds : List (Nat × Act)) (a b θ : Nat → Nat → ℝ) (lr c : ℝ) (N r : Nat),
    Training h mlp x y m k ((n, f) :: ds) a b θ → r < k → (∀ i < m, a i r = c) →
    ∃ h' mlp' θ', train mlp h x y lr N = .ok (h', mlp') ∧ NetIs h' mlp' k ((n, f) :: ds) θ' ∧
      ∀ j < n, θ' 0 (r * n + j) - θ 0 (r * n + j) = c * (θ' 1 j - θ 1 j)

/-- C113, for all sizes: it holds for the weights at the shuffled positions. -/
theorem C113_actual (h : Heap ℝ) (mlp : Mlp ℝ) (x y m k n : Nat) (f : Act) (ds : List (Nat × Act)) (a b θ : Nat → Nat → ℝ) (lr c : ℝ) (N r : Nat)
    (ht : Training h mlp x y m k ((n, f) :: ds) a b θ) (hr : r < k) (ha : ∀ i < m, a i r = c) :
    ∃ h' mlp' θ', train mlp h x y lr N = .ok (h', mlp') ∧ NetIs h' mlp' k ((n, f) :: ds) θ' ∧
      ∀ j < n, θ' 0 (shuffle (k * n) (r * n + j)) - θ 0 (shuffle (k * n) (r * n + j)) = c * (θ' 1 j - θ 1 j) := by
  obtain ⟨h', mlp', e, t⟩ := C50_actual N h mlp x y m k _ a b θ lr ht
  refine ⟨h', mlp', _, e, t.net, fun j hj => ?_⟩
  clear e t
  induction N with
  | zero => simp
  | succ N ih =>
    rw [Function.iterate_succ_apply']
    generalize (shuffledDescend lr m k ((n, f) :: ds) a b)^[N] θ = θ' at ih ⊢
    have := lossTangent_constant (f := f) (rest := ds) hr hj ha b θ'
    change θ' 0 _ - lr * lossTangent m k ((n, f) :: ds) a b θ' (unit 0 _) - θ 0 _ = c * (θ' 1 j - lr * lossTangent m k ((n, f) :: ds) a b θ' (unit 1 j) - θ 1 j)
    rw [this]
    linear_combination ih

/-- C113 for features whose weights the shuffle leaves where they are, for example if the first layer has at most 32 weights. The other layers may have any
size. Missing: all other features; for these it is false (`C113_exact`). -/
theorem C113_partial (h : Heap ℝ) (mlp : Mlp ℝ) (x y m k n : Nat) (f : Act) (ds : List (Nat × Act)) (a b θ : Nat → Nat → ℝ) (lr c : ℝ) (N r : Nat)
    (ht : Training h mlp x y m k ((n, f) :: ds) a b θ) (hr : r < k) (ha : ∀ i < m, a i r = c)
    (hS : k * n ≤ 32 ∨ ∀ j < n, shuffle (k * n) (r * n + j) = r * n + j) :
    ∃ h' mlp' θ', train mlp h x y lr N = .ok (h', mlp') ∧ NetIs h' mlp' k ((n, f) :: ds) θ' ∧
      ∀ j < n, θ' 0 (r * n + j) - θ 0 (r * n + j) = c * (θ' 1 j - θ 1 j) := by
  obtain ⟨h', mlp', θ', e, t, H⟩ := C113_actual h mlp x y m k n f ds a b θ lr c N r ht hr ha
  refine ⟨h', mlp', θ', e, t, fun j hj => ?_⟩
  have := H j hj
  rcases hS with hS | hS
  · rwa [shuffle_small hS (mul_add_lt hr hj)] at this
  · rwa [hS j hj] at this

/-- C113, exactly for which networks and features: those whose weights the shuffle leaves where they are. -/
theorem C113_exact (m k n r : Nat) (f : Act) (ds : List (Nat × Act)) (hm : 0 < m) (hr : r < k) (hd : ∀ d ∈ (n, f) :: ds, 0 < d.1) :
    (∀ (h : Heap ℝ) (mlp : Mlp ℝ) (x y : Nat) (a b θ : Nat → Nat → ℝ) (lr c : ℝ) (N : Nat), Training h mlp x y m k ((n, f) :: ds) a b θ →
      (∀ i < m, a i r = c) → ∃ h' mlp' θ', train mlp h x y lr N = .ok (h', mlp') ∧ NetIs h' mlp' k ((n, f) :: ds) θ' ∧
        ∀ j < n, θ' 0 (r * n + j) - θ 0 (r * n + j) = c * (θ' 1 j - θ 1 j)) ↔ ∀ j < n, shuffle (k * n) (r * n + j) = r * n + j := by
  constructor
  · intro H j hj
    by_contra hs
    obtain ⟨a, b, θ, ha, hdiff⟩ := constant_differs (f := f) (rest := ds) hm hd hr hj hs
    have ht := training_exists m k _ a b θ hm (by omega) hd
    obtain ⟨h', mlp', θ', e, net, heq⟩ := H _ _ _ _ a b θ 1 1 1 ht fun i _ => ha i
    obtain ⟨_, _, e', t⟩ := C50_actual 1 _ _ _ _ _ _ _ _ _ _ 1 ht
    rw [e] at e'
    cases e'
    have hw : (0, r * n + j) ∈ coords k 0 ((n, f) :: ds) := by simp [coords, mul_add_lt hr hj]
    have hb : (1, j) ∈ coords k 0 ((n, f) :: ds) := by simp [coords, hj]
    have e0 := net.unique t.net hw
    have e1 := net.unique t.net hb
    have h0 := heq j hj
    rw [e0, e1] at h0
    have h1 : θ 0 (r * n + j) - 1 * lossTangent m k ((n, f) :: ds) a b θ (unit 0 (r * n + j)) - θ 0 (r * n + j) =
      1 * (θ 1 j - 1 * lossTangent m k ((n, f) :: ds) a b θ (unit 1 j) - θ 1 j) := h0
    exact hdiff (by linarith)
  · intro hS h mlp x y a b θ lr c N ht ha
    exact C113_partial h mlp x y m k n f ds a b θ lr c N r ht hr ha (.inr hS)

/-- C113 is false: 3 features, 11 units. -/
theorem C113_false : ¬ C113_statement := by
  intro H
  have := (C113_exact 1 3 11 0 .identity [] (by omega) (by omega) (by simp)).1
    (fun h mlp x y a b θ lr c N ht ha => H h mlp x y 1 3 11 .identity [] a b θ lr c N 0 ht (by omega) ha) 0 (by omega)
  exact absurd this (by decide)

/-- TEST of the hypotheses of `C113_partial`: 3 features of which the second is 2 in all rows, 32 units: the shuffle reverses the order of the segments of 32
weights, and so leaves only those of the second feature where they are. -/
example (b θ : Nat → Nat → ℝ) : (∃ h mlp x y, Training h mlp x y 4 3 [(32, .relu), (1, .identity)] (fun i r => if r = 1 then 2 else i) b θ) ∧
    (∀ j < 32, shuffle (3 * 32) (1 * 32 + j) = 1 * 32 + j) ∧ ¬ ∀ j < 32, shuffle (3 * 32) (0 * 32 + j) = 0 * 32 + j := by
  refine ⟨⟨_, _, _, _, training_exists 4 3 _ _ _ _ (by omega) (by omega) (by simp)⟩, by decide, by decide⟩

end RL
