import Verif.Lemmas.Relation
import Verif.Props.Constant

/-!
# Property theorems: linear relations between features carry over to their weights (C114)
-/

namespace RL

open Spec

/-- C114, full statement: if the features of all rows of the batch satisfy the relation `∑ u r * feature r = c`, what training changes the weights of a unit
of the first layer satisfies the same relation with `c` times what it changes the bias. It is false: see `C114_false`. -/
def C114_statement : Prop :=
  ∀ (h : Heap ℝ) (mlp : Mlp ℝ) (x y m k n : Nat) (f : Act) (ds : List (Nat × Act)) (a b θ : Nat → Nat → ℝ) (lr c : ℝ) (u : Nat → ℝ) (N : Nat),
    Training h mlp x y m k ((n, f) :: ds) a b θ → (∀ i < m, ∑ r ∈ Finset.range k, u r * a i r = c) →
    ∃ h' mlp' θ', train mlp h x y lr N = .ok (h', mlp') ∧ NetIs h' mlp' k ((n, f) :: ds) θ' ∧
      ∀ j < n, ∑ r ∈ Finset.range k, u r * (θ' 0 (r * n + j) - θ 0 (r * n + j)) = c * (θ' 1 j - θ 1 j)

/-- C114, for all sizes: it holds for the weights at the shuffled positions. -/
theorem C114_actual (h : Heap ℝ) (mlp : Mlp ℝ) (x y m k n : Nat) (f : Act) (ds : List (Nat × Act)) (a b θ : Nat → Nat → ℝ) (lr c : ℝ) (u : Nat → ℝ) (N : Nat)
    (ht : Training h mlp x y m k ((n, f) :: ds) a b θ) (ha : ∀ i < m, ∑ r ∈ Finset.range k, u r * a i r = c) :
    ∃ h' mlp' θ', train mlp h x y lr N = .ok (h', mlp') ∧ NetIs h' mlp' k ((n, f) :: ds) θ' ∧
      ∀ j < n, ∑ r ∈ Finset.range k, u r * (θ' 0 (shuffle (k * n) (r * n + j)) - θ 0 (shuffle (k * n) (r * n + j))) = c * (θ' 1 j - θ 1 j) := by
  obtain ⟨h', mlp', e, t⟩ := C50_actual N h mlp x y m k _ a b θ lr ht
  refine ⟨h', mlp', _, e, t.net, fun j hj => ?_⟩
  clear e t
  induction N with
  | zero => simp
  | succ N ih =>
    rw [Function.iterate_succ_apply']
    generalize (shuffledDescend lr m k ((n, f) :: ds) a b)^[N] θ = θ' at ih ⊢
    have := lossTangent_relation (f := f) (rest := ds) hj ha b θ'
    change ∑ r ∈ Finset.range k, u r * (θ' 0 _ - lr * lossTangent m k ((n, f) :: ds) a b θ' (unit 0 _) - θ 0 _) =
      c * (θ' 1 j - lr * lossTangent m k ((n, f) :: ds) a b θ' (unit 1 j) - θ 1 j)
    rw [show c * (θ' 1 j - lr * lossTangent m k ((n, f) :: ds) a b θ' (unit 1 j) - θ 1 j) =
      c * (θ' 1 j - θ 1 j) - lr * (c * lossTangent m k ((n, f) :: ds) a b θ' (unit 1 j)) by ring, ← ih, ← this, Finset.mul_sum, ← Finset.sum_sub_distrib]
    exact Finset.sum_congr rfl fun r _ => by ring

/-- C114 if the first layer has at most 32 weights. The other layers may have any size. Missing: larger first layers; for these it is false (`C114_exact`). -/
theorem C114_partial (h : Heap ℝ) (mlp : Mlp ℝ) (x y m k n : Nat) (f : Act) (ds : List (Nat × Act)) (a b θ : Nat → Nat → ℝ) (lr c : ℝ) (u : Nat → ℝ) (N : Nat)
    (ht : Training h mlp x y m k ((n, f) :: ds) a b θ) (ha : ∀ i < m, ∑ r ∈ Finset.range k, u r * a i r = c) (hS : k * n ≤ 32) :
    ∃ h' mlp' θ', train mlp h x y lr N = .ok (h', mlp') ∧ NetIs h' mlp' k ((n, f) :: ds) θ' ∧
      ∀ j < n, ∑ r ∈ Finset.range k, u r * (θ' 0 (r * n + j) - θ 0 (r * n + j)) = c * (θ' 1 j - θ 1 j) := by
  obtain ⟨h', mlp', θ', e, t, H⟩ := C114_actual h mlp x y m k n f ds a b θ lr c u N ht ha
  refine ⟨h', mlp', θ', e, t, fun j hj => ?_⟩
  rw [← H j hj]
  exact Finset.sum_congr rfl fun r hr => by rw [shuffle_small hS (mul_add_lt (Finset.mem_range.1 hr) hj)]

/-- C114, exactly for which networks: those whose first layer has at most 32 weights. -/
theorem C114_exact (m k n : Nat) (f : Act) (ds : List (Nat × Act)) (hm : 0 < m) (hk : 0 < k) (hd : ∀ d ∈ (n, f) :: ds, 0 < d.1) :
    (∀ (h : Heap ℝ) (mlp : Mlp ℝ) (x y : Nat) (a b θ : Nat → Nat → ℝ) (lr c : ℝ) (u : Nat → ℝ) (N : Nat), Training h mlp x y m k ((n, f) :: ds) a b θ →
      (∀ i < m, ∑ r ∈ Finset.range k, u r * a i r = c) → ∃ h' mlp' θ', train mlp h x y lr N = .ok (h', mlp') ∧ NetIs h' mlp' k ((n, f) :: ds) θ' ∧
        ∀ j < n, ∑ r ∈ Finset.range k, u r * (θ' 0 (r * n + j) - θ 0 (r * n + j)) = c * (θ' 1 j - θ 1 j)) ↔ k * n ≤ 32 := by
  constructor
  · intro H
    have hn : 0 < n := hd _ List.mem_cons_self
    have h1 : ∀ (u : Nat → ℝ), ∑ r ∈ Finset.range k, (if r = 0 then 1 else 0) * u r = u 0 := by
      intro u
      rw [Finset.sum_eq_single 0 (fun r _ h => by simp [h]) (fun h => absurd (Finset.mem_range.2 hk) h)]
      simp
    have h2 := (C113_exact m k n 0 f ds hm hk hd).1 (fun h mlp x y a b θ lr c N ht ha => by
      obtain ⟨h', mlp', θ', e, t, E⟩ := H h mlp x y a b θ lr c (fun r => if r = 0 then 1 else 0) N ht fun i hi => by rw [h1]; exact ha i hi
      refine ⟨h', mlp', θ', e, t, fun j hj => ?_⟩
      have := E j hj
      rwa [h1 fun r => θ' 0 (r * n + j) - θ 0 (r * n + j)] at this) 0 hn
    by_contra hS
    rw [Nat.zero_mul, Nat.zero_add] at h2
    unfold shuffle at h2
    omega
  · intro hS h mlp x y a b θ lr c u N ht ha
    exact C114_partial h mlp x y m k n f ds a b θ lr c u N ht ha hS

/-- C114 is false: 3 features, 11 units. -/
theorem C114_false : ¬ C114_statement := by
  intro H
  have := (C114_exact 1 3 11 .identity [] (by omega) (by omega) (by simp)).1
    fun h mlp x y a b θ lr c u N ht ha => H h mlp x y 1 3 11 .identity [] a b θ lr c u N ht ha
  omega

/-- TEST of the hypotheses of `C114_partial`: 4 rows, 3 features of which the third is 1 minus the sum of the others, 10 units. -/
example (b θ : Nat → Nat → ℝ) (v w : Nat → ℝ) : (∃ h mlp x y, Training h mlp x y 4 3 [(10, .relu), (1, .identity)]
      (fun i r => if r = 0 then v i else if r = 1 then w i else 1 - v i - w i) b θ) ∧
    (∀ i < 4, ∑ r ∈ Finset.range 3, (1 : ℝ) * (if r = 0 then v i else if r = 1 then w i else 1 - v i - w i) = 1) ∧ 3 * 10 ≤ 32 := by
  refine ⟨⟨_, _, _, _, training_exists 4 3 _ _ _ _ (by omega) (by omega) (by simp)⟩, fun i _ => ?_, by omega⟩
  simp [Finset.sum_range_succ]

end RL
