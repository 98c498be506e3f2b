import Verif.Lemmas.Span
import Verif.Props.Relation

/-!
# Property theorems: weights move in the span of their inputs (C116)
-/

namespace RL

open Spec

/-- C116, full statement: after any number of training steps the weights of the first layer have changed by a linear combination of the rows of the batch, and the
biases by the sum of its coefficients. It is false: see `C116_false`. -/
def C116_statement : Prop :=
  ∀ (h : Heap ℝ) (mlp : Mlp ℝ) (x y m k n : Nat) (f : Act) (ds : List (Nat × Act)) (a b θ : Nat → Nat → ℝ) (lr : ℝ) (N : Nat),
    Training h mlp x y m k ((n, f) :: ds) a b θ →
    ∃ h' mlp' θ', train mlp h x y lr N = .ok (h', mlp') ∧ NetIs h' mlp' k ((n, f) :: ds) θ' ∧ ∃ g : Nat → Nat → ℝ, ∀ j < n,
      (∀ r < k, θ' 0 (r * n + j) - θ 0 (r * n + j) = ∑ i ∈ Finset.range m, a i r * g i j) ∧ θ' 1 j - θ 1 j = ∑ i ∈ Finset.range m, g i j

/-- C116, a single step, for each layer and all sizes: the weights at the shuffled positions change by a linear combination of the inputs of the layer for the rows
of the batch, and the biases by the sum of its coefficients. -/
theorem C116_step (h : Heap ℝ) (mlp : Mlp ℝ) (x y m k n : Nat) (f : Act) (pre post : List (Nat × Act)) (a b θ : Nat → Nat → ℝ) (lr : ℝ)
    (ht : Training h mlp x y m k (pre ++ (n, f) :: post) a b θ) :
    ∃ h' mlp' θ', trainStep mlp h x y lr = .ok (h', mlp') ∧ NetIs h' mlp' k (pre ++ (n, f) :: post) θ' ∧ ∃ g : Nat → Nat → ℝ, ∀ j < n,
      (∀ r < lastWidth k pre, θ' (2 * pre.length) (shuffle (lastWidth k pre * n) (r * n + j)) - θ (2 * pre.length) (shuffle (lastWidth k pre * n) (r * n + j)) =
        ∑ i ∈ Finset.range m, netValue k (layerFns θ 0 pre) a i r * g i j) ∧
      θ' (2 * pre.length + 1) j - θ (2 * pre.length + 1) j = ∑ i ∈ Finset.range m, g i j := by
  obtain ⟨h', mlp', e, t⟩ := C50_step_actual h mlp x y m k _ a b θ lr ht
  obtain ⟨g, hg, hb⟩ := lossTangent_span (m := m) (k := k) (n := n) (f := f) (pre := pre) (post := post) a b θ
  refine ⟨h', mlp', _, e, t.net, fun i j => -lr * g i j, fun j hj => ⟨fun r hr => ?_, ?_⟩⟩
  · have := hg r hr j hj
    change θ _ _ - lr * lossTangent m k (pre ++ (n, f) :: post) a b θ (unit _ _) - θ _ _ = _
    rw [this, sub_sub_cancel_left, Finset.mul_sum, ← Finset.sum_neg_distrib]
    exact Finset.sum_congr rfl fun i _ => by ring
  · have := hb j hj
    change θ _ _ - lr * lossTangent m k (pre ++ (n, f) :: post) a b θ (unit _ _) - θ _ _ = _
    rw [this, sub_sub_cancel_left, Finset.mul_sum, ← Finset.sum_neg_distrib]
    exact Finset.sum_congr rfl fun i _ => by ring

/-- C116, for all sizes: it holds for the weights at the shuffled positions. -/
theorem C116_actual (h : Heap ℝ) (mlp : Mlp ℝ) (x y m k n : Nat) (f : Act) (ds : List (Nat × Act)) (a b θ : Nat → Nat → ℝ) (lr : ℝ) (N : Nat)
    (ht : Training h mlp x y m k ((n, f) :: ds) a b θ) :
    ∃ h' mlp' θ', train mlp h x y lr N = .ok (h', mlp') ∧ NetIs h' mlp' k ((n, f) :: ds) θ' ∧ ∃ g : Nat → Nat → ℝ, ∀ j < n,
      (∀ r < k, θ' 0 (shuffle (k * n) (r * n + j)) - θ 0 (shuffle (k * n) (r * n + j)) = ∑ i ∈ Finset.range m, a i r * g i j) ∧
      θ' 1 j - θ 1 j = ∑ i ∈ Finset.range m, g i j := by
  obtain ⟨h', mlp', e, t⟩ := C50_actual N h mlp x y m k _ a b θ lr ht
  refine ⟨h', mlp', _, e, t.net, ?_⟩
  clear e t
  induction N with
  | zero => exact ⟨fun _ _ => 0, fun j _ => ⟨fun r _ => by simp, by simp⟩⟩
  | succ N ih =>
    rw [Function.iterate_succ_apply']
    generalize (shuffledDescend lr m k ((n, f) :: ds) a b)^[N] θ = θ' at ih ⊢
    obtain ⟨G, hG⟩ := ih
    obtain ⟨g, hg, hb⟩ := lossTangent_span (m := m) (k := k) (n := n) (f := f) (pre := []) (post := ds) a b θ'
    refine ⟨fun i j => G i j - lr * g i j, fun j hj => ⟨fun r hr => ?_, ?_⟩⟩
    · have h1 : lossTangent m k ((n, f) :: ds) a b θ' (unit 0 (shuffle (k * n) (r * n + j))) = ∑ i ∈ Finset.range m, a i r * g i j := hg r hr j hj
      change θ' 0 _ - lr * lossTangent m k ((n, f) :: ds) a b θ' (unit 0 _) - θ 0 _ = _
      rw [h1, show ∀ p q s : ℝ, p - q - s = (p - s) - q by intros; ring, (hG j hj).1 r hr, Finset.mul_sum, ← Finset.sum_sub_distrib]
      exact Finset.sum_congr rfl fun i _ => by ring
    · have h1 : lossTangent m k ((n, f) :: ds) a b θ' (unit 1 j) = ∑ i ∈ Finset.range m, g i j := hb j hj
      change θ' 1 j - lr * lossTangent m k ((n, f) :: ds) a b θ' (unit 1 j) - θ 1 j = _
      rw [h1, show ∀ p q s : ℝ, p - q - s = (p - s) - q by intros; ring, (hG j hj).2, Finset.mul_sum, ← Finset.sum_sub_distrib]

/-- C116 if the first layer has at most 32 weights. The other layers may have any size. Missing: larger first layers; for these it is false (`C116_exact`). -/
theorem C116_partial (h : Heap ℝ) (mlp : Mlp ℝ) (x y m k n : Nat) (f : Act) (ds : List (Nat × Act)) (a b θ : Nat → Nat → ℝ) (lr : ℝ) (N : Nat)
    (ht : Training h mlp x y m k ((n, f) :: ds) a b θ) (hS : k * n ≤ 32) :
    ∃ h' mlp' θ', train mlp h x y lr N = .ok (h', mlp') ∧ NetIs h' mlp' k ((n, f) :: ds) θ' ∧ ∃ g : Nat → Nat → ℝ, ∀ j < n,
      (∀ r < k, θ' 0 (r * n + j) - θ 0 (r * n + j) = ∑ i ∈ Finset.range m, a i r * g i j) ∧ θ' 1 j - θ 1 j = ∑ i ∈ Finset.range m, g i j := by
  obtain ⟨h', mlp', θ', e, t, g, H⟩ := C116_actual h mlp x y m k n f ds a b θ lr N ht
  refine ⟨h', mlp', θ', e, t, g, fun j hj => ⟨fun r hr => ?_, (H j hj).2⟩⟩
  rw [← (H j hj).1 r hr, shuffle_small hS (mul_add_lt hr hj)]

/-- C116, exactly for which networks: those whose first layer has at most 32 weights. -/
theorem C116_exact (m k n : Nat) (f : Act) (ds : List (Nat × Act)) (hm : 0 < m) (hk : 0 < k) (hd : ∀ d ∈ (n, f) :: ds, 0 < d.1) :
    (∀ (h : Heap ℝ) (mlp : Mlp ℝ) (x y : Nat) (a b θ : Nat → Nat → ℝ) (lr : ℝ) (N : Nat), Training h mlp x y m k ((n, f) :: ds) a b θ →
      ∃ h' mlp' θ', train mlp h x y lr N = .ok (h', mlp') ∧ NetIs h' mlp' k ((n, f) :: ds) θ' ∧ ∃ g : Nat → Nat → ℝ, ∀ j < n,
        (∀ r < k, θ' 0 (r * n + j) - θ 0 (r * n + j) = ∑ i ∈ Finset.range m, a i r * g i j) ∧ θ' 1 j - θ 1 j = ∑ i ∈ Finset.range m, g i j) ↔
    k * n ≤ 32 := by
  constructor
  · intro H
    refine (C114_exact m k n f ds hm hk hd).1 fun h mlp x y a b θ lr c u N ht ha => ?_
    obtain ⟨h', mlp', θ', e, t, g, E⟩ := H h mlp x y a b θ lr N ht
    refine ⟨h', mlp', θ', e, t, fun j hj => ?_⟩
    rw [Finset.sum_congr rfl fun r hr => by rw [(E j hj).1 r (Finset.mem_range.1 hr), Finset.mul_sum], Finset.sum_comm, (E j hj).2, Finset.mul_sum]
    refine Finset.sum_congr rfl fun i hi => ?_
    rw [← ha i (Finset.mem_range.1 hi), Finset.sum_mul]
    exact Finset.sum_congr rfl fun r _ => by ring
  · intro hS h mlp x y a b θ lr N ht
    exact C116_partial h mlp x y m k n f ds a b θ lr N ht hS

/-- C116 is false: 3 features, 11 units. -/
theorem C116_false : ¬ C116_statement := by
  intro H
  have := (C116_exact 1 3 11 .identity [] (by omega) (by omega) (by simp)).1 fun h mlp x y a b θ lr N ht => H h mlp x y 1 3 11 .identity [] a b θ lr N ht
  omega

/-- TEST of the hypotheses of `C116_partial`: 2 rows, 3 features, 10 units. The rows span at most 2 dimensions of 3. -/
example (a b θ : Nat → Nat → ℝ) : (∃ h mlp x y, Training h mlp x y 2 3 [(10, .relu), (1, .identity)] a b θ) ∧ 3 * 10 ≤ 32 :=
  ⟨⟨_, _, _, _, training_exists 2 3 _ _ _ _ (by omega) (by omega) (by simp)⟩, by omega⟩

end RL
