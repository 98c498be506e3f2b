import Verif.Lemmas.Feature
import Verif.Props.Descent

/-!
# Input features that are 0 in all rows: C94
-/

namespace RL

open Spec

/-- C94, full statement: if feature `r` of the input is 0 in all rows, training never changes the weights that read it. It is false: see
`C94_false`. -/
def C94_statement : Prop :=
  ∀ (h : Heap ℝ) (mlp : Mlp ℝ) (x y m k n : Nat) (f : Act) (ds : List (Nat × Act)) (a b θ : Nat → Nat → ℝ) (lr : ℝ) (N r : Nat),
    Training h mlp x y m k ((n, f) :: ds) a b θ → r < k → (∀ i < m, a i r = 0) →
    ∃ h' mlp' θ', train mlp h x y lr N = .ok (h', mlp') ∧ NetIs h' mlp' k ((n, f) :: ds) θ' ∧ ∀ j < n, θ' 0 (r * n + j) = θ 0 (r * n + j)

/-- C94, what happens for all sizes: the weights that are never changed are those at the places where the gradients of the weights of this
feature are put. -/
theorem C94_actual (h : Heap ℝ) (mlp : Mlp ℝ) (x y m k n : Nat) (f : Act) (ds : List (Nat × Act)) (a b θ : Nat → Nat → ℝ) (lr : ℝ) (N r : Nat)
    (ht : Training h mlp x y m k ((n, f) :: ds) a b θ) (hr : r < k) (ha : ∀ i < m, a i r = 0) :
    ∃ h' mlp' θ', train mlp h x y lr N = .ok (h', mlp') ∧ NetIs h' mlp' k ((n, f) :: ds) θ' ∧
      ∀ j < n, θ' 0 (shuffle (k * n) (r * n + j)) = θ 0 (shuffle (k * n) (r * n + j)) := by
  obtain ⟨h', mlp', e, t⟩ := C50_actual N h mlp x y m k _ a b θ lr ht
  refine ⟨h', mlp', _, e, t.net, fun j hj => ?_⟩
  clear t e ht
  induction N with
  | zero => rfl
  | succ N ih =>
    rw [Function.iterate_succ_apply', ← ih]
    generalize (shuffledDescend lr m k ((n, f) :: ds) a b)^[N] θ = θ'
    have : lossTangent m k ((n, f) :: ds) a b θ' (unit 0 (shuffle (k * n) (r * n + j))) = 0 := by
      refine lossTangent_feature fun r' hr' j' hj' e => ?_
      have h2 := segPos_inj (show r' * n + j' < k * n by nlinarith) (show r * n + j < k * n by nlinarith) e
      have h3 : r' = r := by
        have h4 := congrArg (· / n) h2
        simp only [Nat.mul_comm _ n, Nat.mul_add_div (show n > 0 by omega), Nat.div_eq_of_lt hj, Nat.div_eq_of_lt hj', Nat.add_zero] at h4
        exact h4
      subst h3
      exact ha
    change θ' 0 _ - lr * lossTangent m k ((n, f) :: ds) a b θ' (unit 0 _) = θ' 0 _
    rw [this, mul_zero, sub_zero]

/-- C94 if the first layer has at most 32 weights, or if there is only one feature. The other layers may have any size. Missing: larger
first layers; for these it is false (`C94_exact`). -/
theorem C94_partial (h : Heap ℝ) (mlp : Mlp ℝ) (x y m k n : Nat) (f : Act) (ds : List (Nat × Act)) (a b θ : Nat → Nat → ℝ) (lr : ℝ) (N r : Nat)
    (ht : Training h mlp x y m k ((n, f) :: ds) a b θ) (hr : r < k) (ha : ∀ i < m, a i r = 0) (hS : k * n ≤ 32 ∨ k = 1) :
    ∃ h' mlp' θ', train mlp h x y lr N = .ok (h', mlp') ∧ NetIs h' mlp' k ((n, f) :: ds) θ' ∧ ∀ j < n, θ' 0 (r * n + j) = θ 0 (r * n + j) := by
  obtain ⟨h', mlp', θ', e, t, H⟩ := C94_actual h mlp x y m k n f ds a b θ lr N r ht hr ha
  refine ⟨h', mlp', θ', e, t, fun j hj => ?_⟩
  rcases hS with hS | rfl
  · have := H j hj
    rwa [shuffle_small hS (by nlinarith)] at this
  · obtain rfl : r = 0 := by omega
    obtain ⟨c, hc, e⟩ := shuffle_surj (show 0 * n + j < 1 * n by omega)
    have := H c (by omega)
    rw [Nat.zero_mul, Nat.zero_add] at this e
    rw [e] at this
    rwa [Nat.zero_mul, Nat.zero_add]

/-- C94, exactly for which networks: those whose first layer has at most 32 weights, or one feature. -/
theorem C94_exact (m k n : Nat) (f : Act) (ds : List (Nat × Act)) (hm : 0 < m) (hk : 0 < k) (hd : ∀ d ∈ (n, f) :: ds, 0 < d.1) :
    (∀ (h : Heap ℝ) (mlp : Mlp ℝ) (x y : Nat) (a b θ : Nat → Nat → ℝ) (lr : ℝ) (r : Nat), Training h mlp x y m k ((n, f) :: ds) a b θ → r < k →
      (∀ i < m, a i r = 0) → ∃ h' mlp' θ', trainStep mlp h x y lr = .ok (h', mlp') ∧ NetIs h' mlp' k ((n, f) :: ds) θ' ∧
        ∀ j < n, θ' 0 (r * n + j) = θ 0 (r * n + j)) ↔ k * n ≤ 32 ∨ k = 1 := by
  have hn := hd _ List.mem_cons_self
  constructor
  · intro H
    by_contra hS
    simp only [not_or, not_le] at hS
    have hlt : min n 32 - 1 < n := by omega
    have hs : shuffle (k * n) (min n 32 - 1) = k * n - 32 + (min n 32 - 1) := by
      unfold shuffle
      rw [Nat.div_eq_of_lt (by omega), Nat.mod_eq_of_lt (by omega)]
      omega
    have h2 : 2 * n ≤ k * n := Nat.mul_le_mul_right n (by omega)
    have hge : n ≤ shuffle (k * n) (min n 32 - 1) := by omega
    have hlt' : shuffle (k * n) (min n 32 - 1) < k * n := shuffle_lt (by omega)
    have ht := training_exists m k ((n, f) :: ds) (onPath fun _ => 1) (fun _ _ => 0) ones hm hk hd
    have hpos := lossTangent_used (f := f) (ds := ds) hm hk hd hlt
    generalize shuffle (k * n) (min n 32 - 1) = c at *
    have hr : c / n < k := (Nat.div_lt_iff_lt_mul hn).2 hlt'
    have hr0 : c / n ≠ 0 := by
      rw [Nat.div_ne_zero_iff]
      omega
    obtain ⟨h', mlp', θ', e, net, hkeep⟩ := H _ _ _ _ _ _ _ 1 (c / n) ht hr fun i _ => by simp [onPath, hr0]
    obtain ⟨_, _, e2, t2⟩ := C50_step_actual _ _ _ _ _ _ _ _ _ _ 1 ht
    rw [e] at e2
    cases e2
    have hk' := hkeep (c % n) (Nat.mod_lt _ hn)
    rw [Nat.div_add_mod', net.unique t2.net (by simp [coords, hlt'])] at hk'
    change ones 0 c - 1 * lossTangent m k ((n, f) :: ds) _ _ ones (unit 0 c) = ones 0 c at hk'
    linarith
  · intro hS h mlp x y a b θ lr r ht hr ha
    obtain ⟨h', mlp', θ', e, t, H⟩ := C94_partial h mlp x y m k n f ds a b θ lr 1 r ht hr ha hS
    refine ⟨h', mlp', θ', ?_, t, H⟩
    simp only [train, R.bind_eq_ok] at e
    obtain ⟨⟨h1, mlp1⟩, e1, e2⟩ := e
    rw [e1]
    exact e2

/-- C94 is false: 3 features, 11 units. -/
theorem C94_false : ¬ C94_statement := by
  intro H
  have := (C94_exact 1 3 11 .identity [] (by omega) (by omega) (by simp)).1 fun h mlp x y a b θ lr r ht hr ha => by
    obtain ⟨h', mlp', θ', e, t, H⟩ := H h mlp x y 1 3 11 .identity [] a b θ lr 1 r ht hr ha
    refine ⟨h', mlp', θ', ?_, t, H⟩
    simp only [train, R.bind_eq_ok] at e
    obtain ⟨⟨h1, mlp1⟩, e1, e2⟩ := e
    rw [e1]
    exact e2
  omega

/-- C94, for all sizes: the loss does not depend on the weights of features that are 0 in all rows. -/
theorem C94_loss (h₁ h₂ : Heap ℝ) (mlp₁ mlp₂ : Mlp ℝ) (x₁ y₁ x₂ y₂ m k n : Nat) (f : Act) (ds : List (Nat × Act)) (a b θ θ' : Nat → Nat → ℝ)
    (ht₁ : Training h₁ mlp₁ x₁ y₁ m k ((n, f) :: ds) a b θ) (ht₂ : Training h₂ mlp₂ x₂ y₂ m k ((n, f) :: ds) a b θ')
    (hθ : ∀ q c, (q, c) ∈ coords k 0 ((n, f) :: ds) → θ q c = θ' q c ∨ q = 0 ∧ ∀ i < m, a i (c / n) = 0) :
    ∃ h₁' l₁ h₂' l₂ L, trainLoss mlp₁ h₁ x₁ y₁ = .ok (h₁', l₁) ∧ trainLoss mlp₂ h₂ x₂ y₂ = .ok (h₂', l₂) ∧
      dataOf h₁' l₁ = some ⟨[L], []⟩ ∧ dataOf h₂' l₂ = some ⟨[L], []⟩ := by
  obtain ⟨h₁', l₁, e₁, d₁⟩ := C54_loss _ _ _ _ _ _ _ _ _ _ ht₁
  obtain ⟨h₂', l₂, e₂, d₂⟩ := C54_loss _ _ _ _ _ _ _ _ _ _ ht₂
  refine ⟨h₁', l₁, h₂', l₂, _, e₁, e₂, d₁, ?_⟩
  rw [d₂]
  suffices h : netLoss m k ((n, f) :: ds) a b θ' = netLoss m k ((n, f) :: ds) a b θ by rw [h]
  unfold netLoss
  refine Finset.sum_congr rfl fun i hi => Finset.sum_congr rfl fun j hj => ?_
  rw [Finset.mem_range] at hi hj
  have : netValue k (layerFns θ' 0 ((n, f) :: ds)) a i j = netValue k (layerFns θ 0 ((n, f) :: ds)) a i j := by
    simp only [layerFns, netValue]
    refine netValue_congr ds n (0 + 2) _ _ i (fun p hp => ?_) (fun j hj => ?_) j hj
    · have h2 := coords_ge ds _ _ p hp
      refine ((hθ p.1 p.2 ?_).resolve_right fun h => by omega).symm
      simp only [coords, Finset.mem_union]
      exact .inr hp
    · congr 1
      simp only [affine_sum]
      congr 1
      · refine Finset.sum_congr rfl fun r hr => ?_
        rw [Finset.mem_range] at hr
        rcases hθ 0 (r * n + j) (by simp only [coords, Finset.mem_union, Finset.mem_image, Finset.mem_range]; exact .inl (.inl ⟨r * n + j, by nlinarith, rfl⟩)) with h | h
        · rw [h]
        · have h3 := h.2 i hi
          rw [Nat.mul_comm r n, Nat.mul_add_div (by omega), Nat.div_eq_of_lt hj, Nat.add_zero] at h3
          rw [h3, zero_mul, zero_mul]
      · exact ((hθ (0 + 1) j (by simp [coords, hj])).resolve_right fun h => by omega).symm
  rw [this]

/-- C94, test: 2 features of which the second is 0, up to 16 units. -/
example (m n : Nat) (f : Act) (ds : List (Nat × Act)) (a b θ : Nat → Nat → ℝ) (hm : 0 < m) (hd : ∀ d ∈ (n, f) :: ds, 0 < d.1) (hn : n ≤ 16) (lr : ℝ) (N : Nat)
    (ha : ∀ i < m, a i 1 = 0) : ∃ h mlp h' mlp' θ', Training h mlp 0 1 m 2 ((n, f) :: ds) a b θ ∧ train mlp h 0 1 lr N = .ok (h', mlp') ∧
      NetIs h' mlp' 2 ((n, f) :: ds) θ' ∧ ∀ j < n, θ' 0 (1 * n + j) = θ 0 (1 * n + j) := by
  have ht := training_exists m 2 ((n, f) :: ds) a b θ hm (by omega) hd
  obtain ⟨h', mlp', θ', H⟩ := C94_partial _ _ _ _ _ _ n f ds a b θ lr N 1 ht (by omega) ha (.inl (by omega))
  exact ⟨_, _, h', mlp', θ', ht, H⟩

end RL
