import Verif.Lemmas.Unread
import Verif.Props.Order

/-!
# Property theorems: hidden units that nothing reads (C124)
-/

namespace RL

open Spec

/-- C124, full statement: a training step does not change what feeds a hidden unit that nothing reads. It is false: see `C124_false`. -/
def C124_statement : Prop :=
  ∀ (h : Heap ℝ) (mlp : Mlp ℝ) (x y m k n n' : Nat) (f f' : Act) (pre post : List (Nat × Act)) (a b θ : Nat → Nat → ℝ) (lr : ℝ) (j : Nat), j < n →
    (∀ c < n', θ (2 * pre.length + 2) (j * n' + c) = 0) → Training h mlp x y m k (pre ++ (n, f) :: (n', f') :: post) a b θ →
    ∃ h' mlp' θ', trainStep mlp h x y lr = .ok (h', mlp') ∧ NetIs h' mlp' k (pre ++ (n, f) :: (n', f') :: post) θ' ∧
      (∀ r < lastWidth k pre, θ' (2 * pre.length) (r * n + j) = θ (2 * pre.length) (r * n + j)) ∧ θ' (2 * pre.length + 1) j = θ (2 * pre.length + 1) j

/-- C124, for all sizes: the outputs do not depend on what feeds a hidden unit that nothing reads. -/
theorem C124_output (h₁ h₂ : Heap ℝ) (mlp₁ mlp₂ : Mlp ℝ) (k n n' : Nat) (f f' : Act) (pre post : List (Nat × Act)) (θ θ' : Nat → Nat → ℝ) (j : Nat)
    (hr : ∀ c < n', θ (2 * pre.length + 2) (j * n' + c) = 0) (hf : OnlyFeeds (2 * pre.length) n j θ θ')
    (hn₁ : NetIs h₁ mlp₁ k (pre ++ (n, f) :: (n', f') :: post) θ) (hn₂ : NetIs h₂ mlp₂ k (pre ++ (n, f) :: (n', f') :: post) θ')
    (x₁ x₂ m : Nat) (v₁ v₂ : Raw ℝ) (a : Nat → Nat → ℝ) (hm : 0 < m) (hx₁ : dataOf h₁ x₁ = some v₁) (hv₁ : Matrix v₁ m k a) (hx₂ : dataOf h₂ x₂ = some v₂) (hv₂ : Matrix v₂ m k a) :
    ∃ h₁' r₁ w₁ h₂' r₂ w₂ o, mlp₁.forward h₁ x₁ = .ok (h₁', r₁) ∧ dataOf h₁' r₁ = some w₁ ∧ Matrix w₁ m (lastWidth n' post) o ∧
      mlp₂.forward h₂ x₂ = .ok (h₂', r₂) ∧ dataOf h₂' r₂ = some w₂ ∧ Matrix w₂ m (lastWidth n' post) o := by
  obtain ⟨h₁', r₁, w₁, e₁, d₁, M₁, _⟩ := C45_forward mlp₁ _ h₁ x₁ v₁ m k a hm hx₁ hv₁ hn₁.layers
  obtain ⟨h₂', r₂, w₂, e₂, d₂, M₂, _⟩ := C45_forward mlp₂ _ h₂ x₂ v₂ m k a hm hx₂ hv₂ hn₂.layers
  rw [outWidth_layerFns, lastWidth_append] at M₁ M₂
  refine ⟨h₁', r₁, w₁, h₂', r₂, w₂, _, e₁, d₁, M₁, e₂, d₂, M₂.1, M₂.2.1, fun i hi c hc => ?_⟩
  rw [M₂.2.2 i hi c hc, value_unread hf hr a i hc]

/-- C124 if the number of units divides 32, or the weights of the layer are at most 32 and so are its values for all rows. Missing: all other sizes; for some of these it is false
(`C124_false`). -/
theorem C124_partial (h : Heap ℝ) (mlp : Mlp ℝ) (x y m k n n' : Nat) (f f' : Act) (pre post : List (Nat × Act)) (a b θ : Nat → Nat → ℝ) (lr : ℝ) (j : Nat) (hj : j < n)
    (hr : ∀ c < n', θ (2 * pre.length + 2) (j * n' + c) = 0) (ht : Training h mlp x y m k (pre ++ (n, f) :: (n', f') :: post) a b θ)
    (hS : n ∣ 32 ∨ lastWidth k pre * n ≤ 32 ∧ m * n ≤ 32) :
    ∃ h' mlp' θ', trainStep mlp h x y lr = .ok (h', mlp') ∧ NetIs h' mlp' k (pre ++ (n, f) :: (n', f') :: post) θ' ∧
      (∀ r < lastWidth k pre, θ' (2 * pre.length) (r * n + j) = θ (2 * pre.length) (r * n + j)) ∧ θ' (2 * pre.length + 1) j = θ (2 * pre.length + 1) j := by
  obtain ⟨h', mlp', e, t⟩ := C50_step_actual h mlp x y m k _ a b θ lr ht
  refine ⟨h', mlp', _, e, t.net, fun r hr' => ?_, ?_⟩
  · change θ (2 * pre.length) (r * n + j) - lr * lossTangent m k _ a b θ (unit (2 * pre.length) (r * n + j)) = _
    have h1 : ∀ p, p ≠ 2 * pre.length → ∀ c, unit (2 * pre.length) (r * n + j) p c = 0 := fun p hp c => if_neg fun h => hp h.1
    rw [lossTangent_unread hr (hS.elim .inr fun h => .inl h.2) (fun p hp _ => h1 p hp) (fun r' hr'' j' hj' hne => ?_) (fun j' _ _ => h1 _ (by omega) _), mul_zero, sub_zero]
    rw [shuffledMat_unit', if_neg]
    intro h1
    have h2 := shuffle_column (hS.elim .inr fun h => .inl h.1) (mul_add_lt hr'' hj')
    rw [h1, Nat.mul_comm r n, Nat.mul_add_mod, Nat.mod_eq_of_lt hj, Nat.mul_comm r' n, Nat.mul_add_mod, Nat.mod_eq_of_lt hj'] at h2
    exact hne h2.symm
  · change θ (2 * pre.length + 1) j - lr * lossTangent m k _ a b θ (unit (2 * pre.length + 1) j) = _
    have h1 : ∀ p c, ¬ (p = 2 * pre.length + 1 ∧ c = j) → unit (2 * pre.length + 1) j p c = 0 := fun p c hp => if_neg hp
    rw [lossTangent_unread hr (hS.elim .inr fun h => .inl h.2) (fun p _ hp c => h1 p c fun h => hp h.1) (fun r' hr'' j' hj' hne => ?_) (fun j' _ hne => h1 _ _ fun h => hne h.2), mul_zero,
      sub_zero]
    simp [shuffledMat, unit]

/-- C124, exactly: with one hidden layer and one output, a training step leaves what feeds an unread unit as it is if and only if the number of units divides 32, or the weights of the
layer and its values for all rows are at most 32 each. -/
theorem C124_exact (m k n : Nat) (f f' : Act) (hm : 0 < m) (hk : 0 < k) (hn : 0 < n) :
    (∀ (h : Heap ℝ) (mlp : Mlp ℝ) (x y : Nat) (a b θ : Nat → Nat → ℝ) (lr : ℝ) (j : Nat), j < n → θ 2 j = 0 → Training h mlp x y m k [(n, f), (1, f')] a b θ →
      ∃ h' mlp' θ', trainStep mlp h x y lr = .ok (h', mlp') ∧ NetIs h' mlp' k [(n, f), (1, f')] θ' ∧ (∀ r < k, θ' 0 (r * n + j) = θ 0 (r * n + j)) ∧ θ' 1 j = θ 1 j) ↔
    n ∣ 32 ∨ k * n ≤ 32 ∧ m * n ≤ 32 := by
  constructor
  · intro H
    by_contra hS
    rw [not_or] at hS
    obtain ⟨hd, hS⟩ := hS
    obtain ⟨θ, hθ⟩ : ∃ θ : Nat → Nat → ℝ, θ = fun q c => if q = 2 ∧ c = 0 then 1 else 0 := ⟨_, rfl⟩
    obtain ⟨a, ha⟩ : ∃ a : Nat → Nat → ℝ, a = fun _ r => if r = 0 then 1 else 0 := ⟨_, rfl⟩
    have ht := training_exists m k [(n, f), (1, f')] a (fun _ _ => 0) θ hm hk (by simp [hn])
    obtain ⟨_, _, e', t⟩ := C50_step_actual _ _ _ _ _ _ _ _ _ _ 1 ht
    by_cases hM : m * n ≤ 32
    · have hK : 32 < k * n := by
        by_contra h
        exact hS ⟨by omega, hM⟩
      have hj := shuffle_zero_column hK hd
      have hs : shuffle (k * n) 0 < k * n := shuffle_lt (by omega)
      obtain ⟨h', mlp', θ', e, net, hw, _⟩ := H _ _ _ _ a _ θ 1 (shuffle (k * n) 0 % n) (Nat.mod_lt _ hn) (by simp [hθ, hj]) ht
      rw [e] at e'
      cases e'
      have c₁ := net.unique t.net (q := 0) (c := shuffle (k * n) 0) (by simp [coords, hs])
      have c₂ := hw (shuffle (k * n) 0 / n) ((Nat.div_lt_iff_lt_mul hn).2 hs)
      rw [Nat.div_add_mod'] at c₂
      have c₃ : θ' 0 (shuffle (k * n) 0) = θ 0 (shuffle (k * n) 0) - 1 * lossTangent m k [(n, f), (1, f')] a (fun _ _ => 0) θ (unit 0 (shuffle (k * n) 0)) := c₁
      have h2 : ∀ p, 2 ≤ p → ∀ c, unit 0 (shuffle (k * n) 0) p c = 0 := fun p hp c => if_neg (by omega)
      have h1 : ∀ c, unit 0 (shuffle (k * n) 0) 1 c = 0 := fun c => if_neg (by omega)
      rw [lossTangent_reads hθ hn h2] at c₃
      have c₄ : ∀ i ∈ Finset.range m, shuffledMat m n (fun i j => (∑ kk ∈ Finset.range k, a i kk * shuffledMat k n (fun i j => unit 0 (shuffle (k * n) 0) 0 (i * n + j)) kk j) +
          unit 0 (shuffle (k * n) 0) 1 j) i 0 = 1 := by
        intro i hi
        rw [Finset.mem_range] at hi
        rw [shuffledMat, shuffle_small hM (mul_add_lt hi hn), h1, add_zero, Finset.sum_eq_single_of_mem 0 (Finset.mem_range.2 hk)]
        · rw [shuffledMat_unit]
          simp [ha]
        · intro r _ hr
          simp [ha, hr]
      rw [Finset.sum_congr rfl c₄, c₂] at c₃
      have hm' : (0 : ℝ) < m := Nat.cast_pos.2 hm
      simp only [Finset.sum_const, Finset.card_range, nsmul_eq_mul] at c₃
      linarith
    · have hj := shuffle_zero_column (K := m) (by omega) hd
      obtain ⟨h', mlp', θ', e, net, _, hb⟩ := H _ _ _ _ a _ θ 1 (shuffle (m * n) 0 % n) (Nat.mod_lt _ hn) (by simp [hθ, hj]) ht
      rw [e] at e'
      cases e'
      have c₁ := net.unique t.net (q := 1) (c := shuffle (m * n) 0 % n) (by simp [coords, Nat.mod_lt _ hn])
      have c₃ : θ' 1 (shuffle (m * n) 0 % n) = θ 1 (shuffle (m * n) 0 % n) - 1 * lossTangent m k [(n, f), (1, f')] a (fun _ _ => 0) θ (unit 1 (shuffle (m * n) 0 % n)) := c₁
      have h2 : ∀ p, p ≠ 1 → ∀ c, unit 1 (shuffle (m * n) 0 % n) p c = 0 := fun p hp c => if_neg fun h => hp h.1
      rw [lossTangent_reads hθ hn (fun p hp => h2 p (by omega)), hb] at c₃
      have c₄ : 0 < ∑ i ∈ Finset.range m, shuffledMat m n (fun i j => (∑ kk ∈ Finset.range k, a i kk *
          shuffledMat k n (fun i j => unit 1 (shuffle (m * n) 0 % n) 0 (i * n + j)) kk j) + unit 1 (shuffle (m * n) 0 % n) 1 j) i 0 := by
        simp only [shuffledMat, h2 0 (by omega), mul_zero, Finset.sum_const_zero, zero_add]
        refine Finset.sum_pos' (fun i _ => ?_) ⟨0, Finset.mem_range.2 hm, ?_⟩
        · unfold unit
          split <;> norm_num
        · simp [unit]
      linarith
  · intro hS h mlp x y a b θ lr j hj hr ht
    exact C124_partial h mlp x y m k n 1 f f' [] [] a b θ lr j hj (fun c hc => by rw [show c = 0 by omega]; simpa using hr) ht hS

/-- C124 is false: one row of 11 features, 3 hidden units, one output that reads the first one only. The gradient of the first weight of the first unit is put at the first weight of
the second unit. -/
theorem C124_false : ¬ C124_statement := by
  intro H
  obtain ⟨θ, hθ⟩ : ∃ θ : Nat → Nat → ℝ, θ = fun q c => if q = 2 ∧ c = 0 then 1 else 0 := ⟨_, rfl⟩
  have ht := training_exists 1 11 ([] ++ (3, .identity) :: (1, .identity) :: []) (fun _ r => if r = 0 then 1 else 0) (fun _ _ => 0) θ (by omega) (by omega) (by simp)
  obtain ⟨h', mlp', θ', e, net, hw, _⟩ := H _ _ _ _ 1 11 3 1 .identity .identity [] [] _ _ θ 1 1 (by omega) (by simp [hθ]) ht
  obtain ⟨_, _, e', t⟩ := C50_step_actual _ _ _ _ _ _ _ _ _ _ 1 ht
  rw [e] at e'
  cases e'
  have c₁ := net.unique t.net (q := 0) (c := 1) (by simp [coords])
  have c₂ := hw 0 (by simp [lastWidth])
  have c₃ : θ' 0 1 = θ 0 1 - 1 * lossTangent 1 11 [(3, .identity), (1, .identity)] (fun _ r => if r = 0 then 1 else 0) (fun _ _ => 0) θ (unit 0 1) := c₁
  have c₄ : θ' 0 1 = θ 0 1 := c₂
  have c₅ : lossTangent 1 11 [(3, .identity), (1, .identity)] (fun _ r => if r = 0 then 1 else 0) (fun _ _ => 0) θ (unit 0 1) = 1 := by
    have h2 : ∀ p, 2 ≤ p → ∀ c, unit 0 1 p c = 0 := fun p hp c => if_neg (by omega)
    rw [lossTangent_first (by simp [hθ]) (fun p hp c => by rw [hθ]; exact if_neg (by omega)) _ _ _ h2]
    simp only [shuffledMat_unit]
    simp [netTangent, lastWidth, hθ, Act.slope, Finset.sum_range_succ, shuffledMat, shuffle, unit]
    rfl
  linarith

/-- TEST of the hypotheses of `C124_output`: 8 hidden units; what feeds unit 3 is 5 instead of 1. -/
example : OnlyFeeds 0 8 3 (fun q c => if q = 2 ∧ c / 2 = 3 then 0 else 1) (fun q c => if q = 2 ∧ c / 2 = 3 then 0 else if q = 0 ∧ c % 8 = 3 ∨ q = 1 ∧ c = 3 then 5 else 1) := by
  refine ⟨fun p h0 h1 => ?_, fun c hc => ?_, fun c hc => ?_⟩
  · funext c
    beta_reduce
    rw [if_neg (c := p = 0 ∧ c % 8 = 3 ∨ p = 1 ∧ c = 3) (by omega)]
  · simp [hc]
  · simp [hc]

/-- TEST of the hypotheses of `C124_partial` and `C124_output`: 8 hidden units, 200 weights; unit 3 is not read. -/
example (a b : Nat → Nat → ℝ) : (∃ h mlp x y, Training h mlp x y 5 25 ([] ++ (8, .relu) :: (2, .tanh) :: []) a b fun q c => if q = 2 ∧ c / 2 = 3 then 0 else 1) ∧
    (∀ c < 2, (fun q c => if q = 2 ∧ c / 2 = 3 then 0 else 1 : Nat → Nat → ℝ) 2 (3 * 2 + c) = 0) ∧ 8 ∣ 32 :=
  ⟨⟨_, _, _, _, training_exists 5 25 _ _ _ _ (by omega) (by omega) (by simp)⟩, fun c hc => if_pos ⟨rfl, by omega⟩, by decide⟩

end RL
