import Verif.Lemmas.Alone
import Verif.Props.Relation

/-!
# Property theorems: the outputs of a single layer are trained independently (C117)
-/

namespace RL

open Spec

/-- C117, full statement: training a single layer changes the parameters of each unit as training a layer that has only this unit, with the expected outputs of this
unit. It is false: see `C117_false`. -/
def C117_statement : Prop :=
  ∀ (h₁ h₂ : Heap ℝ) (mlp₁ mlp₂ : Mlp ℝ) (x₁ y₁ x₂ y₂ m k n : Nat) (f : Act) (a b θ : Nat → Nat → ℝ) (lr : ℝ) (N j : Nat), j < n →
    Training h₁ mlp₁ x₁ y₁ m k [(n, f)] a b θ → Training h₂ mlp₂ x₂ y₂ m k [(1, f)] a (fun i _ => b i j) (alone n j θ) →
    ∃ h₁' mlp₁' h₂' mlp₂' θ', train mlp₁ h₁ x₁ y₁ lr N = .ok (h₁', mlp₁') ∧ train mlp₂ h₂ x₂ y₂ lr N = .ok (h₂', mlp₂') ∧
      NetIs h₁' mlp₁' k [(n, f)] θ' ∧ NetIs h₂' mlp₂' k [(1, f)] (alone n j θ')

/-- C117, the biases and the outputs are those of the unit alone in the first step, whatever the sizes: the bias of a unit changes by what it changes alone. -/
theorem C117_bias (h₁ h₂ : Heap ℝ) (mlp₁ mlp₂ : Mlp ℝ) (x₁ y₁ x₂ y₂ m k n : Nat) (f : Act) (a b θ : Nat → Nat → ℝ) (lr : ℝ) (j : Nat) (hj : j < n)
    (ht₁ : Training h₁ mlp₁ x₁ y₁ m k [(n, f)] a b θ) (ht₂ : Training h₂ mlp₂ x₂ y₂ m k [(1, f)] a (fun i _ => b i j) (alone n j θ)) :
    ∃ h₁' mlp₁' h₂' mlp₂' θ₁ θ₂, trainStep mlp₁ h₁ x₁ y₁ lr = .ok (h₁', mlp₁') ∧ trainStep mlp₂ h₂ x₂ y₂ lr = .ok (h₂', mlp₂') ∧
      NetIs h₁' mlp₁' k [(n, f)] θ₁ ∧ NetIs h₂' mlp₂' k [(1, f)] θ₂ ∧ θ₁ 1 j = θ₂ 1 0 := by
  obtain ⟨h₁', mlp₁', e₁, t₁⟩ := C50_step_actual h₁ mlp₁ x₁ y₁ m k _ a b θ lr ht₁
  obtain ⟨h₂', mlp₂', e₂, t₂⟩ := C50_step_actual h₂ mlp₂ x₂ y₂ m k _ a _ _ lr ht₂
  refine ⟨h₁', mlp₁', h₂', mlp₂', _, _, e₁, e₂, t₁.net, t₂.net, ?_⟩
  change θ 1 j - lr * lossTangent m k [(n, f)] a b θ (unit 1 j) = alone n j θ 1 0 - lr * lossTangent m k [(1, f)] a _ (alone n j θ) (unit 1 0)
  rw [single_bias a b θ hj, single_bias a _ (alone n j θ) (by omega)]
  simp only [unitIn_alone]
  rfl

/-- C117 if the layer has at most 32 weights, or one unit. Missing: larger layers; for these it is false (`C117_exact`). -/
theorem C117_partial (h₁ h₂ : Heap ℝ) (mlp₁ mlp₂ : Mlp ℝ) (x₁ y₁ x₂ y₂ m k n : Nat) (f : Act) (a b θ : Nat → Nat → ℝ) (lr : ℝ) (N j : Nat) (hj : j < n)
    (ht₁ : Training h₁ mlp₁ x₁ y₁ m k [(n, f)] a b θ) (ht₂ : Training h₂ mlp₂ x₂ y₂ m k [(1, f)] a (fun i _ => b i j) (alone n j θ)) (hS : k * n ≤ 32 ∨ n = 1) :
    ∃ h₁' mlp₁' h₂' mlp₂' θ', train mlp₁ h₁ x₁ y₁ lr N = .ok (h₁', mlp₁') ∧ train mlp₂ h₂ x₂ y₂ lr N = .ok (h₂', mlp₂') ∧
      NetIs h₁' mlp₁' k [(n, f)] θ' ∧ NetIs h₂' mlp₂' k [(1, f)] (alone n j θ') := by
  obtain ⟨h₁', mlp₁', e₁, t₁⟩ := C50_actual N h₁ mlp₁ x₁ y₁ m k _ a b θ lr ht₁
  obtain ⟨h₂', mlp₂', e₂, t₂⟩ := C50_actual N h₂ mlp₂ x₂ y₂ m k _ a _ _ lr ht₂
  refine ⟨h₁', mlp₁', h₂', mlp₂', _, e₁, e₂, t₁.net, (t₂.congr fun p hp => ?_).net⟩
  have hshuffle : ∀ r < k, shuffle (k * n) (r * n + j) = shuffle (k * 1) (r * 1 + 0) * n + j := by
    intro r hr
    rcases hS with hS | rfl
    · have hkn : k ≤ k * n := Nat.le_mul_of_pos_right k (by omega)
      rw [shuffle_small hS (mul_add_lt hr hj), shuffle_small (by omega) (by omega), Nat.mul_one, Nat.add_zero]
    · obtain rfl : j = 0 := by omega
      omega
  have H : ∀ (N : Nat) (p : Nat × Nat), p ∈ coords k 0 [(1, f)] → (shuffledDescend lr m k [(1, f)] a (fun i _ => b i j))^[N] (alone n j θ) p.1 p.2 =
      alone n j ((shuffledDescend lr m k [(n, f)] a b)^[N] θ) p.1 p.2 := by
    intro N
    induction N with
    | zero => exact fun _ _ => rfl
    | succ N ih =>
      intro p hp
      rw [Function.iterate_succ_apply', Function.iterate_succ_apply']
      generalize (shuffledDescend lr m k [(n, f)] a b)^[N] θ = θ' at ih ⊢
      generalize (shuffledDescend lr m k [(1, f)] a (fun i _ => b i j))^[N] (alone n j θ) = η at ih ⊢
      have hin : ∀ i, unitIn k 1 η a i 0 = unitIn k n θ' a i j := by
        intro i
        rw [← unitIn_alone (n := n) (θ := θ')]
        simp only [unitIn, affine_sum]
        rw [show η 1 0 = alone n j θ' 1 0 from ih (1, 0) (by simp [coords])]
        congr 1
        refine Finset.sum_congr rfl fun r hr => ?_
        rw [show η 0 (r * 1 + 0) = alone n j θ' 0 (r * 1 + 0) from ih (0, r * 1 + 0) (by simpa [coords] using hr)]
      simp only [coords, Finset.union_empty, Finset.mem_union, Finset.mem_image, Finset.mem_range] at hp
      rcases hp with ⟨c, hc, rfl⟩ | ⟨c, hc, rfl⟩
      · obtain ⟨r, hr, rfl⟩ := shuffle_surj hc
        have h1 := ih (0, shuffle (k * 1) r) (by simp only [coords, Finset.union_empty, Finset.mem_union, Finset.mem_image, Finset.mem_range]; exact .inl ⟨_, hc, rfl⟩)
        have h2 := hshuffle r (by omega)
        rw [Nat.mul_one r, Nat.add_zero] at h2
        have e1 := single_weight (m := m) (k := k) (n := 1) (f := f) a (fun i _ => b i j) η (r := r) (j := 0) (by omega) (by omega)
        rw [Nat.mul_one r, Nat.add_zero] at e1
        have e2 := single_weight (m := m) (f := f) a b θ' (r := r) (show r < k by omega) hj
        simp only [hin] at e1
        change η 0 _ - lr * lossTangent m k [(1, f)] a _ η (unit 0 _) = θ' 0 (shuffle (k * 1) r * n + j) - lr * lossTangent m k [(n, f)] a b θ' (unit 0 _)
        rw [e1, ← h2, e2, h2]
        exact congrArg (· - _) h1
      · obtain rfl : c = 0 := by omega
        have h1 := ih (1, 0) (by simp [coords])
        have e1 := single_bias (m := m) (k := k) (n := 1) (f := f) a (fun i _ => b i j) η (j := 0) (by omega)
        simp only [hin] at e1
        change η 1 0 - lr * lossTangent m k [(1, f)] a _ η (unit 1 0) = θ' 1 j - lr * lossTangent m k [(n, f)] a b θ' (unit 1 j)
        rw [e1, single_bias a b θ' hj]
        exact congrArg (· - _) h1
  exact H N p hp

/-- C117, exactly for which layers: those with at most 32 weights, or with one unit. -/
theorem C117_exact (m k n : Nat) (f : Act) (hm : 0 < m) (hk : 0 < k) (hn : 0 < n) :
    (∀ (h₁ h₂ : Heap ℝ) (mlp₁ mlp₂ : Mlp ℝ) (x₁ y₁ x₂ y₂ : Nat) (a b θ : Nat → Nat → ℝ) (lr : ℝ) (N j : Nat), j < n →
      Training h₁ mlp₁ x₁ y₁ m k [(n, f)] a b θ → Training h₂ mlp₂ x₂ y₂ m k [(1, f)] a (fun i _ => b i j) (alone n j θ) →
      ∃ h₁' mlp₁' h₂' mlp₂' θ', train mlp₁ h₁ x₁ y₁ lr N = .ok (h₁', mlp₁') ∧ train mlp₂ h₂ x₂ y₂ lr N = .ok (h₂', mlp₂') ∧
        NetIs h₁' mlp₁' k [(n, f)] θ' ∧ NetIs h₂' mlp₂' k [(1, f)] (alone n j θ')) ↔ k * n ≤ 32 ∨ n = 1 := by
  constructor
  · intro H
    by_contra hS
    obtain ⟨h0, hne⟩ := alone_not hn hk hS
    have hkn : 0 < k * n := Nat.mul_pos hk hn
    obtain ⟨c, hc⟩ : ∃ c, c = k * n - 32 := ⟨_, rfl⟩
    have hck : c / n < k := (Nat.div_lt_iff_lt_mul hn).2 (by omega)
    have hcn : c % n < n := Nat.mod_lt _ hn
    obtain ⟨r, hr, er⟩ := shuffle_surj (len := k * 1) (c := c / n) (by omega)
    obtain ⟨a, ha⟩ : ∃ a : Nat → Nat → ℝ, a = fun _ r => if r = 0 then 1 else 0 := ⟨_, rfl⟩
    obtain ⟨b, hb⟩ : ∃ b : Nat → Nat → ℝ, b = fun _ j => if j = 0 then 1 else 0 := ⟨_, rfl⟩
    have ht₁ := training_exists m k [(n, f)] a b (fun _ _ => 0) hm hk (by simpa using hn)
    have ht₂ := training_exists m k [(1, f)] a (fun i _ => b i (c % n)) (alone n (c % n) fun _ _ => 0) hm hk (by simp)
    obtain ⟨h₁', mlp₁', h₂', mlp₂', θ', e₁, e₂, n₁, n₂⟩ := H _ _ _ _ _ _ _ _ a b _ 1 1 (c % n) hcn ht₁ ht₂
    obtain ⟨_, _, f₁, t₁⟩ := C50_actual 1 _ _ _ _ _ _ _ _ _ _ 1 ht₁
    obtain ⟨_, _, f₂, t₂⟩ := C50_actual 1 _ _ _ _ _ _ _ _ _ _ 1 ht₂
    rw [e₁] at f₁
    cases f₁
    rw [e₂] at f₂
    cases f₂
    have c₁ := n₁.unique t₁.net (q := 0) (c := c) (by simp [coords]; omega)
    have c₂ := n₂.unique t₂.net (q := 0) (c := c / n) (by simp [coords, hck])
    rw [show alone n (c % n) θ' 0 (c / n) = θ' 0 c by simp only [alone, if_true]; rw [Nat.div_add_mod'], c₁] at c₂
    have hz : ∀ i j, unitIn k n (fun _ _ => 0) a i j = 0 := by
      intro i j
      simp [unitIn, affine_sum]
    have hz' : ∀ i, unitIn k 1 (alone n (c % n) fun _ _ => 0) a i 0 = 0 := fun i => by rw [unitIn_alone, hz]
    have d₁ : lossTangent m k [(n, f)] a b (fun _ _ => 0) (unit 0 c) = -m := by
      have := single_weight (m := m) (f := f) a b (fun _ _ => 0) hk hn
      rw [Nat.zero_mul, Nat.zero_add, h0, ← hc] at this
      rw [this]
      simp only [hz, f.fn_zero, f.slope_zero]
      simp [ha, hb]
    have d₂ : -(m : ℝ) < lossTangent m k [(1, f)] a (fun i _ => b i (c % n)) (alone n (c % n) fun _ _ => 0) (unit 0 (c / n)) := by
      have := single_weight (m := m) (k := k) (n := 1) (f := f) a (fun i _ => b i (c % n)) (alone n (c % n) fun _ _ => 0) (r := r) (j := 0) (by omega) (by omega)
      rw [Nat.mul_one r, Nat.add_zero, er] at this
      rw [this]
      have hm' : (0 : ℝ) < m := Nat.cast_pos.2 hm
      simp only [hz', f.fn_zero, f.slope_zero, one_mul]
      simp only [ha, hb, Finset.sum_const, Finset.card_range, nsmul_eq_mul]
      by_cases hJ : c % n = 0
      · have hr0 : r ≠ 0 := by
          rintro rfl
          rw [Nat.mul_one] at er
          have := Nat.div_add_mod' c n
          rw [hJ, ← er] at this
          omega
        simp [hr0, hm']
      · by_cases hr0 : r = 0
        · simp [hr0, hJ, hm]
        · simp [hr0, hm']
    have h1 : (0 : ℝ) - 1 * lossTangent m k [(n, f)] a b (fun _ _ => 0) (unit 0 c) =
      0 - 1 * lossTangent m k [(1, f)] a (fun i _ => b i (c % n)) (alone n (c % n) fun _ _ => 0) (unit 0 (c / n)) := by
      have h2 : alone n (c % n) (fun _ _ => (0 : ℝ)) 0 (c / n) = 0 := rfl
      rw [← h2]
      exact c₂
    rw [d₁] at h1
    linarith
  · intro hS h₁ h₂ mlp₁ mlp₂ x₁ y₁ x₂ y₂ a b θ lr N j hj ht₁ ht₂
    exact C117_partial h₁ h₂ mlp₁ mlp₂ x₁ y₁ x₂ y₂ m k n f a b θ lr N j hj ht₁ ht₂ hS

/-- C117 is false: 3 features, 11 units. -/
theorem C117_false : ¬ C117_statement := by
  intro H
  have := (C117_exact 1 3 11 .identity (by omega) (by omega) (by omega)).1
    fun h₁ h₂ mlp₁ mlp₂ x₁ y₁ x₂ y₂ a b θ lr N j hj ht₁ ht₂ => H h₁ h₂ mlp₁ mlp₂ x₁ y₁ x₂ y₂ 1 3 11 .identity a b θ lr N j hj ht₁ ht₂
  omega

/-- TEST of the hypotheses of `C117_partial` and `C117_bias`: 5 rows, 3 features, 10 units, of which unit 7. -/
example (a b θ : Nat → Nat → ℝ) : (∃ h mlp x y, Training h mlp x y 5 3 [(10, .tanh)] a b θ) ∧
    (∃ h mlp x y, Training h mlp x y 5 3 [(1, .tanh)] a (fun i _ => b i 7) (alone 10 7 θ)) ∧ 3 * 10 ≤ 32 :=
  ⟨⟨_, _, _, _, training_exists 5 3 _ _ _ _ (by omega) (by omega) (by simp)⟩,
    ⟨_, _, _, _, training_exists 5 3 _ _ _ _ (by omega) (by omega) (by simp)⟩, by omega⟩

end RL
