import Verif.Lemmas.BalanceWide
import Verif.Props.Balance

/-!
# Exactly for which layers what feeds a unit and what reads it stay balanced: C89
-/

namespace RL

open Spec

/-- C89 for more networks than in `C89_partial`: only the layer of the unit has to be small, that is, its weights, its output and the weights
of the next layer. Missing: all others; for these it is false (`C89_exact`). -/
theorem C89_wide_partial (h : Heap ℝ) (mlp : Mlp ℝ) (x y m k n n' : Nat) (f f' : Act) (pre post : List (Nat × Act)) (a b θ : Nat → Nat → ℝ) (lr : ℝ) (j : Nat)
    (hf : f ≠ .tanh) (ht : Training h mlp x y m k (pre ++ (n, f) :: (n', f') :: post) a b θ) (hj : j < n)
    (h1 : lastWidth k pre * n ≤ 32) (h2 : m * n ≤ 32) (h3 : n * n' ≤ 32) :
    ∃ h' mlp' θ', trainStep mlp h x y lr = .ok (h', mlp') ∧ NetIs h' mlp' k (pre ++ (n, f) :: (n', f') :: post) θ' ∧
      inDot (lastWidth k pre) (2 * pre.length) n j θ (θ' - θ) = outDot (2 * pre.length) n' j θ (θ' - θ) := by
  obtain ⟨h', mlp', e, t⟩ := C50_step_actual h mlp x y m k _ a b θ lr ht
  exact ⟨h', mlp', _, e, t.net, balance_wide hf hj a b θ lr h1 h2 h3⟩

/-- C89 for any number of steps of these networks: the balance of a unit changes only by the balances of the steps. -/
theorem C89_train_wide_partial (h : Heap ℝ) (mlp : Mlp ℝ) (x y m k n n' : Nat) (f f' : Act) (pre post : List (Nat × Act)) (a b θ : Nat → Nat → ℝ) (lr : ℝ)
    (j N : Nat) (hf : f ≠ .tanh) (ht : Training h mlp x y m k (pre ++ (n, f) :: (n', f') :: post) a b θ) (hj : j < n)
    (h1 : lastWidth k pre * n ≤ 32) (h2 : m * n ≤ 32) (h3 : n * n' ≤ 32) :
    ∃ Θ : Nat → Nat → Nat → ℝ, Θ 0 = θ ∧
      (∀ i, ∃ h' mlp', train mlp h x y lr i = .ok (h', mlp') ∧ NetIs h' mlp' k (pre ++ (n, f) :: (n', f') :: post) (Θ i)) ∧
      balance (lastWidth k pre) (2 * pre.length) n n' j (Θ N) = balance (lastWidth k pre) (2 * pre.length) n n' j θ +
        ∑ i ∈ Finset.range N, balance (lastWidth k pre) (2 * pre.length) n n' j (Θ (i + 1) - Θ i) := by
  refine ⟨fun i => (shuffledDescend lr m k (pre ++ (n, f) :: (n', f') :: post) a b)^[i] θ, rfl, fun i => ?_, ?_⟩
  · obtain ⟨h', mlp', e, t⟩ := C50_actual i h mlp x y m k _ a b θ lr ht
    exact ⟨h', mlp', e, t.net⟩
  · clear ht
    induction N with
    | zero => simp
    | succ N ih =>
      rw [Finset.sum_range_succ, ← add_assoc, ← ih, ← balance_change]
      simp only [Function.iterate_succ_apply']
      exact balance_wide hf hj a b _ lr h1 h2 h3

/-- C89, exactly for which layers. -/
theorem C89_exact (m k n n' : Nat) (f f' : Act) (pre post : List (Nat × Act)) (hf : f ≠ .tanh) (hm : 0 < m) (hk : 0 < k)
    (hd : ∀ d ∈ pre ++ (n, f) :: (n', f') :: post, 0 < d.1) :
    (∀ (h : Heap ℝ) (mlp : Mlp ℝ) (x y : Nat) (a b θ : Nat → Nat → ℝ) (lr : ℝ) (j : Nat),
      Training h mlp x y m k (pre ++ (n, f) :: (n', f') :: post) a b θ → j < n →
      ∃ h' mlp' θ', trainStep mlp h x y lr = .ok (h', mlp') ∧ NetIs h' mlp' k (pre ++ (n, f) :: (n', f') :: post) θ' ∧
        inDot (lastWidth k pre) (2 * pre.length) n j θ (θ' - θ) = outDot (2 * pre.length) n' j θ (θ' - θ)) ↔
    lastWidth k pre * n ≤ 32 ∧ m * n ≤ 32 ∧ n * n' ≤ 32 := by
  refine ⟨fun H => ?_, fun h h' mlp x y a b θ lr j ht hj => C89_wide_partial h' mlp x y m k n n' f f' pre post a b θ lr j hf ht hj h.1 h.2.1 h.2.2⟩
  have hn : 0 < n := hd (n, f) (by simp)
  have hn' : 0 < n' := hd (n', f') (by simp)
  have hK := lastWidth_pos pre k hk fun d h => hd d (by simp [h])
  have zero : ∀ j < n, ∀ a θ y : Nat → Nat → ℝ, lossTangent m k (pre ++ (n, f) :: (n', f') :: post) a y θ
      (unitDir (lastWidth k pre) (2 * pre.length) n n' j θ) = 0 := by
    intro j hj a θ y
    have ht := training_exists m k (pre ++ (n, f) :: (n', f') :: post) a y θ hm hk hd
    obtain ⟨h', mlp', θ', e, net, hb⟩ := H _ _ _ _ a y θ 1 j ht hj
    obtain ⟨_, _, e', u⟩ := C50_step_actual _ _ _ _ _ _ _ _ _ _ 1 ht
    rw [e] at e'
    cases e'
    rw [← balanced_iff a y θ one_ne_zero]
    have at_ : ∀ p ∈ coords (lastWidth k pre) (2 * pre.length) ((n, f) :: (n', f') :: post), θ' p.1 p.2 =
        shuffledDescend 1 m k (pre ++ (n, f) :: (n', f') :: post) a y θ p.1 p.2 :=
      fun p hp => net.unique u.net (mem_coords_at pre _ k 0 p (by rwa [Nat.zero_add]))
    have hin : ∀ r < lastWidth k pre, θ' (2 * pre.length) (r * n + j) = shuffledDescend 1 m k (pre ++ (n, f) :: (n', f') :: post) a y θ (2 * pre.length) (r * n + j) :=
      fun r hr => at_ (2 * pre.length, r * n + j) (by simp [coords, mul_add_lt hr hj])
    have hbias : θ' (2 * pre.length + 1) j = shuffledDescend 1 m k (pre ++ (n, f) :: (n', f') :: post) a y θ (2 * pre.length + 1) j :=
      at_ (2 * pre.length + 1, j) (by simp [coords, hj])
    have hout : ∀ c < n', θ' (2 * pre.length + 2) (j * n' + c) = shuffledDescend 1 m k (pre ++ (n, f) :: (n', f') :: post) a y θ (2 * pre.length + 2) (j * n' + c) :=
      fun c hc => at_ (2 * pre.length + 2, j * n' + c) (by simp [coords, mul_add_lt hj hc])
    have e1 : inDot (lastWidth k pre) (2 * pre.length) n j θ (θ' - θ) =
        inDot (lastWidth k pre) (2 * pre.length) n j θ (shuffledDescend 1 m k (pre ++ (n, f) :: (n', f') :: post) a y θ - θ) := by
      simp only [inDot, Pi.sub_apply]
      rw [hbias]
      congr 1
      exact Finset.sum_congr rfl fun r hr => by rw [hin r (Finset.mem_range.1 hr)]
    have e2 : outDot (2 * pre.length) n' j θ (θ' - θ) = outDot (2 * pre.length) n' j θ (shuffledDescend 1 m k (pre ++ (n, f) :: (n', f') :: post) a y θ - θ) := by
      simp only [outDot, Pi.sub_apply]
      exact Finset.sum_congr rfl fun c hc => by rw [hout c (Finset.mem_range.1 hc)]
    rw [← e1, ← e2, hb]
  have first : ∀ l, 32 < l → shuffle l 0 = l - 32 := by
    intro l hl
    unfold shuffle
    omega
  have unit_nonneg : ∀ p c : Nat, (0 : ℝ) ≤ if c = p then 1 else 0 := fun p c => by split <;> norm_num
  have hnn : n * n' ≤ 32 := by
    by_contra hS
    have hS : 32 < n * n' := not_le.1 hS
    have hp := first _ hS
    generalize hP : shuffle (n * n') 0 = p at hp
    have hpl : p < n * n' := by omega
    have hj : p / n' < n := (Nat.div_lt_iff_lt_mul hn').2 hpl
    have h := balance_says (w := fun _ => 0) (b := fun c => if c = 0 then 1 else 0) (v := fun c => if c = p then 1 else 0) (x := fun _ => 0) hf hk hd
      (fun _ => le_rfl) (unit_nonneg 0) (unit_nonneg p) (fun _ => le_rfl) hm hn' hj fun θ y => zero _ hj _ θ y
    rw [Finset.sum_eq_zero, Finset.sum_eq_single 0] at h
    · simp [hP] at h
    · intro jj _ hjj
      simp [hjj]
    · exact fun h => absurd (Finset.mem_range.2 hn) h
    · intro jj _
      by_cases h1 : jj * n' + 0 = p
      · have : p / n' ≠ 0 := by
          rw [← h1, Nat.add_zero, Nat.mul_div_cancel _ hn']
          rintro rfl
          omega
        simp [this]
      · rw [if_neg h1, mul_zero]
  have hv0 : ∀ jj, jj ≠ 0 → ¬ jj * n' + 0 = 0 := fun jj hjj h => by
    rcases Nat.mul_eq_zero.1 h with h | h <;> omega
  have hmn : m * n ≤ 32 := by
    by_contra hS
    have hS : 32 < m * n := not_le.1 hS
    have hp := first _ hS
    generalize hP : shuffle (m * n) 0 = p at hp
    have hpl : p < m * n := by omega
    by_cases hrow : p / n = 0
    · have h := balance_says (w := fun _ => 0) (b := fun c => if c = 0 then 1 else 0) (v := fun c => if c = 0 then 1 else 0) (x := fun _ => 0) hf hk hd
        (fun _ => le_rfl) (unit_nonneg 0) (unit_nonneg 0) (fun _ => le_rfl) hm hn' hn fun θ y => zero _ hn _ θ y
      have hpn : p % n ≠ 0 := by
        have := Nat.div_add_mod p n
        rw [hrow] at this
        omega
      rw [Finset.sum_eq_single 0, Finset.sum_eq_single 0] at h
      · simp [hP, hpn, shuffle_small hnn (Nat.mul_pos hn hn')] at h
      · intro jj _ hjj
        simp [hjj]
      · exact fun h => absurd (Finset.mem_range.2 hn) h
      · intro jj _ hjj
        rw [if_neg (hv0 jj hjj), mul_zero]
      · exact fun h => absurd (Finset.mem_range.2 hn) h
    · have hSl := shuffle_lt (show p % n < lastWidth k pre * n from (Nat.mod_lt p hn).trans_le (Nat.le_mul_of_pos_left n hK))
      generalize hSe : shuffle (lastWidth k pre * n) (p % n) = s at hSl
      have hj := Nat.mod_lt s hn
      have h := balance_says (w := fun c => if c = s then 1 else 0) (b := fun _ => 0) (v := fun c => if c = 0 then 1 else 0)
        (x := fun i => if i = p / n then 1 else 0) hf hk hd (unit_nonneg s) (fun _ => le_rfl) (unit_nonneg 0) (unit_nonneg _) hm hn' hj
        fun θ y => zero _ hj _ θ y
      rw [Finset.sum_eq_single 0, Finset.sum_eq_zero] at h
      · have := pathFn_pos pre one_pos
        simp [hP, hSe] at h
        exact this.ne' h
      · intro jj _
        rw [if_neg (Ne.symm hrow), pathFn_zero, zero_mul, add_zero, zero_mul]
      · intro jj _ hjj
        rw [if_neg (hv0 jj hjj), mul_zero]
      · exact fun h => absurd (Finset.mem_range.2 hn) h
  refine ⟨?_, hmn, hnn⟩
  by_contra hS
  have hS : 32 < lastWidth k pre * n := not_le.1 hS
  have hp := first _ hS
  generalize hP : shuffle (lastWidth k pre * n) 0 = p at hp
  have hj := Nat.mod_lt p hn
  have h := balance_says (w := fun c => if c = p then 1 else 0) (b := fun _ => 0) (v := fun c => if c = 0 then 1 else 0) (x := fun _ => 1) hf hk hd
    (unit_nonneg p) (fun _ => le_rfl) (unit_nonneg 0) (fun _ => zero_le_one) hm hn' hj fun θ y => zero _ hj _ θ y
  rw [Finset.sum_eq_single 0, Finset.sum_eq_zero] at h
  · have := pathFn_pos pre one_pos
    simp [shuffle_small hmn (Nat.mul_pos hm hn), hP] at h
    exact this.ne' h
  · intro jj hjj
    rw [Finset.mem_range] at hjj
    by_cases h0 : jj = 0
    · subst h0
      have : ¬ 0 = p := by omega
      simp [this]
    · rw [shuffle_small hnn (mul_add_lt hjj hn'), if_neg (hv0 jj h0)]
      simp
  · intro jj _ hjj
    rw [if_neg (hv0 jj hjj), mul_zero]
  · exact fun h => absurd (Finset.mem_range.2 hn) h

/-- C89, test: 100 inputs, layers of 50, 4, 3 and 200 units: the units of the layer of width 4 stay balanced if there are up to 8 rows. The layer
before it has 50 units, so its weights are 200; with 8 units they are 32. -/
example : ¬ (lastWidth 100 [(50, .relu)] * 4 ≤ 32 ∧ 8 * 4 ≤ 32 ∧ 4 * 3 ≤ 32) ∧ (lastWidth 100 [(8, .relu)] * 4 ≤ 32 ∧ 8 * 4 ≤ 32 ∧ 4 * 3 ≤ 32) := by decide

/-- C89, test: the hypotheses of `C89_wide_partial`, in a network with 100 inputs and 200 outputs. -/
example (a b θ : Nat → Nat → ℝ) (lr : ℝ) : ∃ h mlp h' mlp' θ', Training h mlp 0 1 8 100 [(8, .tanh), (4, .relu), (3, .tanh), (200, .identity)] a b θ ∧
    trainStep mlp h 0 1 lr = .ok (h', mlp') ∧ NetIs h' mlp' 100 [(8, .tanh), (4, .relu), (3, .tanh), (200, .identity)] θ' ∧
      inDot 8 2 4 1 θ (θ' - θ) = outDot 2 3 1 θ (θ' - θ) := by
  have ht := training_exists 8 100 [(8, .tanh), (4, .relu), (3, .tanh), (200, .identity)] a b θ (by omega) (by omega) (by simp)
  obtain ⟨h', mlp', θ', e, net, hd⟩ := C89_wide_partial _ _ 0 1 8 100 4 3 .relu .tanh [(8, .tanh)] [(200, .identity)] a b θ lr 1 (by simp) ht (by omega)
    (by simp [lastWidth]) (by omega) (by omega)
  exact ⟨_, _, h', mlp', θ', ht, e, net, by simpa [lastWidth] using hd⟩

end RL
