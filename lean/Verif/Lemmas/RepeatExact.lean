import Verif.Lemmas.RepeatWide
import Verif.Lemmas.Feature

/-!
# Lemmas: exactly when repeated rows change nothing (C111)
-/

namespace RL

open Spec

variable {m k n r : Nat} {θ δ : Nat → Nat → ℝ}

/-- the sizes for which the shuffle of `r` copies is the shuffle of each -/
abbrev Repeats (r N : Nat) : Prop := r * N ≤ 32 ∨ r = 1 ∨ N ∣ 32 ∨ 32 ∣ N

theorem repeats_not {r N : Nat} (hr : 0 < r) (hN : 0 < N) (h : ¬ Repeats r N) : 2 ≤ r ∧ shuffle (r * N) N % N ≠ shuffle N 0 := by
  simp only [Repeats, not_or] at h
  obtain ⟨h1, h2, h3, h4⟩ := h
  have hr2 : 2 ≤ r := by omega
  refine ⟨hr2, ?_⟩
  obtain ⟨s, rfl⟩ : ∃ s, r = s + 2 := ⟨r - 2, by omega⟩
  have hrN : (s + 2) * N = N * s + 2 * N := by ring
  have h5 : N % 32 ≠ 0 := fun h => h4 (Nat.dvd_of_mod_eq_zero h)
  obtain ⟨x, hx⟩ : ∃ x, x = N * s := ⟨_, rfl⟩
  rw [hrN] at h1 ⊢
  rcases Nat.lt_or_ge N 32 with h6 | h6
  · have e0 : shuffle N 0 = 0 := shuffle_small (by omega) hN
    have e1 : shuffle (N * s + 2 * N) N = N * s + 2 * N - 32 + N := by
      rw [← hx] at h1 ⊢
      unfold shuffle
      omega
    rw [e0, e1]
    intro h
    have h7 : N ∣ N * s + 2 * N - 32 + N := Nat.dvd_of_mod_eq_zero h
    have h8 : N ∣ (N * s + 2 * N - 32 + N) + 32 := ⟨s + 3, by rw [show N * (s + 3) = N * s + 2 * N + N by ring]; omega⟩
    exact h3 ((Nat.dvd_add_right h7).1 h8)
  · have e0 : shuffle N 0 = N - 32 := by
      unfold shuffle
      omega
    have e1 : shuffle (N * s + 2 * N) N = N * s + (N + 2 * (N % 32) - 32) := by
      rw [← hx]
      unfold shuffle
      omega
    rw [e0, e1, Nat.mul_add_mod]
    rcases Nat.lt_or_ge (N + 2 * (N % 32) - 32) N with h7 | h7
    · rw [Nat.mod_eq_of_lt h7]
      omega
    · rw [Nat.mod_eq_sub_mod h7, Nat.mod_eq_of_lt (by omega)]
      omega

/-- the sum over the copies of a row -/
noncomputable def fold (r m : Nat) (d : Nat → Nat → ℝ) : Nat → Nat → ℝ := fun i j => ∑ t ∈ Finset.range r, d (t * m + i) j

theorem shuffledMat_fold (h : Repeats r (m * k)) (d : Nat → Nat → ℝ) {i j : Nat} (hi : i < m) (hj : j < k) :
    fold r m (shuffledMat (r * m) k d) i j = shuffledMat m k (fold r m d) i j := by
  have hk : 0 < k := by omega
  have hp : i * k + j < m * k := mul_add_lt hi hj
  have hN : 0 < m * k := by omega
  have hx : ∀ t < r, t * (m * k) + (i * k + j) < r * (m * k) := fun t ht => mul_add_lt ht hp
  have hs : ∀ t < r, shuffle (r * (m * k)) (t * (m * k) + (i * k + j)) % (m * k) = shuffle (m * k) (i * k + j) := by
    intro t ht
    rw [shuffle_repeat h (hx t ht), Nat.mul_comm t, Nat.mul_add_mod, Nat.mod_eq_of_lt hp]
  simp only [fold, shuffledMat]
  refine Finset.sum_nbij (fun t => shuffle (r * (m * k)) (t * (m * k) + (i * k + j)) / (m * k)) (fun t ht => ?_) (fun t ht u hu e => ?_) (fun u hu => ?_)
    (fun t ht => ?_)
  · rw [Finset.mem_range] at ht ⊢
    exact (Nat.div_lt_iff_lt_mul hN).2 (shuffle_lt (hx t ht))
  · have ht := Finset.mem_range.1 ht
    have hu := Finset.mem_range.1 hu
    have e2 : shuffle (r * (m * k)) (t * (m * k) + (i * k + j)) = shuffle (r * (m * k)) (u * (m * k) + (i * k + j)) := by
      rw [← Nat.div_add_mod (shuffle (r * (m * k)) (t * (m * k) + (i * k + j))) (m * k), ← Nat.div_add_mod (shuffle (r * (m * k)) (u * (m * k) + (i * k + j))) (m * k),
        hs t ht, hs u hu]
      exact congrArg (fun x => m * k * x + _) e
    have e3 := segPos_inj (hx t ht) (hx u hu) e2
    exact Nat.eq_of_mul_eq_mul_right hN (Nat.add_right_cancel e3)
  · have hu := Finset.mem_range.1 hu
    obtain ⟨y, hy, ey⟩ := shuffle_surj (len := r * (m * k)) (c := u * (m * k) + shuffle (m * k) (i * k + j)) (mul_add_lt hu (shuffle_lt hp))
    have hyd : y / (m * k) < r := (Nat.div_lt_iff_lt_mul hN).2 hy
    have e1 := shuffle_repeat h hy
    rw [ey, Nat.mul_comm u, Nat.mul_add_mod, Nat.mod_eq_of_lt (shuffle_lt hp)] at e1
    have e2 := segPos_inj hp (Nat.mod_lt _ hN) e1
    refine ⟨y / (m * k), Finset.mem_coe.2 (Finset.mem_range.2 hyd), ?_⟩
    simp only
    rw [e2, Nat.div_add_mod', ey, Nat.mul_comm u, Nat.mul_add_div hN, Nat.div_eq_of_lt, Nat.add_zero]
    exact shuffle_lt hp
  · have ht := Finset.mem_range.1 ht
    have e1 := Nat.div_add_mod (shuffle (r * (m * k)) (t * (m * k) + (i * k + j))) (m * k)
    rw [hs t ht] at e1
    rw [show (t * m + i) * k + j = t * (m * k) + (i * k + j) by ring, Nat.mul_assoc r m k]
    generalize shuffle (r * (m * k)) (t * (m * k) + (i * k + j)) / (m * k) = u at e1 ⊢
    rw [← e1, show m * k * u = k * (u * m) by ring, Nat.mul_add_div hk, Nat.mul_add_mod]

/-- a layer for which all is 0 but the tangent -/
noncomputable def through (θ : Nat → Nat → ℝ) (k n q : Nat) (e : Nat → Nat → ℝ) : Nat → Nat → ℝ := fun i j => ∑ kk ∈ Finset.range k, e i kk * θ q (kk * n + j)

theorem netTangent_dead {M : Nat} {f : Act} {q : Nat} (ds : List (Nat × Act)) (hδ : ∀ p, q ≤ p → ∀ c, δ p c = 0) (hθ : ∀ c, θ (q + 1) c = 0)
    (d : Nat → Nat → ℝ) : netTangent M θ δ k q ((n, f) :: ds) (fun _ _ => 0) d =
      netTangent M θ δ n (q + 2) ds (fun _ _ => 0) (through θ k n q (shuffledMat M k d)) := by
  simp only [netTangent]
  have hz : ∀ i j, affine k (fun _ _ => 0) (fun i j => θ q (i * n + j)) (θ (q + 1)) i j = 0 := by
    intro i j
    rw [affine_sum, hθ]
    simp
  simp only [hz, f.fn_zero, f.slope_zero, one_mul, zero_mul, add_zero, hδ (q + 1) (by omega)]
  rfl

theorem netTangent_linear {M : Nat} (c : ℝ) : ∀ (ds : List (Nat × Act)) (k q : Nat) (d e : Nat → Nat → ℝ), q % 2 = 0 → (∀ p, q ≤ p → ∀ c, δ p c = 0) →
    (∀ p, q ≤ p → p % 2 = 1 → ∀ c, θ p c = 0) → ∀ i j, netTangent M θ δ k q ds (fun _ _ => 0) (fun i j => d i j - c * e i j) i j =
      netTangent M θ δ k q ds (fun _ _ => 0) d i j - c * netTangent M θ δ k q ds (fun _ _ => 0) e i j := by
  intro ds
  induction ds with
  | nil => intros; rfl
  | cons x ds ih =>
    obtain ⟨n, f⟩ := x
    intro k q d e hq hδ hθ i j
    have hθ1 := hθ (q + 1) (by omega) (by omega)
    rw [netTangent_dead ds hδ hθ1, netTangent_dead ds hδ hθ1, netTangent_dead ds hδ hθ1,
      ← ih n (q + 2) _ _ (by omega) (fun p hp => hδ p (by omega)) (fun p hp => hθ p (by omega))]
    congr 1
    funext i j
    simp only [through, shuffledMat, Finset.mul_sum, ← Finset.sum_sub_distrib]
    exact Finset.sum_congr rfl fun _ _ => by ring

theorem netTangent_fold : ∀ (ds : List (Nat × Act)) (k q : Nat) (g : Act) (d : Nat → Nat → ℝ), q % 2 = 0 → (∀ p, q ≤ p → ∀ c, δ p c = 0) →
    (∀ p, q ≤ p → p % 2 = 1 → ∀ c, θ p c = 0) → (∀ d ∈ ((k, g) :: ds).dropLast, Repeats r (m * d.1)) → ∀ i < m, ∀ j < lastWidth k ds,
    fold r m (netTangent (r * m) θ δ k q ds (fun _ _ => 0) d) i j = netTangent m θ δ k q ds (fun _ _ => 0) (fold r m d) i j := by
  intro ds
  induction ds with
  | nil => intros; rfl
  | cons x ds ih =>
    obtain ⟨n, f⟩ := x
    intro k q g d hq hδ hθ hS i hi j hj
    have hθ1 := hθ (q + 1) (by omega) (by omega)
    rw [List.dropLast_cons₂] at hS
    rw [netTangent_dead ds hδ hθ1, netTangent_dead ds hδ hθ1, ih n (q + 2) f _ (by omega) (fun p hp => hδ p (by omega)) (fun p hp => hθ p (by omega))
      (fun d hd => hS d (List.mem_cons_of_mem _ hd)) i hi j hj]
    refine netTangent_congr m θ _ _ ds n (q + 2) _ _ _ (fun _ _ => rfl) (fun i hi j _ => ?_) i hi j hj
    rw [fold]
    simp only [through]
    rw [Finset.sum_comm]
    refine Finset.sum_congr rfl fun kk hkk => ?_
    rw [← Finset.sum_mul, ← shuffledMat_fold (hS (k, g) List.mem_cons_self) d hi (Finset.mem_range.1 hkk)]
    rfl

/-- for suitable weights a tangent that is not 0 gets through -/
theorem through_ne : ∀ (ds : List (Nat × Act)) (k n q : Nat) (e : Nat → Nat → ℝ), q % 2 = 0 → 0 < n → (∀ d ∈ ds, 0 < d.1) →
    (∃ i < m, ∃ c < k, e i c ≠ 0) → ∃ θ : Nat → Nat → ℝ, (∀ p, p % 2 = 1 → ∀ c, θ p c = 0) ∧ ∀ δ : Nat → Nat → ℝ, (∀ p, q ≤ p → ∀ c, δ p c = 0) →
      ∃ i < m, ∃ j < lastWidth n ds, netTangent m θ δ n (q + 2) ds (fun _ _ => 0) (through θ k n q e) i j ≠ 0 := by
  intro ds
  induction ds with
  | nil =>
    intro k n q e hq hn _ ⟨i, hi, c, hc, hne⟩
    refine ⟨fun p x => if p = q ∧ x / n = c then 1 else 0, fun p hp x => if_neg (by omega), fun δ _ => ⟨i, hi, 0, hn, ?_⟩⟩
    simp only [netTangent, through, Nat.add_zero, Nat.mul_div_cancel _ hn, true_and]
    rw [Finset.sum_eq_single c (fun kk _ h => by simp [h]) (fun h => absurd (Finset.mem_range.2 hc) h)]
    simpa using hne
  | cons x ds ih =>
    obtain ⟨n', f⟩ := x
    intro k n q e hq hn hd ⟨i, hi, c, hc, hne⟩
    obtain ⟨E, hE⟩ : ∃ E : Nat → Nat → ℝ, E = fun i j => ∑ kk ∈ Finset.range k, e i kk * if (kk * n + j) / n = c then 1 else 0 := ⟨_, rfl⟩
    have hE0 : E i 0 ≠ 0 := by
      rw [hE]
      simp only [Nat.add_zero, Nat.mul_div_cancel _ hn]
      rw [Finset.sum_eq_single c (fun kk _ h => by simp [h]) (fun h => absurd (Finset.mem_range.2 hc) h)]
      simpa using hne
    obtain ⟨p, hp, ep⟩ := shuffle_surj (len := m * n) (c := i * n + 0) (mul_add_lt hi hn)
    obtain ⟨θ', h1, h2⟩ := ih n n' (q + 2) (shuffledMat m n E) (by omega) (hd _ List.mem_cons_self) (fun d h => hd d (List.mem_cons_of_mem _ h))
      ⟨p / n, (Nat.div_lt_iff_lt_mul hn).2 hp, p % n, Nat.mod_lt _ hn, by
        rw [shuffledMat, Nat.div_add_mod', ep, Nat.add_zero, Nat.mul_div_cancel _ hn, Nat.mul_mod_left]
        exact hE0⟩
    refine ⟨fun p x => if p = q then (if x / n = c then 1 else 0) else θ' p x, fun p hp x => ?_, fun δ hδ => ?_⟩
    · simp only
      rw [if_neg (by omega), h1 p hp]
    · obtain ⟨i', hi', j', hj', hne'⟩ := h2 δ fun p hp => hδ p (by omega)
      refine ⟨i', hi', j', hj', fun h => hne' ?_⟩
      rw [netTangent_dead (q := q + 2) ds (fun p hp => hδ p (by omega)) (fun c => by rw [if_neg (by omega), h1 _ (by omega)])] at h
      refine (netTangent_ext ds n' (q + 2 + 2) _ _ _ _ (fun p hp => ?_) (fun _ _ => rfl) (fun _ _ _ _ => rfl) (fun i _ j _ => ?_) i' hi' j' hj').trans h
      · have := coords_ge ds _ _ p hp
        rw [if_neg (by omega)]
      · simp only [through, shuffledMat]
        refine Finset.sum_congr rfl fun kk _ => ?_
        rw [if_neg (show ¬ q + 2 = q by omega), hE]
        simp

theorem feed_of : ∀ (pre : List (Nat × Act)) (q : Nat), q % 2 = 0 → (∀ p, q ≤ p → p < q + 2 * pre.length → ∀ c, θ p c = if p % 2 = 0 ∧ c = 0 then 1 else 0) →
    Feed θ q pre
  | [], _, _, _ => trivial
  | _ :: pre, q, hq, h => by
    refine ⟨fun c => ?_, fun c => ?_, feed_of pre (q + 2) (by omega) fun p h1 h2 => h p (by omega) (by simp only [List.length_cons]; omega)⟩
    · rw [h q (by omega) (by simp only [List.length_cons]; omega)]
      simp [hq]
    · rw [h (q + 1) (by omega) (by simp only [List.length_cons]; omega), if_neg (by omega)]

theorem netValue_dead : ∀ (ds : List (Nat × Act)) (k q : Nat), q % 2 = 0 → (∀ p, q ≤ p → p % 2 = 1 → ∀ c, θ p c = 0) → ∀ i j,
    netValue k (layerFns θ q ds) (fun _ _ => 0) i j = 0
  | [], _, _, _, _, _, _ => rfl
  | (n, f) :: ds, k, q, hq, h, i, j => by
    have hz : ∀ i j, affine k (fun _ _ => 0) (fun i j => θ q (i * n + j)) (θ (q + 1)) i j = 0 := by
      intro i j
      rw [affine_sum, h _ (by omega) (by omega)]
      simp
    simp only [layerFns, netValue, hz, f.fn_zero]
    exact netValue_dead ds n (q + 2) (by omega) (fun p hp => h p (by omega)) i j

/-- what a step takes for a weight of a layer behind which all values are 0 -/
theorem lossTangent_behind {M : Nat} {f : Act} {pre rest : List (Nat × Act)} (hf : Feed θ 0 pre) (hw : ∀ c, θ (2 * pre.length) c = 0)
    (hb : ∀ p, 2 * pre.length ≤ p → p % 2 = 1 → ∀ c, θ p c = 0) (hk : 0 < k) (hd : ∀ d ∈ pre ++ (n, f) :: rest, 0 < d.1) {c : Nat} (hc : c < n) (x : Nat → ℝ)
    (y : Nat → Nat → ℝ) : lossTangent M k (pre ++ (n, f) :: rest) (onPath x) y θ (unit (2 * pre.length) (shuffle (lastWidth k pre * n) c)) =
      ∑ i ∈ Finset.range M, ∑ j ∈ Finset.range (lastWidth n rest), (if 0 < y i j then -1 else 1) *
        netTangent M θ (fun _ _ => 0) n (2 * pre.length + 2) rest (fun _ _ => 0) (fun i j => if j = c then pathFn pre (x i) else 0) i j := by
  have hn : 0 < n := hd (n, f) (by simp)
  have hpre : ∀ d ∈ pre, 0 < d.1 := fun d h => hd d (by simp [h])
  have hwid := lastWidth_pos pre _ hk hpre
  obtain ⟨t1, t2⟩ := feed_before (m := M) ((n, f) :: rest) (unit (2 * pre.length) (shuffle (lastWidth k pre * n) c)) pre k 0
    x hf hk hpre (fun p hp c => by
      simp only [unit]
      rw [if_neg (by omega)])
  rw [Nat.zero_add] at t1 t2
  have hz : ∀ i j, affine (lastWidth k pre) (onPath fun i => pathFn pre (x i)) (fun i j => θ (2 * pre.length) (i * n + j))
      (θ (2 * pre.length + 1)) i j = 0 := by
    intro i j
    rw [affine_sum, hb _ (by omega) (by omega), add_zero]
    exact Finset.sum_eq_zero fun kk _ => by rw [hw, mul_zero]
  have hV : ∀ i j, netValue k (layerFns θ 0 (pre ++ (n, f) :: rest)) (onPath x) i j = 0 := by
    intro i j
    rw [t2]
    simp only [layerFns, netValue, hz, f.fn_zero]
    exact netValue_dead rest n _ (by omega) (fun p hp => hb p (by omega)) i j
  have hl : lastWidth k (pre ++ (n, f) :: rest) = lastWidth n rest := lastWidth_append _ pre k
  rw [lossTangent, hl]
  refine Finset.sum_congr rfl fun i hi => Finset.sum_congr rfl fun j hj => ?_
  rw [hV, t1]
  congr 1
  simp only [netTangent, hz, f.fn_zero, f.slope_zero, one_mul]
  refine netTangent_congr M θ _ _ rest n (2 * pre.length + 2) _ _ _ (fun p hp => ?_) (fun i hi j hj => ?_) i (Finset.mem_range.1 hi) j (Finset.mem_range.1 hj)
  · have := coords_ge rest _ _ p hp
    simp only [unit]
    rw [if_neg (by omega)]
  · rw [Finset.sum_eq_single 0]
    · simp only [onPath, shuffledMat, unit, Nat.div_add_mod', if_true, true_and, Nat.zero_mul, Nat.zero_add]
      rw [if_neg (show ¬ (2 * pre.length + 1 = 2 * pre.length ∧ j = shuffle (lastWidth k pre * n) c) by omega), add_zero, zero_mul, zero_add]
      have hlt : ∀ j < n, j < lastWidth k pre * n := by
        intro j hj
        nlinarith
      by_cases h2 : j = c
      · simp [h2]
      · have hsc : shuffle (lastWidth k pre * n) j ≠ shuffle (lastWidth k pre * n) c := fun h => h2 (segPos_inj (hlt j hj) (hlt c hc) h)
        simp [h2, hsc]
    · intro kk _ hkk
      simp [onPath, hkk, shuffledMat]
    · simp [hwid]

/-- sums over the rows of all copies -/
theorem sum_copies (F : Nat → ℝ) (m : Nat) : ∀ r, ∑ i ∈ Finset.range (r * m), F i = ∑ i ∈ Finset.range m, ∑ t ∈ Finset.range r, F (t * m + i)
  | 0 => by simp
  | r + 1 => by
    rw [Nat.add_mul, Nat.one_mul, Finset.sum_range_add, sum_copies F m r, ← Finset.sum_add_distrib]
    exact Finset.sum_congr rfl fun i _ => (Finset.sum_range_succ _ _).symm

/-- sums that are 0 whatever the signs -/
theorem flip_zero {l : Nat} {X : Nat → Nat → ℝ} (h : ∀ y : Nat → Nat → ℝ, 0 = ∑ i ∈ Finset.range m, ∑ j ∈ Finset.range l, (if 0 < y i j then -1 else 1) * X i j)
    {i₀ j₀ : Nat} (hi₀ : i₀ < m) (hj₀ : j₀ < l) : X i₀ j₀ = 0 := by
  have k1 := h fun _ _ => 0
  have k2 := h fun i j => if i = i₀ ∧ j = j₀ then 1 else 0
  have k3 : ∑ i ∈ Finset.range m, ∑ j ∈ Finset.range l, (if i = i₀ ∧ j = j₀ then 2 * X i j else 0) = 0 := by
    refine Eq.trans ?_ (sub_eq_zero.2 (k1.symm.trans k2))
    rw [← Finset.sum_sub_distrib]
    refine Finset.sum_congr rfl fun i _ => ?_
    rw [← Finset.sum_sub_distrib]
    refine Finset.sum_congr rfl fun j _ => ?_
    by_cases h : i = i₀ ∧ j = j₀
    · simp [h]
      ring
    · simp [h]
  rw [Finset.sum_eq_single_of_mem i₀ (Finset.mem_range.2 hi₀) (fun i _ h => Finset.sum_eq_zero fun j _ => if_neg fun h' => h h'.1),
    Finset.sum_eq_single_of_mem j₀ (Finset.mem_range.2 hj₀) (fun j _ h => if_neg fun h' => h h'.2), if_pos ⟨rfl, rfl⟩] at k3
  linarith

/-- a network and data for which the slopes of the loss differ by another factor than `r` -/
theorem repeat_differs {f : Act} {pre rest : List (Nat × Act)} (hm : 0 < m) (hr : 0 < r) (hk : 0 < k) (hd : ∀ d ∈ pre ++ (n, f) :: rest, 0 < d.1) (hne : rest ≠ [])
    (hN : ¬ Repeats r (m * n)) (hS : ∀ d ∈ rest.dropLast, Repeats r (m * d.1)) : ∃ (a y θ : Nat → Nat → ℝ) (c : Nat), c < lastWidth k pre * n ∧
      lossTangent (r * m) k (pre ++ (n, f) :: rest) (fun i => a (i % m)) (fun i => y (i % m)) θ (unit (2 * pre.length) c) ≠
        r * lossTangent m k (pre ++ (n, f) :: rest) a y θ (unit (2 * pre.length) c) := by
  have hn : 0 < n := hd (n, f) (by simp)
  have hmn : 0 < m * n := Nat.mul_pos hm hn
  obtain ⟨hr2, hsh⟩ := repeats_not hr hmn hN
  obtain ⟨s, hs⟩ : ∃ s, s = shuffle (r * (m * n)) (m * n) % (m * n) := ⟨_, rfl⟩
  rw [← hs] at hsh
  have hslt : s < m * n := hs ▸ Nat.mod_lt _ hmn
  have hwid := lastWidth_pos pre _ hk fun d h => hd d (by simp [h])
  cases rest with
  | nil => exact absurd rfl hne
  | cons e rest =>
  obtain ⟨n', g⟩ := e
  have hn' : 0 < n' := hd (n', g) (by simp)
  have hrest : ∀ d ∈ rest, 0 < d.1 := fun d h => hd d (by simp [h])
  -- only the row of element `s` has an input
  obtain ⟨x, hx⟩ : ∃ x : Nat → ℝ, x = fun i => if i = s / n then 1 else 0 := ⟨_, rfl⟩
  obtain ⟨w, hw⟩ : ∃ w : ℝ, w = pathFn pre 1 := ⟨_, rfl⟩
  have hw0 : 0 < w := hw ▸ pathFn_pos pre one_pos
  have hxi : ∀ i, pathFn pre (x i) = if i = s / n then w else 0 := by
    intro i
    rw [hx, hw]
    by_cases h : i = s / n
    · simp [h]
    · simp [h, pathFn_zero]
  obtain ⟨D, hD⟩ : ∃ D : Nat → Nat → ℝ, D = fun i j => if j = s % n then pathFn pre (x i) else 0 := ⟨_, rfl⟩
  have hDs : ∀ u, D (u / n) (u % n) = if u = s then w else 0 := by
    intro u
    rw [hD]
    simp only [hxi]
    by_cases h : u = s
    · simp [h]
    · by_cases h1 : u % n = s % n
      · have h2 : u / n ≠ s / n := fun h2 => h (by rw [← Nat.div_add_mod u n, ← Nat.div_add_mod s n, h1, h2])
        simp [h, h2]
      · simp [h, h1]
  obtain ⟨e, he⟩ : ∃ e : Nat → Nat → ℝ, e = fun i j => fold r m (shuffledMat (r * m) n fun i => D (i % m)) i j - r * shuffledMat m n D i j := ⟨_, rfl⟩
  have he0 : e 0 0 ≠ 0 := by
    have h1 : shuffledMat m n D 0 0 = 0 := by
      rw [shuffledMat, Nat.zero_mul, Nat.zero_add, hDs, if_neg (Ne.symm hsh)]
    have h2 : ∀ t, shuffledMat (r * m) n (fun i => D (i % m)) (t * m + 0) 0 = if shuffle (r * (m * n)) (t * (m * n)) % (m * n) = s then w else 0 := by
      intro t
      rw [← hDs, shuffledMat, Nat.add_zero, Nat.add_zero, Nat.mul_assoc, Nat.mul_assoc, Nat.mod_mod_of_dvd _ (Dvd.intro_left m rfl), Nat.mul_comm m n,
        Nat.mod_mul_right_div_self]
    rw [he]
    simp only [h1, mul_zero, sub_zero, fold, h2]
    refine ne_of_gt (Finset.sum_pos' (fun t _ => ?_) ⟨1, Finset.mem_range.2 (by omega), ?_⟩)
    · split
      · exact hw0.le
      · exact le_rfl
    · rw [Nat.one_mul, ← hs, if_pos rfl]
      exact hw0
  obtain ⟨θ', hθ', H⟩ := through_ne (m := m) rest n n' (2 * pre.length + 2) e (by omega) hn' hrest ⟨0, hm, 0, hn, he0⟩
  obtain ⟨i₀, hi₀, j₀, hj₀, hX⟩ := H (fun _ _ => 0) fun _ _ _ => rfl
  obtain ⟨θ, hθ⟩ : ∃ θ : Nat → Nat → ℝ, θ = fun p c => if p < 2 * pre.length then (if p % 2 = 0 ∧ c = 0 then 1 else 0) else
    if p = 2 * pre.length then 0 else θ' p c := ⟨_, rfl⟩
  have hf : Feed θ 0 pre := feed_of pre 0 (by omega) fun p _ hp c => by
    rw [hθ]
    simp only
    rw [if_pos (by omega)]
  have hbig : ∀ p, 2 * pre.length + 1 ≤ p → ∀ c, θ p c = θ' p c := by
    intro p hp c
    rw [hθ]
    simp only
    rw [if_neg (by omega), if_neg (by omega)]
  have hwt : ∀ c, θ (2 * pre.length) c = 0 := by
    intro c
    rw [hθ]
    simp
  have hb : ∀ p, 2 * pre.length ≤ p → p % 2 = 1 → ∀ c, θ p c = 0 := fun p hp h c => by rw [hbig p (by omega), hθ' p h]
  obtain ⟨X, hXd⟩ : ∃ X : Nat → Nat → ℝ, X = netTangent m θ (fun _ _ => 0) n' (2 * pre.length + 2 + 2) rest (fun _ _ => 0)
    (through θ n n' (2 * pre.length + 2) e) := ⟨_, rfl⟩
  have hX0 : X i₀ j₀ ≠ 0 := by
    rw [hXd]
    refine fun h => hX (Eq.trans ?_ h)
    refine netTangent_ext rest n' _ _ _ _ _ (fun p hp => ?_) (fun _ _ => rfl) (fun _ _ _ _ => rfl) (fun i _ j _ => ?_) i₀ hi₀ j₀ hj₀
    · have := coords_ge rest _ _ p hp
      rw [hbig _ (by omega)]
    · simp only [through]
      exact Finset.sum_congr rfl fun kk _ => by rw [hbig _ (by omega)]
  -- the difference of the slopes
  have key : ∀ y : Nat → Nat → ℝ, lossTangent (r * m) k (pre ++ (n, f) :: (n', g) :: rest) (fun i => onPath x (i % m)) (fun i => y (i % m)) θ
        (unit (2 * pre.length) (shuffle (lastWidth k pre * n) (s % n))) -
      r * lossTangent m k (pre ++ (n, f) :: (n', g) :: rest) (onPath x) y θ (unit (2 * pre.length) (shuffle (lastWidth k pre * n) (s % n))) =
      ∑ i ∈ Finset.range m, ∑ j ∈ Finset.range (lastWidth n' rest), (if 0 < y i j then -1 else 1) * X i j := by
    intro y
    have hsn : s % n < n := Nat.mod_lt _ hn
    have e1 := lossTangent_behind (M := r * m) (rest := (n', g) :: rest) hf hwt hb hk hd hsn (fun i => x (i % m)) (fun i => y (i % m))
    have e2 := lossTangent_behind (M := m) (rest := (n', g) :: rest) hf hwt hb hk hd hsn x y
    have hb1 : ∀ c, θ (2 * pre.length + 2 + 1) c = 0 := hb _ (by omega) (by omega)
    rw [netTangent_dead rest (fun _ _ _ => rfl) hb1] at e1 e2
    rw [show (fun i => onPath x (i % m)) = onPath fun i => x (i % m) from rfl, e1, e2, sum_copies, Finset.mul_sum, ← Finset.sum_sub_distrib]
    refine Finset.sum_congr rfl fun i hi => ?_
    rw [Finset.sum_comm, Finset.mul_sum, ← Finset.sum_sub_distrib]
    refine Finset.sum_congr rfl fun j hj => ?_
    rw [Finset.mem_range] at hi hj
    have hmod : ∀ t, (t * m + i) % m = i := fun t => by rw [Nat.mul_comm, Nat.mul_add_mod, Nat.mod_eq_of_lt hi]
    simp only [hmod]
    rw [← Finset.mul_sum]
    have e3 := netTangent_fold (r := r) (m := m) (θ := θ) (δ := fun _ _ => 0) rest n' (2 * pre.length + 2 + 2) g
      (through θ n n' (2 * pre.length + 2) (shuffledMat (r * m) n fun i => D (i % m))) (by omega) (fun _ _ _ => rfl) (fun p hp => hb p (by omega)) hS i hi j hj
    rw [fold] at e3
    rw [hD] at e3
    rw [e3]
    have e4 : through θ n n' (2 * pre.length + 2) e = fun i j =>
        fold r m (through θ n n' (2 * pre.length + 2) (shuffledMat (r * m) n fun i => D (i % m))) i j - r * through θ n n' (2 * pre.length + 2) (shuffledMat m n D) i j := by
      funext i j
      rw [he, fold]
      simp only [through, fold]
      rw [Finset.sum_comm, Finset.mul_sum, ← Finset.sum_sub_distrib]
      refine Finset.sum_congr rfl fun kk _ => ?_
      rw [← Finset.sum_mul]
      ring
    rw [hXd, e4, netTangent_linear _ rest n' _ _ _ (by omega) (fun _ _ _ => rfl) (fun p hp => hb p (by omega)), hD]
    ring
  by_contra hall
  push Not at hall
  have hc : shuffle (lastWidth k pre * n) (s % n) < lastWidth k pre * n := shuffle_lt (by
    have := Nat.mod_lt s hn
    nlinarith)
  have zero : ∀ y : Nat → Nat → ℝ, 0 = ∑ i ∈ Finset.range m, ∑ j ∈ Finset.range (lastWidth n' rest), (if 0 < y i j then -1 else 1) * X i j := by
    intro y
    rw [← key y, hall (onPath x) y θ _ hc, sub_self]
  exact hX0 (flip_zero zero hi₀ hj₀)

end RL
