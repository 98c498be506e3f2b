import Verif.SpecConverge
import Verif.Lemmas.Descent
import Verif.Props.Train

/-!
# Convergence of training: lemmas
-/

namespace RL

open Spec

theorem shuffle_small {len i : Nat} (h : len ≤ 32) (hi : i < len) : shuffle len i = i := by
  unfold shuffle
  rw [Nat.div_eq_of_lt (by omega), Nat.mod_eq_of_lt (by omega)]
  omega

theorem shuffledMat_small {m k : Nat} (h : m * k ≤ 32) (f : Nat → Nat → ℝ) {r j : Nat} (hr : r < m) (hj : j < k) : shuffledMat m k f r j = f r j := by
  have hlt : r * k + j < m * k := by nlinarith
  unfold shuffledMat
  rw [shuffle_small h hlt, Nat.mul_comm r k, Nat.mul_add_div (by omega), Nat.div_eq_of_lt hj, Nat.mul_add_mod, Nat.mod_eq_of_lt hj, Nat.add_zero]

/-- for matrices of at most 32 elements nothing is shuffled -/
theorem netTangent_small (m : Nat) (θ δ : Nat → Nat → ℝ) : ∀ (ds : List (Nat × Act)) (k q : Nat) (a da : Nat → Nat → ℝ), SmallNet m k ds →
    (da = (fun _ _ => 0) ∨ m * k ≤ 32) → ∀ i < m, ∀ j < lastWidth k ds, netTangent m θ δ k q ds a da i j = netDiff θ δ k q ds a da i j := by
  intro ds
  induction ds with
  | nil => intros; rfl
  | cons d ds ih =>
    obtain ⟨n, f⟩ := d
    intro k q a da hS hda i hi j hj
    obtain ⟨h1, h2, h3⟩ := hS
    have hda' : ∀ i < m, ∀ kk < k, shuffledMat m k da i kk = da i kk := by
      intro i hi kk hkk
      rcases hda with rfl | hle
      · rfl
      · exact shuffledMat_small hle da hi hkk
    simp only [netTangent, netDiff]
    have hin : ∀ i < m, ∀ j < n, f.slope (affine k a (fun i j => θ q (i * n + j)) (θ (q + 1)) i j) *
        ((∑ kk ∈ Finset.range k, (shuffledMat m k da i kk * θ q (kk * n + j) + a i kk * shuffledMat k n (fun i j => δ q (i * n + j)) kk j)) + δ (q + 1) j) =
        f.slope (affine k a (fun i j => θ q (i * n + j)) (θ (q + 1)) i j) *
        ((∑ kk ∈ Finset.range k, (da i kk * θ q (kk * n + j) + a i kk * δ q (kk * n + j))) + δ (q + 1) j) := by
      intro i hi j hj
      congr 2
      refine Finset.sum_congr rfl fun kk hkk => ?_
      rw [Finset.mem_range] at hkk
      rw [hda' i hi kk hkk, shuffledMat_small h1 _ hkk hj]
    cases ds with
    | nil => exact hin i hi j hj
    | cons d' ds' =>
      rw [ih n (q + 2) _ _ h3 (Or.inr (h2 (by simp))) i hi j hj]
      exact netDiff_congr θ δ δ (d' :: ds') n (q + 2) _ _ _ i (fun _ _ => rfl) (fun j hj => hin i hi j hj) j hj

theorem lossTangent_small {m k : Nat} {ds : List (Nat × Act)} (hS : SmallNet m k ds) (a y θ δ : Nat → Nat → ℝ) :
    lossTangent m k ds a y θ δ = lossDiff m k ds a y θ δ := by
  refine Finset.sum_congr rfl fun i hi => Finset.sum_congr rfl fun j hj => ?_
  rw [netTangent_small m θ δ ds k 0 a _ hS (Or.inl rfl) i (Finset.mem_range.1 hi) j (Finset.mem_range.1 hj)]

/-- the slope 1 at the kink of the distance is a subgradient -/
theorem abs_subgradient (u v w : ℝ) : |u - w| + (if u < w then -1 else 1) * (v - u) ≤ |v - w| := by
  split
  · rw [abs_of_neg (by linarith)]
    have := neg_abs_le (v - w)
    linarith
  · rw [abs_of_nonneg (by linarith)]
    have := le_abs_self (v - w)
    linarith

/-- for a layer without activation the derivative along the operations is a subgradient of the loss -/
theorem linear_subgradient (m k n : Nat) (a y θ θ' : Nat → Nat → ℝ) :
    netLoss m k [(n, .identity)] a y θ + lossDiff m k [(n, .identity)] a y θ (θ' - θ) ≤ netLoss m k [(n, .identity)] a y θ' := by
  simp only [netLoss, lossDiff, ← Finset.sum_add_distrib]
  refine Finset.sum_le_sum fun i _ => Finset.sum_le_sum fun j _ => ?_
  refine le_trans (le_of_eq ?_) (abs_subgradient (netValue k (layerFns θ 0 [(n, .identity)]) a i j) _ _)
  congr 2
  simp only [netDiff, layerFns, netValue, affine_sum, Act.fn, Act.slope, id, Pi.sub_apply, one_mul, zero_mul, zero_add, mul_sub, Finset.sum_sub_distrib]
  ring

theorem sum_range_div (k n : Nat) (hn : 0 < n) (f : Nat → ℝ) : ∑ c ∈ Finset.range (k * n), f (c / n) = n * ∑ r ∈ Finset.range k, f r := by
  induction k with
  | zero => simp
  | succ k ih =>
    rw [Nat.succ_mul, Finset.sum_range_add, ih, Finset.sum_range_succ, mul_add]
    congr 1
    rw [Finset.sum_congr rfl (g := fun _ => f k) fun c hc => by
      rw [Nat.mul_comm k n, Nat.mul_add_div hn, Nat.div_eq_of_lt (Finset.mem_range.1 hc), Nat.add_zero]]
    simp

theorem abs_sign (p : Prop) [Decidable p] : |(if p then -1 else 1 : ℝ)| = 1 := by split <;> simp

theorem linear_weight (m k n : Nat) (a y θ : Nat → Nat → ℝ) {c : Nat} (hn : 0 < n) (hc : c < k * n) :
    |lossDiff m k [(n, .identity)] a y θ (unit 0 c)| ≤ ∑ i ∈ Finset.range m, |a i (c / n)| := by
  have hcn : c / n < k := (Nat.div_lt_iff_lt_mul hn).2 hc
  refine (Finset.abs_sum_le_sum_abs _ _).trans (Finset.sum_le_sum fun i _ => ?_)
  have h1 : ∀ j ∈ Finset.range (lastWidth k [(n, .identity)]), netDiff θ (unit 0 c) k 0 [(n, .identity)] a (fun _ _ => 0) i j =
      if j = c % n then a i (c / n) else 0 := by
    intro j hj
    have hj' : j < n := Finset.mem_range.1 hj
    simp only [netDiff, Act.slope, unit, zero_mul, zero_add, one_mul, true_and, one_ne_zero, false_and, if_false, add_zero]
    rw [Finset.sum_eq_single (c / n)]
    · by_cases h : j = c % n
      · rw [if_pos h, if_pos (by rw [h, Nat.mul_comm]; exact Nat.div_add_mod c n), mul_one]
      · rw [if_neg h, if_neg, mul_zero]
        intro h2
        apply h
        rw [← h2, Nat.mul_comm, Nat.mul_add_mod, Nat.mod_eq_of_lt hj']
    · intro r _ hr
      rw [if_neg, mul_zero]
      intro h2
      apply hr
      rw [← h2, Nat.mul_comm, Nat.mul_add_div hn, Nat.div_eq_of_lt hj', Nat.add_zero]
    · intro h
      exact absurd (Finset.mem_range.2 hcn) h
  rw [Finset.sum_eq_single (c % n)]
  · rw [h1 (c % n) (Finset.mem_range.2 (Nat.mod_lt c hn)), if_pos rfl, abs_mul, abs_sign, one_mul]
  · intro j hj hne
    rw [h1 j hj, if_neg hne, mul_zero]
  · intro h
    exact absurd (Finset.mem_range.2 (Nat.mod_lt c hn)) h

theorem linear_bias (m k n : Nat) (a y θ : Nat → Nat → ℝ) {c : Nat} (hc : c < n) : |lossDiff m k [(n, .identity)] a y θ (unit 1 c)| ≤ m := by
  have h0 : (m : ℝ) = ∑ i ∈ Finset.range m, 1 := by simp
  rw [h0]
  refine (Finset.abs_sum_le_sum_abs _ _).trans (Finset.sum_le_sum fun i _ => ?_)
  have h1 : ∀ j, netDiff θ (unit 1 c) k 0 [(n, .identity)] a (fun _ _ => 0) i j = if j = c then 1 else 0 := by
    intro j
    simp [netDiff, Act.slope, unit]
  simp only [h1]
  rw [Finset.sum_eq_single c]
  · rw [if_pos rfl, mul_one, abs_sign]
  · intro j _ hne
    rw [if_neg hne, mul_zero]
  · intro h
    exact absurd (Finset.mem_range.2 hc) h

theorem sum_coords (k n : Nat) (f : Act) (F : Nat × Nat → ℝ) :
    ∑ p ∈ coords k 0 [(n, f)], F p = ∑ c ∈ Finset.range (k * n), F (0, c) + ∑ c ∈ Finset.range n, F (1, c) := by
  simp only [coords, Finset.union_empty]
  rw [Finset.sum_union]
  · rw [Finset.sum_image (by intro a _ b _ h; simpa using h), Finset.sum_image (by intro a _ b _ h; simpa using h)]
  · rw [Finset.disjoint_left]
    intro p hp hq
    simp only [Finset.mem_image] at hp hq
    obtain ⟨_, _, rfl⟩ := hp
    obtain ⟨_, _, h⟩ := hq
    simp at h

theorem linear_slope (m k n : Nat) (hn : 0 < n) (a y θ : Nat → Nat → ℝ) :
    ∑ p ∈ coords k 0 [(n, .identity)], lossDiff m k [(n, .identity)] a y θ (unit p.1 p.2) ^ 2 ≤ slopeBound m k n a := by
  rw [sum_coords, slopeBound, mul_add]
  refine add_le_add ?_ ?_
  · rw [← sum_range_div k n hn fun r => (∑ i ∈ Finset.range m, |a i r|) ^ 2]
    refine Finset.sum_le_sum fun c hc => sq_le_sq' ?_ ?_
    · exact neg_le_of_abs_le (linear_weight m k n a y θ hn (Finset.mem_range.1 hc))
    · exact (le_abs_self _).trans (linear_weight m k n a y θ hn (Finset.mem_range.1 hc))
  · refine (Finset.sum_le_sum (g := fun _ => (m : ℝ) ^ 2) fun c hc => sq_le_sq' ?_ ?_).trans (by simp)
    · exact neg_le_of_abs_le (linear_bias m k n a y θ (Finset.mem_range.1 hc))
    · exact (le_abs_self _).trans (linear_bias m k n a y θ (Finset.mem_range.1 hc))

/-- one step of the subgradient method -/
theorem sqDist_step {k : Nat} {ds : List (Nat × Act)} {L : (Nat → Nat → ℝ) → ℝ} {θ θ' g : Nat → Nat → ℝ} {lr G : ℝ} (hlr : 0 < lr)
    (hg : L θ + ∑ p ∈ coords k 0 ds, (θ' p.1 p.2 - θ p.1 p.2) * g p.1 p.2 ≤ L θ') (hG : ∑ p ∈ coords k 0 ds, g p.1 p.2 ^ 2 ≤ G) :
    sqDist k ds (fun q c => θ q c - lr * g q c) θ' + 2 * lr * (L θ - L θ') ≤ sqDist k ds θ θ' + lr ^ 2 * G := by
  have h1 : sqDist k ds (fun q c => θ q c - lr * g q c) θ' = sqDist k ds θ θ' + 2 * lr * ∑ p ∈ coords k 0 ds, (θ' p.1 p.2 - θ p.1 p.2) * g p.1 p.2 +
      lr ^ 2 * ∑ p ∈ coords k 0 ds, g p.1 p.2 ^ 2 := by
    simp only [sqDist, Finset.mul_sum, ← Finset.sum_add_distrib]
    exact Finset.sum_congr rfl fun p _ => by ring
  rw [h1]
  have h2 := mul_le_mul_of_nonneg_left hG (sq_nonneg lr)
  nlinarith

/-- the subgradient method: the best of `N` losses -/
theorem best_of_steps {k : Nat} {ds : List (Nat × Act)} {L : (Nat → Nat → ℝ) → ℝ} {θ' : Nat → Nat → ℝ} {g : (Nat → Nat → ℝ) → Nat → Nat → ℝ} {lr G : ℝ}
    (hlr : 0 < lr) (hg : ∀ θ, L θ + ∑ p ∈ coords k 0 ds, (θ' p.1 p.2 - θ p.1 p.2) * g θ p.1 p.2 ≤ L θ')
    (hG : ∀ θ, ∑ p ∈ coords k 0 ds, g θ p.1 p.2 ^ 2 ≤ G) (θ : Nat → Nat → ℝ) (N : Nat) (hN : 0 < N) :
    ∃ t < N, L ((fun θ q c => θ q c - lr * g θ q c)^[t] θ) ≤ L θ' + sqDist k ds θ θ' / (2 * lr * N) + lr * G / 2 := by
  set S : (Nat → Nat → ℝ) → Nat → Nat → ℝ := fun θ q c => θ q c - lr * g θ q c with hS
  have h1 : ∀ N, sqDist k ds (S^[N] θ) θ' + 2 * lr * ∑ t ∈ Finset.range N, (L (S^[t] θ) - L θ') ≤ sqDist k ds θ θ' + N * (lr ^ 2 * G) := by
    intro N
    induction N with
    | zero => simp
    | succ N ih =>
      have h2 := sqDist_step hlr (hg (S^[N] θ)) (hG (S^[N] θ))
      rw [Finset.sum_range_succ, Function.iterate_succ_apply']
      push_cast
      have h3 : S (S^[N] θ) = fun q c => (S^[N] θ) q c - lr * g (S^[N] θ) q c := rfl
      rw [h3]
      linarith
  by_contra hno
  push Not at hno
  have h2 := h1 N
  have hN' : (0 : ℝ) < N := by exact_mod_cast hN
  have h3 : (N : ℝ) * (sqDist k ds θ θ' / (2 * lr * N) + lr * G / 2) < ∑ t ∈ Finset.range N, (L (S^[t] θ) - L θ') := by
    have : (N : ℝ) * (sqDist k ds θ θ' / (2 * lr * N) + lr * G / 2) = ∑ t ∈ Finset.range N, (sqDist k ds θ θ' / (2 * lr * N) + lr * G / 2) := by
      rw [Finset.sum_const, Finset.card_range, nsmul_eq_mul]
    rw [this]
    refine Finset.sum_lt_sum_of_nonempty ⟨0, Finset.mem_range.2 hN⟩ fun t ht => ?_
    have := hno t (Finset.mem_range.1 ht)
    linarith
  have h4 : 0 ≤ sqDist k ds (S^[N] θ) θ' := Finset.sum_nonneg fun p _ => sq_nonneg _
  have h5 : (N : ℝ) * (sqDist k ds θ θ' / (2 * lr * N) + lr * G / 2) * (2 * lr) = sqDist k ds θ θ' + N * (lr ^ 2 * G) := by
    field_simp
  nlinarith

theorem training_pos {h : Heap ℝ} {mlp : Mlp ℝ} {x y m k : Nat} {ds : List (Nat × Act)} {a b θ : Nat → Nat → ℝ}
    (ht : Training h mlp x y m k ds a b θ) : 0 < m ∧ 0 < lastWidth k ds := by
  obtain ⟨ns, l, r, ny, df, ab, e1, ⟨o1, e2⟩, hm, hw, hc, hl⟩ := loss_run ht
  exact ⟨hm, hw⟩

end RL
