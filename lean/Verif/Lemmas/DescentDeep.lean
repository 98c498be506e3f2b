import Verif.Lemmas.Repeat
import Verif.Lemmas.Descent

/-!
# Lemmas: networks of several layers whose computed gradient is the negative of the gradient (C54)
-/

namespace RL

open Spec

theorem tangent_append {m : Nat} {θ δ : Nat → Nat → ℝ} (ds : List (Nat × Act)) : ∀ (pre : List (Nat × Act)) (k q : Nat) (a da : Nat → Nat → ℝ),
    netTangent m θ δ k q (pre ++ ds) a da =
      netTangent m θ δ (lastWidth k pre) (q + 2 * pre.length) ds (netValue k (layerFns θ q pre) a) (netTangent m θ δ k q pre a da) := by
  intro pre
  induction pre with
  | nil => exact fun k q a da => rfl
  | cons e pre ih =>
    intro k q a da
    obtain ⟨n, f⟩ := e
    simp only [List.cons_append, netTangent, layerFns, netValue, lastWidth, List.length_cons]
    rw [ih, show q + 2 * (pre.length + 1) = q + 2 + 2 * pre.length by ring]

theorem diff_append {θ δ : Nat → Nat → ℝ} (ds : List (Nat × Act)) : ∀ (pre : List (Nat × Act)) (k q : Nat) (a da : Nat → Nat → ℝ),
    netDiff θ δ k q (pre ++ ds) a da =
      netDiff θ δ (lastWidth k pre) (q + 2 * pre.length) ds (netValue k (layerFns θ q pre) a) (netDiff θ δ k q pre a da) := by
  intro pre
  induction pre with
  | nil => exact fun k q a da => rfl
  | cons e pre ih =>
    intro k q a da
    obtain ⟨n, f⟩ := e
    simp only [List.cons_append, netDiff, layerFns, netValue, lastWidth, List.length_cons]
    rw [ih, show q + 2 * (pre.length + 1) = q + 2 + 2 * pre.length by ring]

namespace DeepTest

/-- 32 rows of one kind, 32 of another -/
noncomputable def side (i : Nat) : ℝ := if i < 32 then 1 else -1

noncomputable def level (i : Nat) : ℝ := if i < 32 then 2 else 1

/-- weights 1 and biases 0, but weights 0 and biases 1 in the last layer but one (tensors `q` and `q + 1`) -/
def params (q : Nat) : Nat → Nat → ℝ := fun p _ => if p = q then 0 else if p = q + 1 then 1 else if p % 2 = 0 then 1 else 0

/-- what layers with weights 1 and biases 0 compute from equal inputs -/
noncomputable def through : Nat → List (Nat × Act) → ℝ → ℝ
  | _, [], x => x
  | k, (n, f) :: ds, x => through n ds (f.fn (k * x))

theorem fn_pos (f : Act) {x y : ℝ} (hx : 0 < x) (hy : x < y) : 0 < f.fn x ∧ f.fn x < f.fn y := by
  cases f with
  | identity => exact ⟨hx, hy⟩
  | relu =>
    simp only [Act.fn]
    rw [max_eq_left hx.le, max_eq_left (hx.trans hy).le]
    exact ⟨hx, hy⟩
  | tanh =>
    refine ⟨?_, ?_⟩
    · refine lt_of_le_of_ne (tanh_nonneg' hx.le) fun h => hx.ne ?_
      exact Real.tanh_injective (by rw [Real.tanh_zero]; exact h)
    · refine strictMono_of_deriv_pos (f := Real.tanh) (fun z => ?_) hy
      have := Real.tanh_sq_lt_one z
      rw [(hasDerivAt_tanh z).deriv]
      linarith

theorem through_pos : ∀ (ds : List (Nat × Act)) (k : Nat), 0 < k → (∀ d ∈ ds, 0 < d.1) → ∀ x y : ℝ, 0 < x → x < y →
    0 < through k ds x ∧ through k ds x < through k ds y
  | [], _, _, _, _, _, hx, hy => ⟨hx, hy⟩
  | (n, f) :: ds, k, hk, hd, x, y, hx, hy => by
    have hk' : (0 : ℝ) < k := by exact_mod_cast hk
    have h1 := fn_pos f (mul_pos hk' hx) (mul_lt_mul_of_pos_left hy hk')
    exact through_pos ds n (hd (n, f) (by simp)) (fun d h => hd d (by simp [h])) _ _ h1.1 h1.2

theorem params_even {q p : Nat} (hp : p < q) (h : p % 2 = 0) (c : Nat) : params q p c = 1 := by
  simp only [params]
  rw [if_neg (by omega), if_neg (by omega), if_pos h]

theorem params_odd {q p : Nat} (hp : p < q) (h : p % 2 = 1) (c : Nat) : params q p c = 0 := by
  simp only [params]
  rw [if_neg (by omega), if_neg (by omega), if_neg (by omega)]

theorem affine_ones {q p : Nat} (hp : p + 1 < q) (h : p % 2 = 0) (k n : Nat) (x : Nat → ℝ) (i j : Nat) :
    affine k (fun i _ => x i) (fun i j => params q p (i * n + j)) (params q (p + 1)) i j = k * x i := by
  rw [affine_sum, params_odd hp (by omega)]
  simp [params_even (by omega : p < q) h]

theorem value_ones {q : Nat} : ∀ (pre : List (Nat × Act)) (k p : Nat), p + 2 * pre.length ≤ q → p % 2 = 0 → ∀ x : Nat → ℝ,
    netValue k (layerFns (params q) p pre) (fun i _ => x i) = fun i _ => through k pre (x i)
  | [], _, _, _, _, _ => rfl
  | (n, f) :: pre, k, p, hp, h, x => by
    simp only [List.length_cons] at hp
    simp only [layerFns, netValue, affine_ones (by omega : p + 1 < q) h]
    exact value_ones pre n (p + 2) (by omega) (by omega) fun i => f.fn (k * x i)

theorem smooth_ones {q m : Nat} {post : List (Nat × Act)} : ∀ (pre : List (Nat × Act)) (k p : Nat), p + 2 * pre.length ≤ q → p % 2 = 0 → 0 < k →
    (∀ d ∈ pre, 0 < d.1) → ∀ x : Nat → ℝ, (∀ i, 0 < x i) →
    ReluSmooth m (params q) (lastWidth k pre) (p + 2 * pre.length) post (fun i _ => through k pre (x i)) →
    ReluSmooth m (params q) k p (pre ++ post) fun i _ => x i
  | [], _, _, _, _, _, _, _, _, hR => hR
  | (n, f) :: pre, k, p, hp, h, hk, hd, x, hx, hR => by
    simp only [List.length_cons] at hp hR
    have hk' : (0 : ℝ) < k := by exact_mod_cast hk
    simp only [List.cons_append, ReluSmooth, affine_ones (by omega : p + 1 < q) h]
    refine ⟨fun _ i _ j _ => (mul_pos hk' (hx i)).ne', ?_⟩
    refine smooth_ones pre n (p + 2) (by omega) (by omega) (hd (n, f) (by simp)) (fun d h => hd d (by simp [h])) _
      (fun i => (fn_pos f (mul_pos hk' (hx i)) (lt_add_one _)).1) ?_
    rwa [show p + 2 + 2 * pre.length = p + 2 * (pre.length + 1) by ring]

theorem side_sum : ∑ i ∈ Finset.range 64, side i = 0 := by
  simp only [side]
  rw [show (64 : Nat) = 32 + 32 from rfl, Finset.sum_range_add, Finset.sum_congr rfl fun i hi => if_pos (Finset.mem_range.1 hi),
    Finset.sum_congr (g := fun _ => (-1 : ℝ)) rfl fun i _ => if_neg (by omega)]
  simp

theorem side_shuffle {n₁ p : Nat} (hn : 0 < n₁) (hp : p < 64 * n₁) : side (shuffle (64 * n₁) p / n₁) = -side (p / n₁) := by
  have h1 : ∀ x, x / n₁ < 32 ↔ x < 32 * n₁ := fun x => Nat.div_lt_iff_lt_mul hn
  simp only [side, h1, shuffle]
  by_cases h : p < 32 * n₁
  · rw [if_pos h, if_neg (by omega)]
  · rw [if_neg h, if_pos (by omega)]
    norm_num

theorem side_mat {n₁ : Nat} (d : Nat → Nat → ℝ) :
    ∑ i ∈ Finset.range 64, side i * ∑ kk ∈ Finset.range n₁, shuffledMat 64 n₁ d i kk =
      -∑ i ∈ Finset.range 64, side i * ∑ kk ∈ Finset.range n₁, d i kk := by
  have h := shuffledMat_sum (fun x => x) (fun i kk => side i * d i kk) 64 n₁
  simp only [Finset.mul_sum]
  rw [← h, ← Finset.sum_neg_distrib]
  refine Finset.sum_congr rfl fun i hi => ?_
  rw [← Finset.sum_neg_distrib]
  refine Finset.sum_congr rfl fun kk hk => ?_
  have hi := Finset.mem_range.1 hi
  have hk := Finset.mem_range.1 hk
  have hp : i * n₁ + kk < 64 * n₁ := by nlinarith
  simp only [shuffledMat]
  rw [side_shuffle (by omega) hp, show (i * n₁ + kk) / n₁ = i by
    rw [Nat.mul_comm, Nat.mul_add_div (by omega), Nat.div_eq_of_lt hk, Nat.add_zero]]
  ring

/-- parts that are the same in all rows cancel -/
theorem balanced (n n₁ : Nat) (s : ℝ) (d : Nat → Nat → ℝ) (c : Nat → ℝ) :
    ∑ i ∈ Finset.range 64, ∑ j ∈ Finset.range n, -side i * (s * (∑ kk ∈ Finset.range n₁, d i kk + c j)) =
      -(n * s) * ∑ i ∈ Finset.range 64, side i * ∑ kk ∈ Finset.range n₁, d i kk := by
  have h1 : ∀ i, ∑ j ∈ Finset.range n, -side i * (s * (∑ kk ∈ Finset.range n₁, d i kk + c j)) =
      -(n * s) * (side i * ∑ kk ∈ Finset.range n₁, d i kk) + side i * (-s * ∑ j ∈ Finset.range n, c j) := by
    intro i
    simp only [mul_add, Finset.sum_add_distrib, Finset.sum_const, Finset.card_range, nsmul_eq_mul, ← Finset.mul_sum]
    ring
  rw [Finset.sum_congr rfl fun i _ => h1 i, Finset.sum_add_distrib, ← Finset.sum_mul, side_sum, ← Finset.mul_sum]
  ring

theorem rows_part (n₁ : Nat) (s : ℝ) (v X b : Nat → ℝ) :
    ∑ i ∈ Finset.range 64, side i * ∑ kk ∈ Finset.range n₁, s * (v i * X kk + b kk) =
      s * (∑ i ∈ Finset.range 64, side i * v i) * ∑ kk ∈ Finset.range n₁, X kk := by
  have h1 : ∀ i, side i * ∑ kk ∈ Finset.range n₁, s * (v i * X kk + b kk) =
      (side i * v i) * (s * ∑ kk ∈ Finset.range n₁, X kk) + side i * (s * ∑ kk ∈ Finset.range n₁, b kk) := by
    intro i
    rw [← Finset.mul_sum, Finset.sum_add_distrib, ← Finset.mul_sum]
    ring
  rw [Finset.sum_congr rfl fun i _ => h1 i, Finset.sum_add_distrib, ← Finset.sum_mul, ← Finset.sum_mul, side_sum]
  ring

variable {k n₁ n : Nat} {pre : List (Nat × Act)} {g f : Act}

/-- the value of all outputs -/
noncomputable def output (n₁ : Nat) (g f : Act) : ℝ := f.fn (n₁ * g.fn 1)

theorem affine_hidden (K n₁ q : Nat) (v : Nat → Nat → ℝ) (i j : Nat) : affine K v (fun i j => params q q (i * n₁ + j)) (params q (q + 1)) i j = 1 := by
  rw [affine_sum]
  simp [params]

theorem affine_last (n₁ n q : Nat) (h : q % 2 = 0) (v : ℝ) (i j : Nat) :
    affine n₁ (fun _ _ => v) (fun i j => params q (q + 2) (i * n + j)) (params q (q + 2 + 1)) i j = n₁ * v := by
  have h1 : ∀ c, params q (q + 2) c = 1 := fun c => by
    simp only [params]
    rw [if_neg (by omega), if_neg (by omega), if_pos (by omega)]
  have h2 : ∀ c, params q (q + 2 + 1) c = 0 := fun c => by
    simp only [params]
    rw [if_neg (by omega), if_neg (by omega), if_neg (by omega)]
  rw [affine_sum, h2]
  simp [h1]

theorem value_all (a : Nat → Nat → ℝ) (i j : Nat) :
    netValue k (layerFns (params (2 * pre.length)) 0 (pre ++ [(n₁, g), (n, f)])) a i j = output n₁ g f := by
  rw [value_append]
  simp only [layerFns, netValue, Nat.zero_add, affine_hidden, affine_last _ _ _ (by omega : 2 * pre.length % 2 = 0), output]

theorem sign_all (i j : Nat) (a : Nat → Nat → ℝ) : (if netValue k (layerFns (params (2 * pre.length)) 0 (pre ++ [(n₁, g), (n, f)])) a i j <
    output n₁ g f + side i then -1 else 1 : ℝ) = -side i := by
  rw [value_all]
  simp only [side]
  split_ifs <;> simp_all
  linarith

/-- the computed slope in any direction -/
theorem computed (δ : Nat → Nat → ℝ) :
    lossTangent 64 k (pre ++ [(n₁, g), (n, f)]) (fun i _ => level i) (fun i _ => output n₁ g f + side i) (params (2 * pre.length)) δ =
      n * f.slope (n₁ * g.fn 1) * (g.slope 1 * (∑ i ∈ Finset.range 64, side i * through k pre (level i)) *
        ∑ r ∈ Finset.range (lastWidth k pre), ∑ kk ∈ Finset.range n₁, δ (2 * pre.length) (r * n₁ + kk)) := by
  have hq : 2 * pre.length % 2 = 0 := by omega
  have h1 : ∀ c, params (2 * pre.length) (2 * pre.length) c = 0 := fun c => by simp [params]
  have h2 : ∀ c, params (2 * pre.length) (2 * pre.length + 2) c = 1 := fun c => by simp [params]
  simp only [lossTangent, sign_all]
  rw [lastWidth_append, tangent_append]
  simp only [netTangent, Nat.zero_add, affine_hidden, affine_last _ _ _ hq, lastWidth, value_ones pre k 0 (by omega : 0 + 2 * pre.length ≤ 2 * pre.length) rfl]
  refine (Finset.sum_congr rfl fun i _ => Finset.sum_congr rfl fun j _ => ?_).trans ((balanced n n₁ (f.slope (n₁ * g.fn 1))
    (fun i kk => shuffledMat 64 n₁ (fun i kk => g.slope 1 * (through k pre (level i) *
      (∑ r ∈ Finset.range (lastWidth k pre), shuffledMat (lastWidth k pre) n₁ (fun i j => δ (2 * pre.length) (i * n₁ + j)) r kk) + δ (2 * pre.length + 1) kk)) i kk)
    fun j => ∑ kk ∈ Finset.range n₁, g.fn 1 * shuffledMat n₁ n (fun i j => δ (2 * pre.length + 2) (i * n + j)) kk j + δ (2 * pre.length + 2 + 1) j).trans ?_)
  · simp only [h1, h2, mul_zero, zero_add, mul_one, Finset.sum_add_distrib, ← Finset.mul_sum, add_assoc]
  · rw [side_mat, rows_part, Finset.sum_comm, shuffledMat_sum (fun x => x) (fun r kk => δ (2 * pre.length) (r * n₁ + kk))]
    ring

/-- the slope in any direction -/
theorem actual (δ : Nat → Nat → ℝ) :
    lossDiff 64 k (pre ++ [(n₁, g), (n, f)]) (fun i _ => level i) (fun i _ => output n₁ g f + side i) (params (2 * pre.length)) δ =
      -(n * f.slope (n₁ * g.fn 1) * (g.slope 1 * (∑ i ∈ Finset.range 64, side i * through k pre (level i)) *
        ∑ r ∈ Finset.range (lastWidth k pre), ∑ kk ∈ Finset.range n₁, δ (2 * pre.length) (r * n₁ + kk))) := by
  have hq : 2 * pre.length % 2 = 0 := by omega
  have h1 : ∀ c, params (2 * pre.length) (2 * pre.length) c = 0 := fun c => by simp [params]
  have h2 : ∀ c, params (2 * pre.length) (2 * pre.length + 2) c = 1 := fun c => by simp [params]
  simp only [lossDiff, sign_all]
  rw [lastWidth_append, diff_append]
  simp only [netDiff, Nat.zero_add, affine_hidden, affine_last _ _ _ hq, lastWidth, value_ones pre k 0 (by omega : 0 + 2 * pre.length ≤ 2 * pre.length) rfl]
  refine (Finset.sum_congr rfl fun i _ => Finset.sum_congr rfl fun j _ => ?_).trans ((balanced n n₁ (f.slope (n₁ * g.fn 1))
    (fun i kk => g.slope 1 * (through k pre (level i) *
      (∑ r ∈ Finset.range (lastWidth k pre), δ (2 * pre.length) (r * n₁ + kk)) + δ (2 * pre.length + 1) kk))
    fun j => ∑ kk ∈ Finset.range n₁, g.fn 1 * δ (2 * pre.length + 2) (kk * n + j) + δ (2 * pre.length + 2 + 1) j).trans ?_)
  · simp only [h1, h2, mul_zero, zero_add, mul_one, Finset.sum_add_distrib, ← Finset.mul_sum, add_assoc]
  · rw [rows_part, Finset.sum_comm]
    ring

end DeepTest

end RL
