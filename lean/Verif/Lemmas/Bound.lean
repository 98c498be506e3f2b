import Verif.SpecBound
import Verif.Lemmas.Feature
import Verif.Lemmas.Adjoint

/-!
# Bounds for derivatives of networks
-/

namespace RL

open Spec

theorem shuffledMat_sum (F : ℝ → ℝ) (f : Nat → Nat → ℝ) (m k : Nat) :
    ∑ i ∈ Finset.range m, ∑ j ∈ Finset.range k, F (shuffledMat m k f i j) = ∑ i ∈ Finset.range m, ∑ j ∈ Finset.range k, F (f i j) := by
  have h1 : ∀ g : Nat → Nat → ℝ, ∑ i ∈ Finset.range m, ∑ j ∈ Finset.range k, F (g i j) = ∑ p ∈ Finset.range (m * k), F (g (p / k) (p % k)) := by
    intro g
    rw [← sum_mat (fun p => F (g (p / k) (p % k)))]
    refine Finset.sum_congr rfl fun i _ => Finset.sum_congr rfl fun j hj => ?_
    have hj := Finset.mem_range.1 hj
    rw [Nat.add_comm, Nat.add_mul_div_right _ _ (by omega), Nat.div_eq_of_lt hj, Nat.add_mul_mod_self_right, Nat.mod_eq_of_lt hj, Nat.zero_add]
  rw [h1 f, ← sum_mat (fun p => F (f (p / k) (p % k)))]
  refine (sum_mat (fun p => F (f (shuffle (m * k) p / k) (shuffle (m * k) p % k))) m k).trans ?_
  rw [sum_mat (fun p => F (f (p / k) (p % k)))]
  refine Finset.sum_nbij (shuffle (m * k)) (fun p hp => ?_) (fun p hp p' hp' e => ?_) (fun p hp => ?_) (fun p _ => rfl)
  · simpa using shuffle_lt (by simpa using hp)
  · exact segPos_inj (by simpa using hp) (by simpa using hp') e
  · obtain ⟨i, h1, h2⟩ := shuffle_surj (len := m * k) (c := p) (by simpa using hp)
    exact ⟨i, by simpa using h1, h2⟩

theorem abs_slope_le (f : Act) (z : ℝ) : |f.slope z| ≤ 1 := by
  cases f with
  | identity => simp [Act.slope]
  | relu =>
    simp only [Act.slope]
    split <;> simp
  | tanh =>
    have h := Real.tanh_sq_lt_one z
    simp only [Act.slope]
    rw [abs_le]
    constructor <;> nlinarith [sq_nonneg (Real.tanh z)]

theorem Spec.RowSums.prod_nonneg {θ : Nat → Nat → ℝ} : ∀ {ds : List (Nat × Act)} {k q : Nat} {rs : List ℝ}, RowSums θ k q ds rs → 0 ≤ rs.prod
  | [], _, _, [], _ => by simp
  | (_, _) :: _, _, _, _ :: _, h => by
    rw [List.prod_cons]
    exact mul_nonneg h.1.1 (RowSums.prod_nonneg h.2)

theorem netTangent_norm (m : Nat) (θ δ : Nat → Nat → ℝ) : ∀ (ds : List (Nat × Act)) (k q : Nat) (a da : Nat → Nat → ℝ) (rs : List ℝ),
    (∀ q' ≥ q, ∀ c, δ q' c = 0) → RowSums θ k q ds rs →
    ∑ i ∈ Finset.range m, ∑ j ∈ Finset.range (lastWidth k ds), |netTangent m θ δ k q ds a da i j| ≤
      rs.prod * ∑ i ∈ Finset.range m, ∑ j ∈ Finset.range k, |da i j|
  | [], k, q, a, da, [], _, _ => by simp [netTangent, lastWidth]
  | (n, f) :: ds, k, q, a, da, r :: rs, hδ, ⟨⟨hr, hrow⟩, hrs⟩ => by
    refine (netTangent_norm m θ δ ds n (q + 2) _ _ rs (fun q' hq' => hδ q' (by omega)) hrs).trans ?_
    rw [List.prod_cons, mul_comm r, mul_assoc]
    refine mul_le_mul_of_nonneg_left ?_ hrs.prod_nonneg
    have h0 : ∀ kk j, shuffledMat k n (fun i j => δ q (i * n + j)) kk j = 0 := fun kk j => hδ q le_rfl _
    simp only [h0, hδ (q + 1) (by omega), mul_zero, add_zero]
    rw [← shuffledMat_sum (fun x => |x|) da m k, Finset.mul_sum]
    refine Finset.sum_le_sum fun i _ => ?_
    calc _ ≤ ∑ j ∈ Finset.range n, ∑ kk ∈ Finset.range k, |shuffledMat m k da i kk| * |θ q (kk * n + j)| := by
          refine Finset.sum_le_sum fun j _ => ?_
          rw [abs_mul]
          refine (mul_le_of_le_one_left (abs_nonneg _) (abs_slope_le f _)).trans ((Finset.abs_sum_le_sum_abs _ _).trans (le_of_eq ?_))
          exact Finset.sum_congr rfl fun kk _ => abs_mul _ _
      _ = ∑ kk ∈ Finset.range k, |shuffledMat m k da i kk| * ∑ j ∈ Finset.range n, |θ q (kk * n + j)| := by
          rw [Finset.sum_comm]
          exact Finset.sum_congr rfl fun kk _ => (Finset.mul_sum _ _ _).symm
      _ ≤ ∑ kk ∈ Finset.range k, |shuffledMat m k da i kk| * r :=
          Finset.sum_le_sum fun kk hk => mul_le_mul_of_nonneg_left (hrow kk (Finset.mem_range.1 hk)) (abs_nonneg _)
      _ = _ := by rw [← Finset.sum_mul, mul_comm]

theorem netTangent_at (m : Nat) (θ δ : Nat → Nat → ℝ) (n : Nat) (f : Act) (post : List (Nat × Act)) : ∀ (pre : List (Nat × Act)) (k q : Nat)
    (a : Nat → Nat → ℝ), (∀ q' < q + 2 * pre.length, ∀ c, δ q' c = 0) →
    netTangent m θ δ k q (pre ++ (n, f) :: post) a (fun _ _ => 0) = netTangent m θ δ (lastWidth k pre) (q + 2 * pre.length) ((n, f) :: post)
      (netValue k (layerFns θ q pre) a) (fun _ _ => 0)
  | [], k, q, a, _ => by simp [lastWidth, netValue, layerFns]
  | (n', f') :: pre, k, q, a, hδ => by
    have h0 : ∀ kk j, shuffledMat k n' (fun i j => δ q (i * n' + j)) kk j = 0 := fun kk j => hδ q (by simp) _
    have h1 : ∀ i kk, shuffledMat m k (fun _ _ => 0) i kk = 0 := fun _ _ => rfl
    have ih := netTangent_at m θ δ n f post pre n' (q + 2) (fun i j => f'.fn (affine k a (fun i j => θ q (i * n' + j)) (θ (q + 1)) i j))
      fun q' hq' => hδ q' (by simp; omega)
    rw [List.cons_append, netTangent]
    simp only [h0, h1, hδ (q + 1) (by simp; omega), zero_mul, mul_zero, add_zero, Finset.sum_const_zero]
    rw [ih]
    have e : q + 2 + 2 * pre.length = q + 2 * ((n', f') :: pre).length := by simp; omega
    rw [e]
    rfl

theorem lossTangent_norm (m k : Nat) (ds : List (Nat × Act)) (a y θ δ : Nat → Nat → ℝ) : |lossTangent m k ds a y θ δ| ≤
    ∑ i ∈ Finset.range m, ∑ j ∈ Finset.range (lastWidth k ds), |netTangent m θ δ k 0 ds a (fun _ _ => 0) i j| := by
  refine (Finset.abs_sum_le_sum_abs _ _).trans (Finset.sum_le_sum fun i _ => (Finset.abs_sum_le_sum_abs _ _).trans (Finset.sum_le_sum fun j _ => ?_))
  rw [abs_mul]
  split <;> simp

/-- In the direction of a parameter of a layer. -/
theorem lossTangent_bound {m k n : Nat} {f : Act} {pre post : List (Nat × Act)} {a y θ δ : Nat → Nat → ℝ} {rs : List ℝ}
    (hδ : ∀ q, q ≠ 2 * pre.length → q ≠ 2 * pre.length + 1 → ∀ c, δ q c = 0) (hrs : RowSums θ n (2 * pre.length + 2) post rs) {B : ℝ}
    (hB : ∑ i ∈ Finset.range m, ∑ j ∈ Finset.range n, |(∑ kk ∈ Finset.range (lastWidth k pre), netValue k (layerFns θ 0 pre) a i kk *
      shuffledMat (lastWidth k pre) n (fun i j => δ (2 * pre.length) (i * n + j)) kk j) + δ (2 * pre.length + 1) j| ≤ B) :
    |lossTangent m k (pre ++ (n, f) :: post) a y θ δ| ≤ B * rs.prod := by
  refine (lossTangent_norm _ _ _ _ _ _ _).trans ?_
  rw [netTangent_at m θ δ n f post pre k 0 a (fun q' hq' => hδ q' (by omega) (by omega)), lastWidth_append, lastWidth, netTangent]
  simp only [Nat.zero_add]
  refine (netTangent_norm m θ δ post n _ _ _ rs (fun q' hq' => hδ q' (by omega) (by omega)) hrs).trans ?_
  rw [mul_comm B]
  refine mul_le_mul_of_nonneg_left (le_trans (Finset.sum_le_sum fun i _ => Finset.sum_le_sum fun j _ => ?_) hB) hrs.prod_nonneg
  have h1 : ∀ i kk, shuffledMat m (lastWidth k pre) (fun _ _ => 0) i kk = 0 := fun _ _ => rfl
  simp only [h1, zero_mul, zero_add]
  rw [abs_mul]
  exact mul_le_of_le_one_left (abs_nonneg _) (abs_slope_le f _)

theorem lossTangent_weight {m k n : Nat} {f : Act} {pre post : List (Nat × Act)} {a y θ : Nat → Nat → ℝ} {rs : List ℝ} {c : Nat}
    (hrs : RowSums θ n (2 * pre.length + 2) post rs) (hc : c < lastWidth k pre * n) {S : ℝ}
    (hS : ∀ r < lastWidth k pre, ∑ i ∈ Finset.range m, |netValue k (layerFns θ 0 pre) a i r| ≤ S) :
    |lossTangent m k (pre ++ (n, f) :: post) a y θ (unit (2 * pre.length) c)| ≤ S * rs.prod := by
  refine lossTangent_bound (δ := unit _ _) (fun q h1 h2 c' => if_neg (by tauto)) hrs ?_
  have h1 : ∀ j, unit (2 * pre.length) c (2 * pre.length + 1) j = 0 := fun j => if_neg (by omega)
  simp only [h1, add_zero]
  set e := shuffledMat (lastWidth k pre) n (fun i j => unit (2 * pre.length) c (2 * pre.length) (i * n + j)) with he
  have hsum : ∑ r ∈ Finset.range (lastWidth k pre), ∑ j ∈ Finset.range n, |e r j| = 1 := by
    rw [he, shuffledMat_sum (fun x => |x|), sum_mat (fun p => |unit (2 * pre.length) c (2 * pre.length) p|)]
    rw [Finset.sum_eq_single_of_mem c (Finset.mem_range.2 hc)]
    · simp [unit]
    · intro p _ hp
      simp [unit, hp]
  calc _ ≤ ∑ i ∈ Finset.range m, ∑ j ∈ Finset.range n, ∑ r ∈ Finset.range (lastWidth k pre), |netValue k (layerFns θ 0 pre) a i r| * |e r j| := by
        refine Finset.sum_le_sum fun i _ => Finset.sum_le_sum fun j _ => (Finset.abs_sum_le_sum_abs _ _).trans (le_of_eq ?_)
        exact Finset.sum_congr rfl fun r _ => abs_mul _ _
    _ = ∑ r ∈ Finset.range (lastWidth k pre), ∑ j ∈ Finset.range n, (∑ i ∈ Finset.range m, |netValue k (layerFns θ 0 pre) a i r|) * |e r j| := by
        simp only [Finset.sum_mul]
        rw [Finset.sum_comm, Finset.sum_comm (s := Finset.range (lastWidth k pre))]
        refine Finset.sum_congr rfl fun j _ => ?_
        rw [Finset.sum_comm]
    _ ≤ ∑ r ∈ Finset.range (lastWidth k pre), ∑ j ∈ Finset.range n, S * |e r j| :=
        Finset.sum_le_sum fun r hr => Finset.sum_le_sum fun j _ => mul_le_mul_of_nonneg_right (hS r (Finset.mem_range.1 hr)) (abs_nonneg _)
    _ = S := by
        simp only [← Finset.mul_sum]
        rw [hsum, mul_one]

theorem lossTangent_bias {m k n : Nat} {f : Act} {pre post : List (Nat × Act)} {a y θ : Nat → Nat → ℝ} {rs : List ℝ} {c : Nat}
    (hrs : RowSums θ n (2 * pre.length + 2) post rs) :
    |lossTangent m k (pre ++ (n, f) :: post) a y θ (unit (2 * pre.length + 1) c)| ≤ m * rs.prod := by
  refine lossTangent_bound (δ := unit _ _) (fun q h1 h2 c' => if_neg (by tauto)) hrs ?_
  have h0 : ∀ r j, shuffledMat (lastWidth k pre) n (fun i j => unit (2 * pre.length + 1) c (2 * pre.length) (i * n + j)) r j = 0 :=
    fun r j => if_neg (by omega)
  simp only [h0, mul_zero, Finset.sum_const_zero, zero_add]
  rw [Finset.sum_const, Finset.card_range, nsmul_eq_mul]
  refine mul_le_of_le_one_right (Nat.cast_nonneg _) ?_
  have h1 : ∀ j, |unit (2 * pre.length + 1) c (2 * pre.length + 1) j| = if j = c then 1 else 0 := by
    intro j
    unfold unit
    split <;> rename_i h <;> simp_all
  simp only [h1]
  rw [Finset.sum_ite_eq']
  split <;> norm_num

theorem descend_weight {m k n : Nat} {f : Act} {pre post : List (Nat × Act)} {a b θ : Nat → Nat → ℝ} {rs : List ℝ} {c : Nat} {lr : ℝ}
    (hrs : RowSums θ n (2 * pre.length + 2) post rs) (hc : c < lastWidth k pre * n) {S : ℝ}
    (hS : ∀ r < lastWidth k pre, ∑ i ∈ Finset.range m, |netValue k (layerFns θ 0 pre) a i r| ≤ S) :
    |shuffledDescend lr m k (pre ++ (n, f) :: post) a b θ (2 * pre.length) c - θ (2 * pre.length) c| ≤ |lr| * (S * rs.prod) := by
  rw [shuffledDescend, sub_sub_cancel_left, abs_neg, abs_mul]
  exact mul_le_mul_of_nonneg_left (lossTangent_weight hrs hc hS) (abs_nonneg _)

theorem descend_bias {m k n : Nat} {f : Act} {pre post : List (Nat × Act)} {a b θ : Nat → Nat → ℝ} {rs : List ℝ} {c : Nat} {lr : ℝ}
    (hrs : RowSums θ n (2 * pre.length + 2) post rs) :
    |shuffledDescend lr m k (pre ++ (n, f) :: post) a b θ (2 * pre.length + 1) c - θ (2 * pre.length + 1) c| ≤ |lr| * (m * rs.prod) := by
  rw [shuffledDescend, sub_sub_cancel_left, abs_neg, abs_mul]
  exact mul_le_mul_of_nonneg_left (lossTangent_bias hrs) (abs_nonneg _)

theorem moves {step : (Nat → Nat → ℝ) → Nat → Nat → ℝ} {q c : Nat} {B : ℝ} (h : ∀ θ, |step θ q c - θ q c| ≤ B) :
    ∀ (t : Nat) (θ : Nat → Nat → ℝ), |step^[t] θ q c - θ q c| ≤ t * B
  | 0, θ => by simp
  | t + 1, θ => by
    rw [Function.iterate_succ_apply']
    have h1 := moves h t θ
    have h2 := h (step^[t] θ)
    have h3 := abs_sub_le (step (step^[t] θ) q c) (step^[t] θ q c) (θ q c)
    push_cast
    linarith

theorem netValue_tanh {θ : Nat → Nat → ℝ} : ∀ (pre : List (Nat × Act)) (n k q : Nat) (a : Nat → Nat → ℝ) (i r : Nat),
    |netValue k (layerFns θ q (pre ++ [(n, .tanh)])) a i r| ≤ 1
  | [], n, k, q, a, i, r => by
    have h := Real.tanh_sq_lt_one (affine k a (fun i j => θ q (i * n + j)) (θ (q + 1)) i r)
    exact abs_le_one_iff_mul_self_le_one.2 (by rw [← sq]; exact h.le)
  | (n', f') :: pre, n, k, q, a, i, r => netValue_tanh pre n n' (q + 2) _ i r

theorem sum_tanh_le (m : Nat) (f : Nat → ℝ) (h : ∀ i, |f i| ≤ 1) : ∑ i ∈ Finset.range m, |f i| ≤ m := by
  refine (Finset.sum_le_sum fun i _ => h i).trans ?_
  simp

theorem grows_of_moves {F : Nat → ℝ} {D : ℝ} {e : Nat} (hD : 0 ≤ D) (h : ∀ t : Nat, |F (t + 1) - F t| ≤ D * ((t : ℝ) + 1) ^ e) :
    ∀ t : Nat, |F t| ≤ |F 0| + t * D * ((t : ℝ) + 1) ^ e
  | 0 => by simp
  | t + 1 => by
    have h1 := grows_of_moves hD h t
    have h2 := h t
    have h3 : |F (t + 1)| ≤ |F (t + 1) - F t| + |F t| := by
      have := abs_add_le (F (t + 1) - F t) (F t)
      rwa [sub_add_cancel] at this
    have h4 : ((t : ℝ) + 1) ^ e ≤ (((t + 1 : ℕ) : ℝ) + 1) ^ e := pow_le_pow_left₀ (by positivity) (by push_cast; linarith) e
    have h5 : (t * D + D) * ((t : ℝ) + 1) ^ e ≤ (t * D + D) * (((t + 1 : ℕ) : ℝ) + 1) ^ e := mul_le_mul_of_nonneg_left h4 (by positivity)
    have h6 : ((t + 1 : ℕ) : ℝ) * D = t * D + D := by push_cast; ring
    rw [h6]
    linarith

theorem grows_pow {F : Nat → ℝ} {D M : ℝ} {e : Nat} (hD : 0 ≤ D) (hM : |F 0| ≤ M) (h : ∀ t : Nat, |F (t + 1) - F t| ≤ D * ((t : ℝ) + 1) ^ e) (t : Nat) :
    |F t| ≤ (M + D) * ((t : ℝ) + 1) ^ (e + 1) := by
  have hM0 : 0 ≤ M := (abs_nonneg _).trans hM
  have h1 := grows_of_moves hD h t
  have h2 : (1 : ℝ) ≤ ((t : ℝ) + 1) ^ (e + 1) := one_le_pow₀ (by have : (0 : ℝ) ≤ t := Nat.cast_nonneg t; linarith)
  have h3 : t * D * ((t : ℝ) + 1) ^ e ≤ D * ((t : ℝ) + 1) ^ (e + 1) := by
    rw [pow_succ]
    have h4 : (0 : ℝ) ≤ D * ((t : ℝ) + 1) ^ e := by positivity
    nlinarith
  have h4 : M ≤ M * ((t : ℝ) + 1) ^ (e + 1) := le_mul_of_one_le_right hM0 h2
  linarith

section

variable {m k : Nat} {a b : Nat → Nat → ℝ} {lr : ℝ}

theorem sum_input_le {θ : Nat → Nat → ℝ} {pre : List (Nat × Act)} (hd : ∀ d ∈ pre, d.2 = .tanh) : ∀ r < lastWidth k pre,
    ∑ i ∈ Finset.range m, |netValue k (layerFns θ 0 pre) a i r| ≤ m + ∑ i ∈ Finset.range m, ∑ j ∈ Finset.range k, |a i j| := by
  intro r hr
  have h0 : 0 ≤ ∑ i ∈ Finset.range m, ∑ j ∈ Finset.range k, |a i j| := Finset.sum_nonneg fun i _ => Finset.sum_nonneg fun j _ => abs_nonneg _
  rcases List.eq_nil_or_concat pre with rfl | ⟨pre', ⟨n', f'⟩, rfl⟩
  · have h1 : ∀ i ∈ Finset.range m, |netValue k (layerFns θ 0 []) a i r| ≤ ∑ j ∈ Finset.range k, |a i j| := fun i _ =>
      Finset.single_le_sum (f := fun j => |a i j|) (fun j _ => abs_nonneg _) (Finset.mem_range.2 hr)
    have h2 := Finset.sum_le_sum h1
    have : (0 : ℝ) ≤ m := Nat.cast_nonneg m
    linarith
  · obtain rfl : f' = .tanh := hd (n', f') (by simp)
    have h1 := sum_tanh_le m _ (fun i => netValue_tanh (θ := θ) pre' n' k 0 a i r)
    simp only [List.concat_eq_append] at *
    linarith

theorem params_grow {n : Nat} {f : Act} {pre post : List (Nat × Act)} {θ : Nat → Nat → ℝ} (hd : ∀ d ∈ pre, d.2 = .tanh) {C : ℝ} {e : Nat}
    (hC : 0 ≤ C) (hrs : ∀ t : Nat, ∃ rs, RowSums ((shuffledDescend lr m k (pre ++ (n, f) :: post) a b)^[t] θ) n (2 * pre.length + 2) post rs ∧
      rs.prod ≤ C * ((t : ℝ) + 1) ^ e) :
    ∃ C', 0 ≤ C' ∧ ∀ t : Nat, (∀ c < n, |(shuffledDescend lr m k (pre ++ (n, f) :: post) a b)^[t] θ (2 * pre.length + 1) c| ≤ C' * ((t : ℝ) + 1) ^ (e + 1)) ∧
      ∀ c < lastWidth k pre * n, |(shuffledDescend lr m k (pre ++ (n, f) :: post) a b)^[t] θ (2 * pre.length) c| ≤ C' * ((t : ℝ) + 1) ^ (e + 1) := by
  set step := shuffledDescend lr m k (pre ++ (n, f) :: post) a b with hstep
  set A := ∑ i ∈ Finset.range m, ∑ j ∈ Finset.range k, |a i j| with hA
  have hA0 : 0 ≤ A := Finset.sum_nonneg fun i _ => Finset.sum_nonneg fun j _ => abs_nonneg _
  set M := ∑ c ∈ Finset.range n, |θ (2 * pre.length + 1) c| + ∑ c ∈ Finset.range (lastWidth k pre * n), |θ (2 * pre.length) c| with hM
  have hM1 : 0 ≤ ∑ c ∈ Finset.range n, |θ (2 * pre.length + 1) c| := Finset.sum_nonneg fun i _ => abs_nonneg _
  have hM2 : 0 ≤ ∑ c ∈ Finset.range (lastWidth k pre * n), |θ (2 * pre.length) c| := Finset.sum_nonneg fun i _ => abs_nonneg _
  have hm : (0 : ℝ) ≤ m := Nat.cast_nonneg m
  refine ⟨M + |lr| * ((m + A) * C), by positivity, fun t => ⟨fun c hc => ?_, fun c hc => ?_⟩⟩
  · refine grows_pow (F := fun t => step^[t] θ (2 * pre.length + 1) c) (by positivity) ?_ (fun s => ?_) t
    · have := Finset.single_le_sum (f := fun c => |θ (2 * pre.length + 1) c|) (fun j _ => abs_nonneg _) (Finset.mem_range.2 hc)
      simp only [Function.iterate_zero, id_eq]
      linarith
    · obtain ⟨rs, h1, h2⟩ := hrs s
      rw [Function.iterate_succ_apply']
      refine (descend_bias h1).trans ?_
      rw [mul_assoc, mul_assoc]
      refine mul_le_mul_of_nonneg_left ?_ (abs_nonneg _)
      exact mul_le_mul (by linarith) h2 h1.prod_nonneg (by positivity)
  · refine grows_pow (F := fun t => step^[t] θ (2 * pre.length) c) (by positivity) ?_ (fun s => ?_) t
    · have := Finset.single_le_sum (f := fun c => |θ (2 * pre.length) c|) (fun j _ => abs_nonneg _) (Finset.mem_range.2 hc)
      simp only [Function.iterate_zero, id_eq]
      linarith
    · obtain ⟨rs, h1, h2⟩ := hrs s
      rw [Function.iterate_succ_apply']
      refine (descend_weight h1 hc (sum_input_le hd)).trans ?_
      rw [mul_assoc, mul_assoc]
      refine mul_le_mul_of_nonneg_left ?_ (abs_nonneg _)
      exact mul_le_mul le_rfl h2 h1.prod_nonneg (by positivity)

theorem rows_grow {θ : Nat → Nat → ℝ} {ds : List (Nat × Act)} (hd : ∀ d ∈ ds.dropLast, d.2 = .tanh) : ∀ (post pre : List (Nat × Act)), ds = pre ++ post →
    ∃ C, 0 ≤ C ∧ ∀ t : Nat, ∃ rs, RowSums ((shuffledDescend lr m k ds a b)^[t] θ) (lastWidth k pre) (2 * pre.length) post rs ∧
      rs.prod ≤ C * ((t : ℝ) + 1) ^ (2 ^ post.length - 1)
  | [], _, _ => ⟨1, zero_le_one, fun t => ⟨[], trivial, by simp⟩⟩
  | (n, f) :: post, pre, e => by
    obtain ⟨C, hC, h1⟩ := rows_grow hd post (pre ++ [(n, f)]) (by simp [e])
    have h1 : ∀ t : Nat, ∃ rs, RowSums ((shuffledDescend lr m k ds a b)^[t] θ) n (2 * pre.length + 2) post rs ∧
        rs.prod ≤ C * ((t : ℝ) + 1) ^ (2 ^ post.length - 1) := by
      intro t
      obtain ⟨rs, k1, k2⟩ := h1 t
      rw [lastWidth_append] at k1
      exact ⟨rs, by simpa [lastWidth, Nat.mul_add] using k1, k2⟩
    have hp : 2 ^ post.length - 1 + 1 = 2 ^ post.length := Nat.sub_add_cancel (Nat.one_le_two_pow)
    obtain ⟨C', hC', h2⟩ := params_grow (pre := pre) (post := post) (n := n) (f := f) (θ := θ) (e := 2 ^ post.length - 1) (m := m) (k := k) (a := a) (b := b) (lr := lr)
      (fun d hd' => hd d (by rw [e, List.dropLast_append_of_ne_nil (by simp)]; exact List.mem_append_left _ hd')) hC (by rw [← e]; exact h1)
    rw [← e] at h2
    refine ⟨n * C' * C, by positivity, fun t => ?_⟩
    obtain ⟨rs, k1, k2⟩ := h1 t
    refine ⟨(n * (C' * ((t : ℝ) + 1) ^ 2 ^ post.length)) :: rs, ⟨⟨by positivity, fun i hi => ?_⟩, k1⟩, ?_⟩
    · refine (Finset.sum_le_sum fun j hj => ?_).trans (le_of_eq (?_ : ∑ j ∈ Finset.range n, C' * ((t : ℝ) + 1) ^ 2 ^ post.length = _))
      · have h3 := (h2 t).2 (i * n + j) (mul_add_lt hi (Finset.mem_range.1 hj))
        rwa [hp] at h3
      · simp
    · rw [List.prod_cons, List.length_cons]
      have e1 : 2 ^ (post.length + 1) - 1 = 2 ^ post.length + (2 ^ post.length - 1) := by rw [pow_succ]; omega
      rw [e1, pow_add]
      calc _ ≤ (n * (C' * ((t : ℝ) + 1) ^ 2 ^ post.length)) * (C * ((t : ℝ) + 1) ^ (2 ^ post.length - 1)) :=
            mul_le_mul_of_nonneg_left k2 (by positivity)
        _ = _ := by ring

end

end RL
