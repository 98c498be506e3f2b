import Verif.Lemmas.Balance
import Verif.Lemmas.UnitsWide

/-!
# What feeds a unit and what reads it: for which layers
-/

namespace RL

open Spec

/-! ## the derivative that the program computes is linear -/

theorem netTangent_add (m : Nat) (θ δ δ' : Nat → Nat → ℝ) : ∀ (ds : List (Nat × Act)) (k q : Nat) (a da da' : Nat → Nat → ℝ) (i j : Nat),
    netTangent m θ (δ + δ') k q ds a (da + da') i j = netTangent m θ δ k q ds a da i j + netTangent m θ δ' k q ds a da' i j := by
  intro ds
  induction ds with
  | nil => intros; rfl
  | cons d ds ih =>
    obtain ⟨n, f⟩ := d
    intro k q a da da' i j
    simp only [netTangent]
    rw [← ih]
    congr 1
    funext i j
    simp only [Pi.add_apply, shuffledMat]
    rw [← mul_add]
    congr 1
    rw [add_add_add_comm, ← Finset.sum_add_distrib]
    congr 1
    exact Finset.sum_congr rfl fun r _ => by ring

/-- the derivative of the loss that the program computes, as a linear map -/
noncomputable def tangentMap (m k : Nat) (ds : List (Nat × Act)) (a y θ : Nat → Nat → ℝ) : (Nat → Nat → ℝ) →ₗ[ℝ] ℝ where
  toFun := lossTangent m k ds a y θ
  map_add' δ δ' := by
    simp only [lossTangent, ← Finset.sum_add_distrib, ← mul_add]
    refine Finset.sum_congr rfl fun i _ => Finset.sum_congr rfl fun j _ => ?_
    rw [← netTangent_add]
    congr 2
    funext i j
    simp
  map_smul' s δ := by
    rw [RingHom.id_apply, smul_eq_mul, ← lossTangent_smul]
    rfl

/-- the two sides of the balance are equal if and only if the loss does not change in the direction that makes the unit larger -/
theorem balanced_iff {n n' j : Nat} {f f' : Act} {pre post : List (Nat × Act)} {m k : Nat} (a y θ : Nat → Nat → ℝ) {lr : ℝ} (hlr : lr ≠ 0) :
    inDot (lastWidth k pre) (2 * pre.length) n j θ (shuffledDescend lr m k (pre ++ (n, f) :: (n', f') :: post) a y θ - θ) =
      outDot (2 * pre.length) n' j θ (shuffledDescend lr m k (pre ++ (n, f) :: (n', f') :: post) a y θ - θ) ↔
    lossTangent m k (pre ++ (n, f) :: (n', f') :: post) a y θ (unitDir (lastWidth k pre) (2 * pre.length) n n' j θ) = 0 := by
  have hd : ∀ q c, (shuffledDescend lr m k (pre ++ (n, f) :: (n', f') :: post) a y θ - θ) q c =
      -lr * lossTangent m k (pre ++ (n, f) :: (n', f') :: post) a y θ (unit q c) := by
    intro q c
    simp only [Pi.sub_apply, shuffledDescend]
    change θ q c - lr * lossTangent m k _ a y θ (unit q c) - θ q c = _
    ring
  change _ ↔ tangentMap m k _ a y θ _ = 0
  rw [unitDir, map_sub, map_add, map_sum, map_sum, sub_eq_zero]
  simp only [map_smul, smul_eq_mul]
  simp only [inDot, outDot, hd, mul_left_comm _ (-lr), ← Finset.mul_sum, ← mul_add]
  rw [mul_right_inj' (neg_ne_zero.2 hlr)]
  rfl

/-! ## layers of which nothing is shuffled -/

theorem netTangent_unitDir {q n n' j m : Nat} {f f' : Act} {post : List (Nat × Act)} (hf : f ≠ .tanh) (hj : j < n) (θ : Nat → Nat → ℝ) :
    ∀ (pre : List (Nat × Act)) (k p : Nat) (a : Nat → Nat → ℝ), p + 2 * pre.length = q → lastWidth k pre * n ≤ 32 → m * n ≤ 32 → n * n' ≤ 32 →
    ∀ i < m, ∀ c < lastWidth k (pre ++ (n, f) :: (n', f') :: post),
    netTangent m θ (unitDir (lastWidth k pre) q n n' j θ) k p (pre ++ (n, f) :: (n', f') :: post) a (fun _ _ => 0) i c = 0 := by
  intro pre
  induction pre with
  | nil =>
    intro k p a hp h1 h2 h3 i hi c hc
    obtain rfl : p = q := by simpa using hp
    simp only [List.nil_append, netTangent, lastWidth] at h1 ⊢
    rw [netTangent_congr m θ _ (fun _ _ => 0) post n' (p + 2 + 2) _ _ (fun _ _ => 0) (fun r hr => ?_) (fun i hi c hc => ?_) i hi c hc, netTangent_zero]
    · have := coords_ge _ _ _ _ hr
      exact unitDir_other θ (by omega)
    · have hdz : ∀ r < n, f.slope (affine k a (fun i j => θ p (i * n + j)) (θ (p + 1)) i r) *
          ((∑ kk ∈ Finset.range k, (shuffledMat m k (fun _ _ => 0) i kk * θ p (kk * n + r) +
            a i kk * shuffledMat k n (fun i j' => unitDir k p n n' j θ p (i * n + j')) kk r)) + unitDir k p n n' j θ (p + 1) r) =
          if r = j then f.fn (affine k a (fun i j => θ p (i * n + j)) (θ (p + 1)) i j) else 0 := by
        intro r hr
        rw [unitDir_bias]
        have hs : ∑ kk ∈ Finset.range k, (shuffledMat m k (fun _ _ => 0) i kk * θ p (kk * n + r) +
            a i kk * shuffledMat k n (fun i j' => unitDir k p n n' j θ p (i * n + j')) kk r) =
            if r = j then ∑ kk ∈ Finset.range k, a i kk * θ p (kk * n + j) else 0 := by
          split
          · rename_i h
            refine Finset.sum_congr rfl fun kk hk => ?_
            rw [shuffledMat_small h1 _ (Finset.mem_range.1 hk) hr, unitDir_weights θ (Finset.mem_range.1 hk) hj hr, if_pos h]
            simp [shuffledMat]
          · rename_i h
            refine Finset.sum_eq_zero fun kk hk => ?_
            rw [shuffledMat_small h1 _ (Finset.mem_range.1 hk) hr, unitDir_weights θ (Finset.mem_range.1 hk) hj hr, if_neg h]
            simp [shuffledMat]
        rw [hs]
        split
        · rename_i h
          subst h
          rw [← Act.slope_mul hf]
          congr 1
          rw [affine_sum]
        · rw [add_zero, mul_zero]
      have hb : unitDir k p n n' j θ (p + 2 + 1) c = 0 := unitDir_other θ (by omega)
      rw [hb, add_zero, Finset.sum_eq_zero, mul_zero]
      intro r hr
      rw [Finset.mem_range] at hr
      rw [shuffledMat_small h2 _ hi hr, shuffledMat_small h3 _ hr hc, hdz r hr, unitDir_next θ hc]
      split
      · rename_i h
        subst h
        ring
      · ring
  | cons d pre ih =>
    obtain ⟨w, g⟩ := d
    intro k p a hp h1 h2 h3 i hi c hc
    simp only [List.length_cons] at hp
    have e1 : ∀ c, unitDir (lastWidth w pre) q n n' j θ p c = 0 := fun c => unitDir_other θ (by omega)
    have e2 : ∀ c, unitDir (lastWidth w pre) q n n' j θ (p + 1) c = 0 := fun c => unitDir_other θ (by omega)
    simp only [List.cons_append, netTangent, lastWidth, e1, e2, shuffledMat, zero_mul, mul_zero, add_zero, Finset.sum_const_zero]
    exact ih w (p + 2) _ (by omega) h1 h2 h3 i hi c hc

theorem lossTangent_unitDir {n n' j : Nat} {f f' : Act} {pre post : List (Nat × Act)} (hf : f ≠ .tanh) (hj : j < n) {m k : Nat} (a y θ : Nat → Nat → ℝ)
    (h1 : lastWidth k pre * n ≤ 32) (h2 : m * n ≤ 32) (h3 : n * n' ≤ 32) :
    lossTangent m k (pre ++ (n, f) :: (n', f') :: post) a y θ (unitDir (lastWidth k pre) (2 * pre.length) n n' j θ) = 0 := by
  refine Finset.sum_eq_zero fun i hi => Finset.sum_eq_zero fun c hc => ?_
  rw [netTangent_unitDir hf hj θ pre k 0 a (by omega) h1 h2 h3 i (Finset.mem_range.1 hi) c (Finset.mem_range.1 hc), mul_zero]

theorem balance_wide {n n' j : Nat} {f f' : Act} {pre post : List (Nat × Act)} (hf : f ≠ .tanh) (hj : j < n) {m k : Nat} (a b θ : Nat → Nat → ℝ) (lr : ℝ)
    (h1 : lastWidth k pre * n ≤ 32) (h2 : m * n ≤ 32) (h3 : n * n' ≤ 32) :
    inDot (lastWidth k pre) (2 * pre.length) n j θ (shuffledDescend lr m k (pre ++ (n, f) :: (n', f') :: post) a b θ - θ) =
      outDot (2 * pre.length) n' j θ (shuffledDescend lr m k (pre ++ (n, f) :: (n', f') :: post) a b θ - θ) := by
  by_cases hlr : lr = 0
  · have h0 : shuffledDescend lr m k (pre ++ (n, f) :: (n', f') :: post) a b θ - θ = 0 := by
      funext q c
      simp [shuffledDescend, hlr]
    rw [h0]
    simp [inDot, outDot]
  · exact (balanced_iff a b θ hlr).2 (lossTangent_unitDir hf hj a b θ h1 h2 h3)

/-! ## the other layers -/

theorem Spec.Act.slope_pos' (f : Act) {x : ℝ} (hx : 0 ≤ x) : 0 < f.slope x := by
  rcases hx.eq_or_lt with rfl | h
  · rw [f.slope_zero]
    exact one_pos
  · exact f.slope_pos h

theorem Spec.Act.fn_nonneg (f : Act) {x : ℝ} (hx : 0 ≤ x) : 0 ≤ f.fn x := by
  rcases hx.eq_or_lt with rfl | h
  · rw [f.fn_zero]
  · exact (f.fn_pos h).le

theorem affine_nonneg {k : Nat} {x w : Nat → Nat → ℝ} {b : Nat → ℝ} (hx : ∀ i j, 0 ≤ x i j) (hw : ∀ i j, 0 ≤ w i j) (hb : ∀ j, 0 ≤ b j) (i j : Nat) :
    0 ≤ affine k x w b i j := by
  rw [affine_sum]
  exact add_nonneg (Finset.sum_nonneg fun _ _ => mul_nonneg (hx _ _) (hw _ _)) (hb _)

/-- one layer of `follow_pos` -/
theorem follow_pos_step {m k n q p : Nat} {θ δ : Nat → Nat → ℝ} (hn : 0 < n) (hp : p < m * k) (hw : ∀ c, θ q c = if c = p % k * n then 1 else 0)
    (hδ0 : ∀ c, δ q c = 0) (hδ : δ (q + 1) 0 = 0) (A D : Nat → Nat → ℝ) :
    (∑ kk ∈ Finset.range k, (shuffledMat m k D (p / k) kk * θ q (kk * n + 0) + A (p / k) kk * shuffledMat k n (fun i j => δ q (i * n + j)) kk 0)) + δ (q + 1) 0 =
    D (shuffle (m * k) p / k) (shuffle (m * k) p % k) := by
  have hk : 0 < k := Nat.pos_of_ne_zero fun h => by simp [h] at hp
  have hs : ∀ kk, shuffledMat k n (fun i j => δ q (i * n + j)) kk 0 = 0 := fun kk => hδ0 _
  simp only [hs, mul_zero, add_zero]
  rw [hδ, add_zero, Finset.sum_eq_single (p % k)]
  · rw [hw, if_pos rfl, mul_one, shuffledMat, Nat.div_add_mod']
  · intro kk _ hne
    rw [hw, if_neg fun h => hne (Nat.eq_of_mul_eq_mul_right hn h), mul_zero]
  · exact fun h => absurd (Finset.mem_range.2 (Nat.mod_lt _ hk)) h

/-- as `follow`, for values that are not negative: what comes out in some place is a positive multiple of the element -/
theorem follow_pos {m : Nat} : ∀ (ds : List (Nat × Act)) (n : Nat) (f : Act) (k q p : Nat), 0 < n → (∀ d ∈ ds, 0 < d.1) → p < m * k →
    ∃ (Θ : Nat → Nat → ℝ) (ρ γ : Nat), ρ < m ∧ γ < lastWidth n ds ∧
    ∀ θ : Nat → Nat → ℝ, (∀ p ≥ q, θ p = Θ p) → ∀ A : Nat → Nat → ℝ, (∀ i j, 0 ≤ A i j) → ∃ κ > 0,
    ∀ δ D : Nat → Nat → ℝ, (∀ p ≥ q, ∀ c, δ p c = 0) →
    netTangent m θ δ k q ((n, f) :: ds) A D ρ γ = κ * D (shuffle (m * k) p / k) (shuffle (m * k) p % k) := by
  intro ds
  induction ds with
  | nil =>
    intro n f k q p hn _ hp
    have hk : 0 < k := Nat.pos_of_ne_zero fun h => by simp [h] at hp
    refine ⟨fun t c => if t = q ∧ c = p % k * n then 1 else 0, p / k, 0, (Nat.div_lt_iff_lt_mul hk).2 hp, hn, fun θ hθ A hA => ?_⟩
    have hb : ∀ j, θ (q + 1) j = 0 := fun j => by rw [hθ _ (by omega)]; simp
    have hw : ∀ c, θ q c = if c = p % k * n then 1 else 0 := fun c => by rw [hθ _ le_rfl]; simp
    refine ⟨_, f.slope_pos' (affine_nonneg (k := k) hA (w := fun i j => θ q (i * n + j)) (b := θ (q + 1)) (fun i j => ?_) (fun j => (hb j).ge) (p / k) 0), fun δ D hδ => ?_⟩
    · rw [hw]
      split <;> norm_num
    · simp only [netTangent]
      rw [follow_pos_step hn hp hw (hδ _ le_rfl) (hδ _ (by omega) _) A D]
  | cons d ds ih =>
    obtain ⟨n', f'⟩ := d
    intro n f k q p hn hd hp
    have hk : 0 < k := Nat.pos_of_ne_zero fun h => by simp [h] at hp
    have hr := (Nat.div_lt_iff_lt_mul hk).2 hp
    obtain ⟨p', hp', e⟩ := shuffle_surj (show p / k * n + 0 < m * n from mul_add_lt hr hn)
    obtain ⟨Θ, ρ, γ, hρ, hγ, H⟩ := ih n' f' n (q + 2) p' (hd _ List.mem_cons_self) (fun d h => hd d (List.mem_cons_of_mem _ h)) hp'
    refine ⟨fun t c => if t = q then (if c = p % k * n then 1 else 0) else if t = q + 1 then 0 else Θ t c, ρ, γ, hρ, hγ, fun θ hθ A hA => ?_⟩
    have hb : ∀ j, θ (q + 1) j = 0 := fun j => by rw [hθ _ (by omega)]; simp
    have hw : ∀ c, θ q c = if c = p % k * n then 1 else 0 := fun c => by rw [hθ _ le_rfl]; simp
    have hz : ∀ i j, 0 ≤ affine k A (fun i j => θ q (i * n + j)) (θ (q + 1)) i j := affine_nonneg hA (fun i j => by
      rw [hw]
      split <;> norm_num) fun j => (hb j).ge
    obtain ⟨κ, hκ, H⟩ := H θ (fun t ht => by
      rw [hθ t (by omega)]
      funext c
      dsimp only
      rw [if_neg (by omega), if_neg (by omega)]) _ fun i j => f.fn_nonneg (hz i j)
    refine ⟨κ * _, mul_pos hκ (f.slope_pos' (hz (p / k) 0)), fun δ D hδ => ?_⟩
    rw [netTangent, H _ _ fun t ht => hδ t (by omega), e]
    have h3 : (p / k * n + 0) / n = p / k := by rw [Nat.add_zero, Nat.mul_div_cancel _ hn]
    have h4 : (p / k * n + 0) % n = 0 := by rw [Nat.add_zero, Nat.mul_mod_left]
    rw [h3, h4, follow_pos_step hn hp hw (hδ _ le_rfl) (hδ _ (by omega) _) A D, mul_assoc]

theorem follow_pos_any {m : Nat} (ds : List (Nat × Act)) (k q r c : Nat) (hd : ∀ d ∈ ds, 0 < d.1) (hr : r < m) (hc : c < k) :
    ∃ (Θ : Nat → Nat → ℝ) (ρ γ : Nat), ρ < m ∧ γ < lastWidth k ds ∧
    ∀ θ : Nat → Nat → ℝ, (∀ p ≥ q, θ p = Θ p) → ∀ A : Nat → Nat → ℝ, (∀ i j, 0 ≤ A i j) → ∃ κ > 0,
    ∀ δ D : Nat → Nat → ℝ, (∀ p ≥ q, ∀ c, δ p c = 0) → netTangent m θ δ k q ds A D ρ γ = κ * D r c := by
  cases ds with
  | nil => exact ⟨fun _ _ => 0, r, c, hr, hc, fun θ _ A _ => ⟨1, one_pos, fun δ D _ => (one_mul _).symm⟩⟩
  | cons d ds =>
    obtain ⟨n, f⟩ := d
    obtain ⟨p, hp, e⟩ := shuffle_surj (mul_add_lt hr hc)
    obtain ⟨Θ, ρ, γ, hρ, hγ, H⟩ := follow_pos ds n f k q p (hd _ List.mem_cons_self) (fun d h => hd d (List.mem_cons_of_mem _ h)) hp
    refine ⟨Θ, ρ, γ, hρ, hγ, fun θ hθ A hA => ?_⟩
    obtain ⟨κ, hκ, H⟩ := H θ hθ A hA
    refine ⟨κ, hκ, fun δ D hδ => ?_⟩
    rw [H δ D hδ, e, Nat.mul_comm r k, Nat.mul_add_div (by omega), Nat.div_eq_of_lt hc, Nat.mul_add_mod, Nat.mod_eq_of_lt hc, Nat.add_zero]

/-- the steps for two expected outputs show the derivative of one output -/
theorem lossTangent_two {m k : Nat} {ds : List (Nat × Act)} {a θ : Nat → Nat → ℝ} {ρ γ : Nat} (hρ : ρ < m) (hγ : γ < lastWidth k ds) (δ : Nat → Nat → ℝ) :
    lossTangent m k ds a (netValue k (layerFns θ 0 ds) a) θ δ -
      lossTangent m k ds a (fun i j => netValue k (layerFns θ 0 ds) a i j + if i = ρ ∧ j = γ then 1 else 0) θ δ =
      2 * netTangent m θ δ k 0 ds a (fun _ _ => 0) ρ γ := by
  simp only [lossTangent]
  rw [← Finset.sum_sub_distrib, Finset.sum_eq_single_of_mem ρ (Finset.mem_range.2 hρ), ← Finset.sum_sub_distrib,
    Finset.sum_eq_single_of_mem γ (Finset.mem_range.2 hγ)]
  · norm_num
    ring
  · intro j hj hne
    simp [hne]
  · intro i hi hne
    rw [← Finset.sum_sub_distrib]
    refine Finset.sum_eq_zero fun j hj => ?_
    simp [hne]

theorem unitDir_in {k q n n' j : Nat} (θ : Nat → Nat → ℝ) {c : Nat} (hc : c < k * n) (hj : j < n) :
    unitDir k q n n' j θ q c = if c % n = j then θ q c else 0 := by
  have h := unitDir_weights (q := q) (n' := n') θ ((Nat.div_lt_iff_lt_mul (by omega : 0 < n)).2 hc) hj (Nat.mod_lt c (by omega : 0 < n))
  rw [Nat.div_add_mod'] at h
  rw [h]
  split
  · next e => rw [← e, Nat.div_add_mod']
  · rfl

theorem unitDir_out {k q n n' j : Nat} (θ : Nat → Nat → ℝ) (hn' : 0 < n') (c : Nat) :
    unitDir k q n n' j θ (q + 2) c = if c / n' = j then -θ (q + 2) c else 0 := by
  have h := unitDir_next (k := k) (q := q) (n := n) (j := j) θ (r := c / n') (Nat.mod_lt c hn')
  rw [Nat.div_add_mod'] at h
  rw [h]
  split
  · next e => rw [← e, Nat.div_add_mod']
  · rfl

section

variable {m k n n' : Nat} {f f' : Act} {pre post : List (Nat × Act)}

/-- What the balance of unit `j` says for inputs in the first column, weights `w`, biases `b` and next weights `v` that are not negative, read
in row `r` and column `c` of the next layer. -/
theorem balance_says (hf : f ≠ .tanh) (hk : 0 < k) (hd : ∀ d ∈ pre ++ (n, f) :: (n', f') :: post, 0 < d.1)
    {w b v x : Nat → ℝ} (hw : ∀ c, 0 ≤ w c) (hb : ∀ c, 0 ≤ b c) (hv : ∀ c, 0 ≤ v c) (hx : ∀ i, 0 ≤ x i) {r c j : Nat} (hr : r < m) (hc : c < n') (hj : j < n)
    (H : ∀ θ y : Nat → Nat → ℝ, lossTangent m k (pre ++ (n, f) :: (n', f') :: post) (onPath x) y θ
      (unitDir (lastWidth k pre) (2 * pre.length) n n' j θ) = 0) :
    ∑ jj ∈ Finset.range n, (pathFn pre (x (shuffle (m * n) (r * n + jj) / n)) *
        (if shuffle (lastWidth k pre * n) (shuffle (m * n) (r * n + jj) % n) % n = j then w (shuffle (lastWidth k pre * n) (shuffle (m * n) (r * n + jj) % n)) else 0) +
        if shuffle (m * n) (r * n + jj) % n = j then b j else 0) * v (jj * n' + c) =
      ∑ jj ∈ Finset.range n, (pathFn pre (x r) * w jj + b jj) *
        if shuffle (n * n') (jj * n' + c) / n' = j then v (shuffle (n * n') (jj * n' + c)) else 0 := by
  have hn : 0 < n := hd (n, f) (by simp)
  have hn' : 0 < n' := hd (n', f') (by simp)
  have hpre : ∀ d ∈ pre, 0 < d.1 := fun d h => hd d (by simp [h])
  have hK := lastWidth_pos pre k hk hpre
  have hg : ∀ i, 0 ≤ pathFn pre (x i) := by
    intro i
    rcases (hx i).eq_or_lt with h | h
    · rw [← h, pathFn_zero]
    · exact (pathFn_pos pre h).le
  obtain ⟨Θ, ρ, γ, hρ, hγ, F⟩ := follow_pos_any (m := m) post n' (2 * pre.length + 4) r c (fun d h => hd d (by simp [h])) hr hc
  let θ : Nat → Nat → ℝ := fun t c => if t < 2 * pre.length then (if t % 2 = 0 ∧ c = 0 then 1 else 0) else if t = 2 * pre.length then w c else
    if t = 2 * pre.length + 1 then b c else if t = 2 * pre.length + 2 then v c else if t = 2 * pre.length + 3 then 0 else Θ t c
  have h0 : ∀ c, θ (2 * pre.length) c = w c := fun c => by simp [θ]
  have h1 : ∀ c, θ (2 * pre.length + 1) c = b c := fun c => by simp [θ]
  have h2 : ∀ c, θ (2 * pre.length + 2) c = v c := fun c => by simp [θ]
  have h3 : ∀ c, θ (2 * pre.length + 2 + 1) c = 0 := fun c => by
    simp only [θ]
    split_ifs <;> first | rfl | (exfalso; omega)
  have hF : Feed θ 0 pre := feed_mk pre 0 rfl fun t ht c => by
    simp only [θ]
    rw [if_pos (by omega)]
  have hz : ∀ i j, affine (lastWidth k pre) (onPath fun i => pathFn pre (x i)) (fun i j => θ (2 * pre.length) (i * n + j)) (θ (2 * pre.length + 1)) i j =
      pathFn pre (x i) * w j + b j := by
    intro i j
    rw [affine_sum, Finset.sum_eq_single 0]
    · simp [onPath, h0, h1]
    · intro r _ hr
      simp [onPath, hr]
    · exact fun h => absurd (Finset.mem_range.2 hK) h
  have hz0 : ∀ i j, 0 ≤ pathFn pre (x i) * w j + b j := fun i j => add_nonneg (mul_nonneg (hg i) (hw j)) (hb j)
  have hslope : ∀ z : ℝ, 0 ≤ z → f.slope z = 1 ∧ f.fn z = z := by
    intro z hz
    cases f with
    | identity => exact ⟨rfl, rfl⟩
    | tanh => exact absurd rfl hf
    | relu => exact ⟨if_neg (not_lt.2 hz), max_eq_left hz⟩
  have hz' : ∀ i j, 0 ≤ affine n (fun i j => pathFn pre (x i) * w j + b j) (fun i j => θ (2 * pre.length + 2) (i * n' + j)) (θ (2 * pre.length + 2 + 1)) i j :=
    affine_nonneg hz0 (fun i j => by rw [h2]; exact hv _) fun j => (h3 j).ge
  obtain ⟨κ, hκ, F⟩ := F θ (fun t ht => by
    funext c
    simp only [θ]
    rw [if_neg (by omega), if_neg (by omega), if_neg (by omega), if_neg (by omega), if_neg (by omega)]) _ fun i j => f'.fn_nonneg (hz' i j)
  have hN := lossTangent_two (a := onPath x) (θ := θ) hρ (show γ < lastWidth k (pre ++ (n, f) :: (n', f') :: post) by rw [lastWidth_append]; exact hγ)
    (unitDir (lastWidth k pre) (2 * pre.length) n n' j θ)
  rw [H, H, sub_zero, zero_eq_mul, or_iff_right two_ne_zero,
    (feed_before (m := m) ((n, f) :: (n', f') :: post) _ pre k 0 x hF hk hpre fun t ht c => unitDir_other θ (by omega)).1, Nat.zero_add] at hN
  simp only [netTangent] at hN
  simp only [hz, (hslope _ (hz0 _ _)).1, (hslope _ (hz0 _ _)).2, one_mul] at hN
  rw [F _ _ fun t ht c => unitDir_other θ (by omega)] at hN
  have hb3 : unitDir (lastWidth k pre) (2 * pre.length) n n' j θ (2 * pre.length + 2 + 1) c = 0 := unitDir_other θ (by omega)
  rw [hb3, add_zero, mul_eq_zero, or_iff_right hκ.ne', mul_eq_zero, or_iff_right (f'.slope_pos' (hz' r c)).ne', Finset.sum_add_distrib,
    add_eq_zero_iff_eq_neg, ← Finset.sum_neg_distrib] at hN
  convert hN using 2 with jj hjj jj hjj
  · rw [Finset.mem_range] at hjj
    rw [h2]
    congr 1
    simp only [shuffledMat]
    rw [Finset.sum_eq_single 0]
    · have hlt : shuffle (m * n) (r * n + jj) % n < n := Nat.mod_lt _ hn
      have hlt' : shuffle (lastWidth k pre * n) (shuffle (m * n) (r * n + jj) % n) < lastWidth k pre * n :=
        shuffle_lt (hlt.trans_le (Nat.le_mul_of_pos_left n hK))
      rw [zero_mul, zero_mul, zero_add, zero_add, Nat.div_add_mod', unitDir_in θ hlt' hj, unitDir_bias, h0, h1]
      simp [onPath]
    · intro kk _ hkk
      simp [onPath, hkk]
    · exact fun h => absurd (Finset.mem_range.2 hK) h
  · simp only [shuffledMat]
    rw [Nat.div_add_mod', unitDir_out θ hn', h2]
    split
    · ring
    · ring

end

end RL
