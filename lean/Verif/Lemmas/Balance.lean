import Verif.Lemmas.Units

/-!
# What feeds a unit and what reads it: lemmas
-/

namespace RL

open Spec

theorem Spec.Act.slope_mul {f : Act} (hf : f ≠ .tanh) (x : ℝ) : f.slope x * x = f.fn x := by
  cases f with
  | identity => simp [Act.slope, Act.fn]
  | tanh => exact absurd rfl hf
  | relu =>
    simp only [Act.slope, Act.fn]
    split
    · rename_i h
      rw [max_eq_right h.le, zero_mul]
    · rename_i h
      rw [max_eq_left (not_lt.1 h), one_mul]

theorem Spec.Act.fn_mul {f : Act} (hf : f ≠ .tanh) {s : ℝ} (hs : 0 < s) (x : ℝ) : f.fn (s * x) = s * f.fn x := by
  cases f with
  | identity => rfl
  | tanh => exact absurd rfl hf
  | relu => simp only [Act.fn]; rw [mul_max_of_nonneg _ _ hs.le, mul_zero]

/-- the direction that makes a unit larger and what reads it smaller -/
noncomputable def unitDir (k q n n' j : Nat) (θ : Nat → Nat → ℝ) : Nat → Nat → ℝ :=
  (∑ r ∈ Finset.range k, θ q (r * n + j) • unit q (r * n + j)) + θ (q + 1) j • unit (q + 1) j -
    ∑ c ∈ Finset.range n', θ (q + 2) (j * n' + c) • unit (q + 2) (j * n' + c)

theorem unitDir_apply (k q n n' j : Nat) (θ : Nat → Nat → ℝ) (p c : Nat) : unitDir k q n n' j θ p c =
    (∑ r ∈ Finset.range k, θ q (r * n + j) * unit q (r * n + j) p c) + θ (q + 1) j * unit (q + 1) j p c -
      ∑ s ∈ Finset.range n', θ (q + 2) (j * n' + s) * unit (q + 2) (j * n' + s) p c := by
  simp only [unitDir, Pi.sub_apply, Pi.add_apply, Finset.sum_apply, Pi.smul_apply, smul_eq_mul]

theorem unitDir_weights {k q n n' j : Nat} (θ : Nat → Nat → ℝ) {r j' : Nat} (hr : r < k) (hj : j < n) (hj' : j' < n) :
    unitDir k q n n' j θ q (r * n + j') = if j' = j then θ q (r * n + j) else 0 := by
  rw [unitDir_apply]
  have h1 : unit (q + 1) j q (r * n + j') = 0 := by simp [unit]
  have h2 : ∀ s, unit (q + 2) (j * n' + s) q (r * n + j') = 0 := by simp [unit]
  simp only [h1, h2, mul_zero, Finset.sum_const_zero, add_zero, sub_zero]
  split
  · rename_i h
    subst h
    rw [Finset.sum_eq_single r]
    · simp [unit]
    · intro b _ hb
      rw [unit, if_neg, mul_zero]
      rintro ⟨-, h⟩
      exact hb (Nat.eq_of_mul_eq_mul_right (by omega : 0 < n) (Nat.add_right_cancel h)).symm
    · exact fun h => absurd (Finset.mem_range.2 hr) h
  · rename_i h
    refine Finset.sum_eq_zero fun b _ => ?_
    rw [unit, if_neg, mul_zero]
    rintro ⟨-, e⟩
    have := congrArg (· % n) e
    simp only [Nat.mul_comm _ n, Nat.mul_add_mod, Nat.mod_eq_of_lt hj, Nat.mod_eq_of_lt hj'] at this
    exact h this

theorem unitDir_bias {k q n n' j : Nat} (θ : Nat → Nat → ℝ) {j' : Nat} :
    unitDir k q n n' j θ (q + 1) j' = if j' = j then θ (q + 1) j else 0 := by
  rw [unitDir_apply]
  simp [unit]

theorem unitDir_next {k q n n' j : Nat} (θ : Nat → Nat → ℝ) {r c : Nat} (hc : c < n') :
    unitDir k q n n' j θ (q + 2) (r * n' + c) = if r = j then -θ (q + 2) (j * n' + c) else 0 := by
  rw [unitDir_apply]
  have h1 : unit (q + 1) j (q + 2) (r * n' + c) = 0 := by simp [unit]
  have h2 : ∀ s, unit q (s * n + j) (q + 2) (r * n' + c) = 0 := by simp [unit]
  simp only [h1, h2, mul_zero, Finset.sum_const_zero, add_zero, zero_sub]
  split
  · rename_i h
    subst h
    rw [Finset.sum_eq_single c]
    · simp [unit]
    · intro b _ hb
      rw [unit, if_neg, mul_zero]
      rintro ⟨-, h⟩
      exact hb (Nat.add_left_cancel h).symm
    · exact fun h => absurd (Finset.mem_range.2 hc) h
  · rename_i h
    rw [neg_eq_zero]
    refine Finset.sum_eq_zero fun b hb => ?_
    rw [unit, if_neg, mul_zero]
    rintro ⟨-, e⟩
    have := congrArg (· / n') e
    rw [Finset.mem_range] at hb
    simp only [Nat.mul_comm _ n', Nat.mul_add_div (by omega : 0 < n'), Nat.div_eq_of_lt hc, Nat.div_eq_of_lt hb, Nat.add_zero] at this
    exact h this

theorem unitDir_other {k q n n' j : Nat} (θ : Nat → Nat → ℝ) {p c : Nat} (h : p < q ∨ q + 2 < p) : unitDir k q n n' j θ p c = 0 := by
  rw [unitDir_apply]
  have h1 : unit (q + 1) j p c = 0 := if_neg (by omega)
  have h2 : ∀ s, unit q (s * n + j) p c = 0 := fun s => if_neg (by omega)
  have h3 : ∀ s, unit (q + 2) (j * n' + s) p c = 0 := fun s => if_neg (by omega)
  simp [h1, h2, h3]

theorem netDiff_zero (θ : Nat → Nat → ℝ) : ∀ (ds : List (Nat × Act)) (k q : Nat) (a : Nat → Nat → ℝ) (i j : Nat),
    netDiff θ (fun _ _ => 0) k q ds a (fun _ _ => 0) i j = 0 := by
  intro ds
  induction ds with
  | nil => exact fun _ _ _ _ _ => rfl
  | cons d ds ih =>
    intro k q a i j
    simp only [netDiff, zero_mul, mul_zero, add_zero, Finset.sum_const_zero]
    exact ih _ _ _ i j

/-- the output does not change in this direction -/
theorem netDiff_unitDir {q n n' j : Nat} {f f' : Act} {post : List (Nat × Act)} (hf : f ≠ .tanh) (hj : j < n) (θ : Nat → Nat → ℝ) (i : Nat) :
    ∀ (pre : List (Nat × Act)) (k p : Nat) (a : Nat → Nat → ℝ), p + 2 * pre.length = q →
    ∀ c < lastWidth k (pre ++ (n, f) :: (n', f') :: post),
    netDiff θ (unitDir (lastWidth k pre) q n n' j θ) k p (pre ++ (n, f) :: (n', f') :: post) a (fun _ _ => 0) i c = 0 := by
  intro pre
  induction pre with
  | nil =>
    intro k p a hp c hc
    obtain rfl : p = q := by simpa using hp
    simp only [List.nil_append, netDiff, lastWidth]
    refine (netDiff_congr θ _ (fun _ _ => 0) post n' (p + 2 + 2) _ _ (fun _ _ => 0) i (fun r hr => ?_) (fun c hc => ?_) c hc).trans (netDiff_zero θ post _ _ _ i c)
    · have := coords_ge _ _ _ _ hr
      exact unitDir_other θ (by omega)
    · have hdz : ∀ r < n, f.slope (affine k a (fun i j => θ p (i * n + j)) (θ (p + 1)) i r) *
          ((∑ kk ∈ Finset.range k, (0 * θ p (kk * n + r) + a i kk * unitDir k p n n' j θ p (kk * n + r))) + unitDir k p n n' j θ (p + 1) r) =
          if r = j then f.fn (affine k a (fun i j => θ p (i * n + j)) (θ (p + 1)) i j) else 0 := by
        intro r hr
        rw [unitDir_bias]
        have hs : ∑ kk ∈ Finset.range k, (0 * θ p (kk * n + r) + a i kk * unitDir k p n n' j θ p (kk * n + r)) =
            if r = j then ∑ kk ∈ Finset.range k, a i kk * θ p (kk * n + j) else 0 := by
          split
          · rename_i h
            refine Finset.sum_congr rfl fun kk hk => ?_
            rw [unitDir_weights θ (Finset.mem_range.1 hk) hj hr, if_pos h]
            ring
          · rename_i h
            refine Finset.sum_eq_zero fun kk hk => ?_
            rw [unitDir_weights θ (Finset.mem_range.1 hk) hj hr, if_neg h]
            ring
        rw [hs]
        split
        · rename_i h
          subst h
          rw [← Act.slope_mul hf]
          congr 1
          rw [affine_sum]
        · rw [add_zero, mul_zero]
      have hb : unitDir k p n n' j θ (p + 2 + 1) c = 0 := unitDir_other θ (by omega)
      rw [hb, add_zero, Finset.sum_eq_zero, mul_zero]
      intro r hr
      rw [Finset.mem_range] at hr
      rw [hdz r hr, unitDir_next θ hc]
      split
      · rename_i h
        subst h
        ring
      · ring
  | cons d pre ih =>
    obtain ⟨w, g⟩ := d
    intro k p a hp c hc
    simp only [List.length_cons] at hp
    have h1 : ∀ c, unitDir (lastWidth w pre) q n n' j θ p c = 0 := fun c => unitDir_other θ (by omega)
    have h2 : ∀ c, unitDir (lastWidth w pre) q n n' j θ (p + 1) c = 0 := fun c => unitDir_other θ (by omega)
    simp only [List.cons_append, netDiff, lastWidth, h1, h2, zero_mul, mul_zero, add_zero, Finset.sum_const_zero]
    exact ih w (p + 2) _ (by omega) c hc

theorem lossDiff_unitDir {n n' j : Nat} {f f' : Act} {pre post : List (Nat × Act)} (hf : f ≠ .tanh) (hj : j < n) (m k : Nat) (a y θ : Nat → Nat → ℝ) :
    (∑ r ∈ Finset.range (lastWidth k pre), θ (2 * pre.length) (r * n + j) *
        lossDiff m k (pre ++ (n, f) :: (n', f') :: post) a y θ (unit (2 * pre.length) (r * n + j))) +
      θ (2 * pre.length + 1) j * lossDiff m k (pre ++ (n, f) :: (n', f') :: post) a y θ (unit (2 * pre.length + 1) j) =
    ∑ c ∈ Finset.range n', θ (2 * pre.length + 2) (j * n' + c) *
      lossDiff m k (pre ++ (n, f) :: (n', f') :: post) a y θ (unit (2 * pre.length + 2) (j * n' + c)) := by
  have h0 : lossMap m k (pre ++ (n, f) :: (n', f') :: post) a y θ (unitDir (lastWidth k pre) (2 * pre.length) n n' j θ) = 0 := by
    change lossDiff m k _ a y θ _ = 0
    refine Finset.sum_eq_zero fun i _ => Finset.sum_eq_zero fun c hc => ?_
    rw [netDiff_unitDir hf hj θ i pre k 0 a (by omega) c (Finset.mem_range.1 hc), mul_zero]
  rw [unitDir, map_sub, map_add, map_sum, map_sum, sub_eq_zero] at h0
  simp only [map_smul, smul_eq_mul] at h0
  exact h0

/-! ## scaling -/

theorem scale_weights {q n n' j : Nat} {s t : ℝ} (θ : Nat → Nat → ℝ) {r j' : Nat} (hj' : j' < n) :
    scaleUnit q n n' j s t θ q (r * n + j') = (if j' = j then s else 1) * θ q (r * n + j') := by
  have : (r * n + j') % n = j' := by rw [Nat.mul_comm, Nat.mul_add_mod, Nat.mod_eq_of_lt hj']
  simp only [scaleUnit, this, true_and]
  split
  · rfl
  · rw [if_neg (by omega), if_neg (by omega), one_mul]

theorem scale_bias {q n n' j : Nat} {s t : ℝ} (θ : Nat → Nat → ℝ) {j' : Nat} :
    scaleUnit q n n' j s t θ (q + 1) j' = (if j' = j then s else 1) * θ (q + 1) j' := by
  rw [scaleUnit, if_neg (by omega)]
  simp only [true_and]
  split
  · rfl
  · rw [if_neg (by omega), one_mul]

theorem scale_next {q n n' j : Nat} {s t : ℝ} (θ : Nat → Nat → ℝ) {r c : Nat} (hc : c < n') :
    scaleUnit q n n' j s t θ (q + 2) (r * n' + c) = (if r = j then t else 1) * θ (q + 2) (r * n' + c) := by
  have : (r * n' + c) / n' = r := by rw [Nat.mul_comm, Nat.mul_add_div (by omega), Nat.div_eq_of_lt hc, Nat.add_zero]
  rw [scaleUnit, if_neg (by omega), if_neg (by omega)]
  simp only [this, true_and]
  split
  · rfl
  · rw [one_mul]

theorem scale_other {q n n' j : Nat} {s t : ℝ} (θ : Nat → Nat → ℝ) {p : Nat} (h : p < q ∨ q + 2 < p) : scaleUnit q n n' j s t θ p = θ p := by
  funext c
  rw [scaleUnit, if_neg (by omega), if_neg (by omega), if_neg (by omega)]

theorem netValue_scale {q n n' j : Nat} {f f' : Act} {post : List (Nat × Act)} (hf : f ≠ .tanh) {s t : ℝ} (hs : 0 < s) (hst : s * t = 1)
    (θ : Nat → Nat → ℝ) (i : Nat) : ∀ (pre : List (Nat × Act)) (k p : Nat) (a : Nat → Nat → ℝ), p + 2 * pre.length = q →
    ∀ c < lastWidth k (pre ++ (n, f) :: (n', f') :: post),
    netValue k (layerFns (scaleUnit q n n' j s t θ) p (pre ++ (n, f) :: (n', f') :: post)) a i c =
      netValue k (layerFns θ p (pre ++ (n, f) :: (n', f') :: post)) a i c := by
  intro pre
  induction pre with
  | nil =>
    intro k p a hp c hc
    obtain rfl : p = q := by simpa using hp
    simp only [List.nil_append, layerFns, netValue]
    refine netValue_congr post n' (p + 2 + 2) _ _ i (fun r hr => ?_) (fun c hc => ?_) c hc
    · rw [scale_other θ (by have := coords_ge _ _ _ _ hr; omega)]
    · congr 1
      have hz : ∀ r < n, affine k a (fun r j' => scaleUnit p n n' j s t θ p (r * n + j')) (scaleUnit p n n' j s t θ (p + 1)) i r =
          (if r = j then s else 1) * affine k a (fun r j => θ p (r * n + j)) (θ (p + 1)) i r := by
        intro r hr
        simp only [affine_sum]
        rw [scale_bias, mul_add, Finset.mul_sum]
        congr 1
        refine Finset.sum_congr rfl fun b _ => ?_
        rw [scale_weights θ hr]
        ring
      rw [scale_other θ (p := p + 2 + 1) (by omega)]
      simp only [affine_sum (k := n)]
      congr 1
      refine Finset.sum_congr rfl fun r hr => ?_
      rw [hz r (Finset.mem_range.1 hr), scale_next θ hc]
      split
      · rw [Act.fn_mul hf hs]
        linear_combination f.fn (affine k a (fun r j => θ p (r * n + j)) (θ (p + 1)) i r) * θ (p + 2) (r * n' + c) * hst
      · rw [one_mul, one_mul]
  | cons d pre ih =>
    obtain ⟨w, g⟩ := d
    intro k p a hp c hc
    simp only [List.length_cons] at hp
    simp only [List.cons_append, layerFns, netValue]
    rw [scale_other θ (p := p) (by omega), scale_other θ (p := p + 1) (by omega)]
    exact ih w (p + 2) _ (by omega) c hc

theorem netLoss_scale {n n' j : Nat} {f f' : Act} {pre post : List (Nat × Act)} (hf : f ≠ .tanh) {s t : ℝ} (hs : 0 < s) (hst : s * t = 1)
    (m k : Nat) (a y θ : Nat → Nat → ℝ) : netLoss m k (pre ++ (n, f) :: (n', f') :: post) a y (scaleUnit (2 * pre.length) n n' j s t θ) =
      netLoss m k (pre ++ (n, f) :: (n', f') :: post) a y θ := by
  refine Finset.sum_congr rfl fun i _ => Finset.sum_congr rfl fun c hc => ?_
  rw [netValue_scale hf hs hst θ i pre k 0 a (by omega) c (Finset.mem_range.1 hc)]

end RL
