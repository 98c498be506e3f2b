import Verif.SpecMirror
import Verif.Lemmas.Settle

/-!
# Mirrored and shifted networks: lemmas
-/

namespace RL

open Spec

variable {m : Nat} {σ : Nat → ℝ} {θ δ : Nat → Nat → ℝ}

theorem Spec.Signs.sq (hσ : Signs σ) (l : Nat) : σ l * σ l = 1 := by
  rcases hσ l with h | h <;> rw [h] <;> norm_num

theorem mirrored_even (l : Nat) : mirrored σ θ (2 * l) = fun c => σ l * σ (l + 1) * θ (2 * l) c := by
  funext c
  simp only [mirrored]
  rw [if_pos (by omega), show 2 * l / 2 = l by omega]

theorem mirrored_odd (l : Nat) : mirrored σ θ (2 * l + 1) = fun c => σ (l + 1) * θ (2 * l + 1) c := by
  funext c
  simp only [mirrored]
  rw [if_neg (by omega), show (2 * l + 1) / 2 = l by omega]

theorem affine_mirrored (hσ : Signs σ) (l k n : Nat) (a : Nat → Nat → ℝ) (i j : Nat) :
    affine k (fun i j => σ l * a i j) (fun i j => mirrored σ θ (2 * l) (i * n + j)) (mirrored σ θ (2 * l + 1)) i j =
      σ (l + 1) * affine k a (fun i j => θ (2 * l) (i * n + j)) (θ (2 * l + 1)) i j := by
  simp only [affine_sum, mirrored_even, mirrored_odd, mul_add, Finset.mul_sum]
  congr 1
  refine Finset.sum_congr rfl fun r _ => ?_
  linear_combination (σ (l + 1) * a i r * θ (2 * l) (r * n + j)) * hσ.sq l

theorem act_mirrored (hσ : Signs σ) {f : Act} {l : Nat} (hf : f = .relu → σ l = 1) (x : ℝ) : f.fn (σ l * x) = σ l * f.fn x ∧ f.slope (σ l * x) = f.slope x := by
  rcases hσ l with h | h
  · simp [h]
  · cases f with
    | identity => simp [Act.fn, Act.slope]
    | relu => exact absurd (hf rfl) (by rw [h]; norm_num)
    | tanh => simp [h, Act.fn, Act.slope, Real.tanh_neg]

theorem Spec.Mirrorable.head {l : Nat} {n : Nat} {f : Act} {ds : List (Nat × Act)} (h : Mirrorable (fun t => σ (l + t)) ((n, f) :: ds)) :
    (f = .relu → σ (l + 1) = 1) ∧ Mirrorable (fun t => σ (l + 1 + t)) ds := by
  refine ⟨?_, fun t w ht => ?_⟩
  · rintro rfl
    exact h 0 n rfl
  · have := h (t + 1) w (by simpa using ht)
    simpa only [show l + (t + 1 + 1) = l + 1 + (t + 1) by ring] using this

theorem value_mirrored (hσ : Signs σ) : ∀ (ds : List (Nat × Act)) (k l : Nat) (a : Nat → Nat → ℝ), Mirrorable (fun t => σ (l + t)) ds →
    netValue k (layerFns (mirrored σ θ) (2 * l) ds) (fun i j => σ l * a i j) = fun i j => σ (l + ds.length) * netValue k (layerFns θ (2 * l) ds) a i j := by
  intro ds
  induction ds with
  | nil => intros; rfl
  | cons d ds ih =>
    obtain ⟨n, f⟩ := d
    intro k l a hm
    obtain ⟨hf, hm⟩ := hm.head
    simp only [layerFns, netValue, affine_mirrored hσ, (act_mirrored hσ hf _).1, List.length_cons]
    rw [show l + (ds.length + 1) = l + 1 + ds.length by ring]
    exact ih n (l + 1) _ hm

theorem tangent_mirrored (hσ : Signs σ) : ∀ (ds : List (Nat × Act)) (k l : Nat) (a da : Nat → Nat → ℝ), Mirrorable (fun t => σ (l + t)) ds →
    netTangent m (mirrored σ θ) (mirrored σ δ) k (2 * l) ds (fun i j => σ l * a i j) (fun i j => σ l * da i j) =
      fun i j => σ (l + ds.length) * netTangent m θ δ k (2 * l) ds a da i j := by
  intro ds
  induction ds with
  | nil => intros; rfl
  | cons d ds ih =>
    obtain ⟨n, f⟩ := d
    intro k l a da hm
    obtain ⟨hf, hm⟩ := hm.head
    simp only [netTangent, affine_mirrored hσ, (act_mirrored hσ hf _).1, (act_mirrored hσ hf _).2, List.length_cons]
    rw [show l + (ds.length + 1) = l + 1 + ds.length by ring, show 2 * l + 2 = 2 * (l + 1) by ring, ← ih n (l + 1) _ _ hm]
    congr 1
    funext i j
    simp only [mirrored_even, mirrored_odd, shuffledMat]
    rw [show ∀ s x y z : ℝ, s * (x * (y + z)) = x * (s * y + s * z) by intros; ring, Finset.mul_sum]
    congr 2
    refine Finset.sum_congr rfl fun r _ => ?_
    linear_combination (σ (l + 1) * (da (shuffle (m * k) (i * k + r) / k) (shuffle (m * k) (i * k + r) % k) * θ (2 * l) (r * n + j) +
      a i r * δ (2 * l) (shuffle (k * n) (r * n + j) / n * n + shuffle (k * n) (r * n + j) % n))) * hσ.sq l

theorem lossTangent_mirrored (hσ : Signs σ) {k : Nat} {ds : List (Nat × Act)} {a y : Nat → Nat → ℝ} (hm : Mirrorable σ ds)
    (hy : σ ds.length = 1 ∨ ∀ i < m, ∀ j < lastWidth k ds, netValue k (layerFns θ 0 ds) a i j ≠ y i j) :
    lossTangent m k ds (fun i j => σ 0 * a i j) (fun i j => σ ds.length * y i j) (mirrored σ θ) (mirrored σ δ) = lossTangent m k ds a y θ δ := by
  have hm' : Mirrorable (fun t => σ (0 + t)) ds := by simpa using hm
  have h1 := value_mirrored (θ := θ) hσ ds k 0 a hm'
  have h2 := tangent_mirrored (m := m) (θ := θ) (δ := δ) hσ ds k 0 a (fun _ _ => 0) hm'
  simp only [mul_zero, Nat.zero_add] at h1 h2
  simp only [lossTangent, h1, h2]
  refine Finset.sum_congr rfl fun i hi => Finset.sum_congr rfl fun j hj => ?_
  rcases hσ ds.length with h | h
  · simp [h]
  · have hne := hy.resolve_left (by rw [h]; norm_num) i (Finset.mem_range.1 hi) j (Finset.mem_range.1 hj)
    rw [h]
    rcases lt_or_gt_of_ne hne with hl | hl
    · rw [if_pos hl, if_neg (by linarith)]
      ring
    · rw [if_pos (by linarith), if_neg (by linarith)]
      ring

/-- the tangent of a scaled direction -/
theorem lossTangent_smul (k : Nat) (ds : List (Nat × Act)) (a y : Nat → Nat → ℝ) (c : ℝ) :
    lossTangent m k ds a y θ (fun q j => c * δ q j) = c * lossTangent m k ds a y θ δ := by
  have h : ∀ (ds : List (Nat × Act)) (k q : Nat) (a da : Nat → Nat → ℝ), netTangent m θ (fun q j => c * δ q j) k q ds a (fun i j => c * da i j) =
      fun i j => c * netTangent m θ δ k q ds a da i j := by
    intro ds
    induction ds with
    | nil => intros; rfl
    | cons d ds ih =>
      intro k q a da
      obtain ⟨n, f⟩ := d
      simp only [netTangent]
      rw [← ih]
      congr 1
      funext i j
      simp only [shuffledMat]
      rw [show ∀ s x y z : ℝ, s * (x * (y + z)) = x * (s * y + s * z) by intros; ring, Finset.mul_sum]
      congr 2
      refine Finset.sum_congr rfl fun r _ => ?_
      ring
  have h0 := h ds k 0 a (fun _ _ => 0)
  simp only [mul_zero] at h0
  simp only [lossTangent, h0, Finset.mul_sum]
  refine Finset.sum_congr rfl fun i _ => Finset.sum_congr rfl fun j _ => ?_
  ring

theorem shuffledDescend_mirrored (hσ : Signs σ) {k : Nat} {ds : List (Nat × Act)} {a y : Nat → Nat → ℝ} (lr : ℝ) (hm : Mirrorable σ ds)
    (hy : σ ds.length = 1 ∨ ∀ i < m, ∀ j < lastWidth k ds, netValue k (layerFns θ 0 ds) a i j ≠ y i j) :
    shuffledDescend lr m k ds (fun i j => σ 0 * a i j) (fun i j => σ ds.length * y i j) (mirrored σ θ) = mirrored σ (shuffledDescend lr m k ds a y θ) := by
  funext q c
  have hs : ∃ s : ℝ, s * s = 1 ∧ ∀ (φ : Nat → Nat → ℝ) (c : Nat), mirrored σ φ q c = s * φ q c := by
    by_cases hq : q % 2 = 0
    · refine ⟨σ (q / 2) * σ (q / 2 + 1), ?_, fun φ c => by simp [mirrored, hq]⟩
      linear_combination (σ (q / 2 + 1) * σ (q / 2 + 1)) * hσ.sq (q / 2) + hσ.sq (q / 2 + 1)
    · exact ⟨σ (q / 2 + 1), hσ.sq _, fun φ c => by simp [mirrored, hq]⟩
  obtain ⟨s, hs, h⟩ := hs
  have hu : unit q c = mirrored σ fun q' c' => s * unit q c q' c' := by
    funext q' c'
    by_cases hq : q' = q
    · subst hq
      rw [h, ← mul_assoc, hs, one_mul]
    · simp [mirrored, unit, hq]
  rw [h]
  simp only [shuffledDescend]
  change _ - lr * lossTangent m k ds _ _ _ (unit q c) = s * (_ - lr * lossTangent m k ds a y θ (unit q c))
  rw [hu, lossTangent_mirrored hσ hm hy, lossTangent_smul, ← hu, h]
  ring

theorem netLoss_mirrored (hσ : Signs σ) (m k : Nat) {ds : List (Nat × Act)} (a y : Nat → Nat → ℝ) (hm : Mirrorable σ ds) :
    netLoss m k ds (fun i j => σ 0 * a i j) (fun i j => σ ds.length * y i j) (mirrored σ θ) = netLoss m k ds a y θ := by
  have hm' : Mirrorable (fun t => σ (0 + t)) ds := by simpa using hm
  have h1 := value_mirrored (θ := θ) hσ ds k 0 a hm'
  simp only [mul_zero, Nat.zero_add] at h1
  simp only [netLoss, h1]
  refine Finset.sum_congr rfl fun i _ => Finset.sum_congr rfl fun j _ => ?_
  rw [← mul_sub, abs_mul]
  rcases hσ ds.length with h | h <;> simp [h]

/-! ## shifted outputs -/

theorem shifted_before {q : Nat} {s : Nat → ℝ} {p : Nat} (hp : p ≤ q) : shifted q s θ p = θ p := by
  funext c
  simp only [shifted]
  rw [if_neg (by omega)]

theorem layerFns_congr {θ' : Nat → Nat → ℝ} : ∀ (ds : List (Nat × Act)) (q : Nat), (∀ p, q ≤ p → p < q + 2 * ds.length → θ p = θ' p) →
    layerFns θ q ds = layerFns θ' q ds := by
  intro ds
  induction ds with
  | nil => intros; rfl
  | cons d ds ih =>
    intro q h
    obtain ⟨n, f⟩ := d
    simp only [List.length_cons] at h
    simp only [layerFns, h q (by omega) (by omega), h (q + 1) (by omega) (by omega)]
    rw [ih (q + 2) fun p h1 h2 => h p (by omega) (by omega)]

theorem value_shifted {k n : Nat} (pre : List (Nat × Act)) (s : Nat → ℝ) (a : Nat → Nat → ℝ) (i j : Nat) :
    netValue k (layerFns (shifted (2 * pre.length) s θ) 0 (pre ++ [(n, .identity)])) a i j =
      netValue k (layerFns θ 0 (pre ++ [(n, .identity)])) a i j + s j := by
  simp only [value_last, lastIn, Act.fn, affine_sum, id]
  rw [layerFns_congr pre 0 fun p _ hp => shifted_before (s := s) (by omega), shifted_before le_rfl]
  simp only [shifted]
  rw [if_pos trivial]
  ring

theorem tangent_shifted {q : Nat} {s : Nat → ℝ} : ∀ (pre : List (Nat × Act)) (k n p : Nat) (a da : Nat → Nat → ℝ), q = p + 2 * pre.length →
    netTangent m (shifted q s θ) δ k p (pre ++ [(n, .identity)]) a da = netTangent m θ δ k p (pre ++ [(n, .identity)]) a da := by
  intro pre
  induction pre with
  | nil =>
    intro k n p a da hq
    simp only [List.nil_append, netTangent, Act.slope]
    rw [shifted_before (by simp at hq; omega)]
  | cons d pre ih =>
    obtain ⟨n', f⟩ := d
    intro k n p a da hq
    simp only [List.length_cons] at hq
    simp only [List.cons_append, netTangent]
    rw [shifted_before (by omega), shifted_before (by omega)]
    exact ih _ _ _ _ _ (by omega)

theorem shuffledDescend_shifted {k n : Nat} (pre : List (Nat × Act)) (s : Nat → ℝ) (a y : Nat → Nat → ℝ) (lr : ℝ) :
    shuffledDescend lr m k (pre ++ [(n, .identity)]) a (fun i j => y i j + s j) (shifted (2 * pre.length) s θ) =
      shifted (2 * pre.length) s (shuffledDescend lr m k (pre ++ [(n, .identity)]) a y θ) := by
  funext q c
  simp only [shuffledDescend, lossTangent, value_shifted, add_lt_add_iff_right]
  simp only [tangent_shifted pre k n 0 a _ (by omega : 2 * pre.length = 0 + 2 * pre.length), shifted, shuffledDescend, lossTangent]
  split <;> ring

theorem netLoss_shifted {k n : Nat} (pre : List (Nat × Act)) (s : Nat → ℝ) (a y : Nat → Nat → ℝ) :
    netLoss m k (pre ++ [(n, .identity)]) a (fun i j => y i j + s j) (shifted (2 * pre.length) s θ) = netLoss m k (pre ++ [(n, .identity)]) a y θ := by
  simp only [netLoss, value_shifted, add_sub_add_right_eq_sub]

end RL
