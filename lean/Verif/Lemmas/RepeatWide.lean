import Verif.Lemmas.Repeat
import Verif.Lemmas.Rows

/-!
# Lemmas: repeated rows in larger networks (C111)
-/

namespace RL

open Spec

variable {m k n r : Nat} {ds : List (Nat × Act)} {θ : Nat → Nat → ℝ}

theorem shuffle_repeat {r N p : Nat} (h : r * N ≤ 32 ∨ r = 1 ∨ N ∣ 32 ∨ 32 ∣ N) (hp : p < r * N) : shuffle (r * N) p % N = shuffle N (p % N) := by
  have hr : 0 < r := Nat.pos_of_ne_zero fun e => by simp [e] at hp
  have hN : 0 < N := Nat.pos_of_ne_zero fun e => by simp [e] at hp
  have hlt : p % N < N := Nat.mod_lt _ hN
  rcases h with h | rfl | ⟨t, ht⟩ | ⟨t, rfl⟩
  · have hNr : N ≤ r * N := Nat.le_mul_of_pos_left N hr
    rw [shuffle_small h hp, shuffle_small (by omega) hlt]
  · rw [one_mul] at hp ⊢
    rw [Nat.mod_eq_of_lt hp, Nat.mod_eq_of_lt (shuffle_lt hp)]
  · have ht0 : 0 < t := Nat.pos_of_ne_zero fun e => by simp [e] at ht
    have hN32 : N ≤ 32 := by rw [ht]; exact Nat.le_mul_of_pos_right N ht0
    rw [shuffle_small hN32 hlt, shuffle]
    have h1 : ∃ u, r * N - min (32 * (p / 32 + 1)) (r * N) = N * u := by
      rcases Nat.le_total (32 * (p / 32 + 1)) (r * N) with h | h
      · rw [Nat.min_eq_left h]
        refine ⟨r - t * (p / 32 + 1), ?_⟩
        rw [Nat.mul_sub, ← Nat.mul_assoc, ← ht, Nat.mul_comm N r]
      · rw [Nat.min_eq_right h]
        exact ⟨0, by simp⟩
    obtain ⟨u, hu⟩ := h1
    rw [hu, Nat.mul_add_mod, Nat.mod_mod_of_dvd _ ⟨t, ht⟩]
  · have ht0 : 0 < t := by omega
    -- the segment of `p`, and the segment in its copy
    have hc : p / 32 < r * t := (Nat.div_lt_iff_lt_mul (by omega)).2 (by rw [show r * t * 32 = r * (32 * t) by ring]; exact hp)
    obtain ⟨c, hcd⟩ : ∃ c, c = p / 32 := ⟨_, rfl⟩
    obtain ⟨d, hd⟩ : ∃ d, d = c / t := ⟨_, rfl⟩
    obtain ⟨e, he⟩ : ∃ e, e = c % t := ⟨_, rfl⟩
    have hce : c = t * d + e := by rw [hd, he, Nat.div_add_mod]
    have het : e < t := he ▸ Nat.mod_lt _ ht0
    have hdr : d < r := by
      rw [hd, Nat.div_lt_iff_lt_mul ht0, hcd]
      exact hc
    have hpe : p % (32 * t) = 32 * e + p % 32 := by
      rw [Nat.mod_mul, he, hcd, Nat.add_comm]
    have h1 : shuffle (r * (32 * t)) p = 32 * t * (r - 1 - d) + (32 * (t - 1 - e) + p % 32) := by
      obtain ⟨r', rfl⟩ : ∃ r', r = d + 1 + r' := ⟨r - 1 - d, by omega⟩
      obtain ⟨t', rfl⟩ : ∃ t', t = e + 1 + t' := ⟨t - 1 - e, by omega⟩
      rw [shuffle, ← hcd, hce, show d + 1 + r' - 1 - d = r' by omega, show e + 1 + t' - 1 - e = t' by omega]
      have h2 : (d + 1 + r') * (32 * (e + 1 + t')) = 32 * ((e + 1 + t') * d + e + 1) + (32 * (e + 1 + t') * r' + 32 * t') := by ring
      rw [h2, Nat.min_eq_left (by omega), Nat.add_sub_cancel_left]
      omega
    have h3 : shuffle (32 * t) (32 * e + p % 32) = 32 * (t - 1 - e) + p % 32 := by
      simp only [shuffle]
      have := Nat.mod_lt p (by omega : 0 < 32)
      rw [show (32 * e + p % 32) / 32 = e by omega, show (32 * e + p % 32) % 32 = p % 32 by omega, Nat.min_eq_left (by omega)]
      omega
    have hlt' : 32 * (t - 1 - e) + p % 32 < 32 * t := by
      have := Nat.mod_lt p (by omega : 0 < 32)
      omega
    rw [h1, hpe, h3, Nat.mul_add_mod, Nat.mod_eq_of_lt hlt']

theorem shuffledMat_repeat (h : r * (m * k) ≤ 32 ∨ r = 1 ∨ m * k ∣ 32 ∨ 32 ∣ m * k) (d : Nat → Nat → ℝ) {i j : Nat} (hi : i < r * m) (hj : j < k) :
    shuffledMat (r * m) k (fun i => d (i % m)) i j = shuffledMat m k d (i % m) j := by
  have hm : 0 < m := Nat.pos_of_ne_zero fun e => by simp [e] at hi
  have hk : 0 < k := by omega
  have hp : i * k + j < r * (m * k) := by rw [← Nat.mul_assoc]; exact mul_add_lt hi hj
  have e := shuffle_repeat h hp
  have h1 : (i * k + j) % (m * k) = i % m * k + j := by
    rw [Nat.mul_comm m k, Nat.mod_mul, Nat.mul_comm i k, Nat.mul_add_mod, Nat.mod_eq_of_lt hj, Nat.mul_add_div hk, Nat.div_eq_of_lt hj, Nat.add_zero]
    ring
  rw [h1] at e
  simp only [shuffledMat]
  rw [Nat.mul_assoc, ← e, Nat.mod_mod_of_dvd _ (Dvd.intro_left m rfl), Nat.mul_comm m k, Nat.mod_mul_right_div_self]

theorem netTangent_repeat (δ : Nat → Nat → ℝ) : ∀ (ds : List (Nat × Act)) (k q : Nat) (a da : Nat → Nat → ℝ),
    (∀ d ∈ ds.dropLast, r * (m * d.1) ≤ 32 ∨ r = 1 ∨ m * d.1 ∣ 32 ∨ 32 ∣ m * d.1) →
    (ds ≠ [] → (r * (m * k) ≤ 32 ∨ r = 1 ∨ m * k ∣ 32 ∨ 32 ∣ m * k) ∨ da = fun _ _ => 0) → ∀ i < r * m, ∀ j < lastWidth k ds,
    netTangent (r * m) θ δ k q ds (fun i => a (i % m)) (fun i => da (i % m)) i j = netTangent m θ δ k q ds a da (i % m) j := by
  intro ds
  induction ds with
  | nil => intros; rfl
  | cons d ds ih =>
    obtain ⟨n, f⟩ := d
    intro k q a da hS hk i hi j hj
    simp only [netTangent]
    rw [← ih n (q + 2) (fun i j => f.fn (affine k a (fun i j => θ q (i * n + j)) (θ (q + 1)) i j))
      (fun i j => f.slope (affine k a (fun i j => θ q (i * n + j)) (θ (q + 1)) i j) *
        ((∑ kk ∈ Finset.range k, (shuffledMat m k da i kk * θ q (kk * n + j) + a i kk * shuffledMat k n (fun i j => δ q (i * n + j)) kk j)) + δ (q + 1) j))
      (fun d hd => hS d ?_) (fun hne => .inl (hS (n, f) ?_)) i hi j hj]
    · refine netTangent_ext ds n (q + 2) _ _ _ _ (fun _ _ => rfl) (fun _ _ => rfl) (fun i _ j _ => ?_) (fun i hi j _ => ?_) i hi j hj
      · simp only [affine_sum]
      · simp only [affine_sum]
        congr 2
        refine Finset.sum_congr rfl fun kk hkk => ?_
        rcases hk (by simp) with h | rfl
        · rw [shuffledMat_repeat h da hi (Finset.mem_range.1 hkk)]
        · simp [shuffledMat]
    · cases ds with
      | nil => simp at hd
      | cons e ds => rw [List.dropLast_cons₂]; exact List.mem_cons_of_mem _ hd
    · cases ds with
      | nil => exact absurd rfl hne
      | cons e ds => rw [List.dropLast_cons₂]; exact List.mem_cons_self

theorem lossTangent_repeat (hS : ∀ d ∈ ds.dropLast, r * (m * d.1) ≤ 32 ∨ r = 1 ∨ m * d.1 ∣ 32 ∨ 32 ∣ m * d.1) (a y θ δ : Nat → Nat → ℝ) :
    lossTangent (r * m) k ds (fun i => a (i % m)) (fun i => y (i % m)) θ δ = r * lossTangent m k ds a y θ δ := by
  simp only [lossTangent]
  rw [← sum_repeat m (fun i => ∑ j ∈ Finset.range (lastWidth k ds), (if netValue k (layerFns θ 0 ds) a i j < y i j then -1 else 1) *
    netTangent m θ δ k 0 ds a (fun _ _ => 0) i j) r]
  refine Finset.sum_congr rfl fun i hi => Finset.sum_congr rfl fun j hj => ?_
  rw [Finset.mem_range] at hi hj
  rw [netValue_rows θ ds k (a := fun i => a (i % m)) (a' := a) (i := i) (i' := i % m) (fun _ _ => rfl) hj,
    ← netTangent_repeat δ ds k 0 a (fun _ _ => 0) hS (fun _ => .inr rfl) i hi j hj]

end RL
