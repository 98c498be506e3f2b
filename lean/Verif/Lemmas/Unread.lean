import Verif.Lemmas.Outputs
import Verif.Lemmas.Constant

/-!
# Lemmas: hidden units that nothing reads (C124)
-/

namespace RL

open Spec

variable {m k n n' : Nat} {f f' : Act} {pre post : List (Nat × Act)} {θ θ' : Nat → Nat → ℝ} {j : Nat}

/-- the parameters feed unit `j` differently, nothing else -/
def OnlyFeeds (q n j : Nat) (θ θ' : Nat → Nat → ℝ) : Prop :=
  (∀ p, p ≠ q → p ≠ q + 1 → θ' p = θ p) ∧ (∀ c, c % n ≠ j → θ' q c = θ q c) ∧ ∀ c, c ≠ j → θ' (q + 1) c = θ (q + 1) c

theorem value_unread (h : OnlyFeeds (2 * pre.length) n j θ θ') (hr : ∀ c < n', θ (2 * pre.length + 2) (j * n' + c) = 0) (a : Nat → Nat → ℝ) (i : Nat) {c : Nat}
    (hc : c < lastWidth n' post) : netValue k (layerFns θ' 0 (pre ++ (n, f) :: (n', f') :: post)) a i c = netValue k (layerFns θ 0 (pre ++ (n, f) :: (n', f') :: post)) a i c := by
  obtain ⟨h1, h2, h3⟩ := h
  rw [value_append, value_append, layerFns_before (θ := θ) pre 0 fun p hp => h1 p (by omega) (by omega), Nat.zero_add]
  generalize netValue k (layerFns θ 0 pre) a = b
  simp only [layerFns, netValue]
  refine netValue_congr post n' _ _ _ i (fun p hp => ?_) (fun j' hj' => congrArg f'.fn ?_) c hc
  · have := coords_ge post _ _ p hp
    rw [h1 p.1 (by omega) (by omega)]
  · rw [affine_sum, affine_sum, h1 (2 * pre.length + 2) (by omega) (by omega), h1 (2 * pre.length + 2 + 1) (by omega) (by omega)]
    congr 1
    refine Finset.sum_congr rfl fun r hr' => ?_
    rw [Finset.mem_range] at hr'
    by_cases hrj : r = j
    · rw [hrj, hr j' hj', mul_zero, mul_zero]
    · congr 2
      rw [affine_sum, affine_sum, h3 r hrj]
      congr 1
      refine Finset.sum_congr rfl fun r' _ => ?_
      rw [h2 _ (by rw [Nat.mul_comm, Nat.mul_add_mod, Nat.mod_eq_of_lt hr']; exact hrj)]

theorem lossTangent_unread {δ : Nat → Nat → ℝ} (hr : ∀ c < n', θ (2 * pre.length + 2) (j * n' + c) = 0) (hm : m * n ≤ 32 ∨ n ∣ 32)
    (hδ : ∀ p, p ≠ 2 * pre.length → p ≠ 2 * pre.length + 1 → ∀ c, δ p c = 0)
    (hw : ∀ r < lastWidth k pre, ∀ j' < n, j' ≠ j → shuffledMat (lastWidth k pre) n (fun r j => δ (2 * pre.length) (r * n + j)) r j' = 0)
    (hb : ∀ j' < n, j' ≠ j → δ (2 * pre.length + 1) j' = 0) (a y : Nat → Nat → ℝ) :
    lossTangent m k (pre ++ (n, f) :: (n', f') :: post) a y θ δ = 0 := by
  refine Finset.sum_eq_zero fun i hi => Finset.sum_eq_zero fun c hc => ?_
  rw [Finset.mem_range] at hi hc
  rw [lastWidth_append] at hc
  rw [tangent_before _ pre k 0 a fun p hp c => hδ p (by omega) (by omega) c, Nat.zero_add]
  simp only [netTangent]
  rw [netTangent_congr m θ δ (fun _ _ => 0) post n' _ _ _ (fun _ _ => 0) (fun p hp => ?_) (fun i hi j' hj' => ?_) i hi c hc, netTangent_zero, mul_zero]
  · have := coords_ge post _ _ p hp
    exact hδ _ (by omega) (by omega) _
  · rw [hδ (2 * pre.length + 2 + 1) (by omega) (by omega), add_zero, Finset.sum_eq_zero, mul_zero]
    intro r hr'
    rw [Finset.mem_range] at hr'
    have h1 : shuffledMat n n' (fun i j => δ (2 * pre.length + 2) (i * n' + j)) r j' = 0 := hδ _ (by omega) (by omega) _
    rw [h1, mul_zero, add_zero]
    by_cases hrj : r = j
    · rw [hrj, hr j' hj', mul_zero]
    · rw [shuffledMat, shuffle_column hm (mul_add_lt hi hr'), Nat.mul_comm i n, Nat.mul_add_mod, Nat.mod_eq_of_lt hr', hb r hr' hrj, add_zero, Finset.sum_eq_zero, mul_zero,
        zero_mul]
      intro r' hr''
      rw [hw r' (Finset.mem_range.1 hr'') r hr' hrj, mul_zero, add_zero]
      simp [shuffledMat]

/-- one output, which reads the first hidden unit only; weights of the first layer and biases 0 -/
theorem lossTangent_reads {δ : Nat → Nat → ℝ} (hθ : θ = fun q c => if q = 2 ∧ c = 0 then 1 else 0) (hn : 0 < n) (hδ : ∀ p, 2 ≤ p → ∀ c, δ p c = 0) (a : Nat → Nat → ℝ) :
    lossTangent m k [(n, f), (1, f')] a (fun _ _ => 0) θ δ = ∑ i ∈ Finset.range m,
      shuffledMat m n (fun i j => (∑ kk ∈ Finset.range k, a i kk * shuffledMat k n (fun i j => δ 0 (i * n + j)) kk j) + δ 1 j) i 0 := by
  have h0 : ∀ c, θ 0 c = 0 := by simp [hθ]
  have h3 : ∀ p, p % 2 = 1 → ∀ c, θ p c = 0 := fun p hp c => by rw [hθ]; exact if_neg (by omega)
  rw [lossTangent_first h0 h3 _ _ _ hδ]
  refine Finset.sum_congr rfl fun i _ => ?_
  simp only [lastWidth, Finset.sum_range_one, netTangent, lt_irrefl, if_false, one_mul]
  have hz : affine n (fun _ _ => 0) (fun i j => θ 2 (i * 1 + j)) (θ (2 + 1)) i 0 = 0 := by
    rw [affine_sum, h3 _ (by omega)]
    simp
  rw [hz, f'.slope_zero, one_mul, add_zero, Finset.sum_eq_single_of_mem 0 (Finset.mem_range.2 hn)]
  · simp [hθ]
  · intro r _ hr
    simp [hθ, hr]

/-- the first position is moved to another unit -/
theorem shuffle_zero_column {K : Nat} (hK : 32 < K * n) (hd : ¬ n ∣ 32) : shuffle (K * n) 0 % n ≠ 0 := fun h => hd (by
  have h0 : shuffle (K * n) 0 = K * n - 32 := by unfold shuffle; omega
  rw [h0] at h
  have h1 : n ∣ K * n - (K * n - 32) := Nat.dvd_sub (Nat.dvd_mul_left n K) (Nat.dvd_of_mod_eq_zero h)
  rwa [show K * n - (K * n - 32) = 32 by omega] at h1)

end RL
