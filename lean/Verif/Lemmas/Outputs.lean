import Verif.Lemmas.Order
import Verif.Lemmas.Blank

/-!
# Lemmas: the order of the outputs (C122)
-/

namespace RL

open Spec

variable {m k n : Nat} {f : Act} {pre : List (Nat × Act)} {σ : Equiv.Perm Nat}

/-! ## shuffling and columns -/

/-- if the number of columns divides 32, then rows are shuffled as a whole -/
theorem shuffle_row {K r j j' : Nat} (h : K * n ≤ 32 ∨ n ∣ 32) (hr : r < K) (hj : j < n) (hj' : j' < n) :
    shuffle (K * n) (r * n + j) / n = shuffle (K * n) (r * n + j') / n := by
  have hdiv : ∀ i < n, (r * n + i) / n = r := fun i hi => by
    rw [Nat.mul_comm, Nat.mul_add_div (by omega), Nat.div_eq_of_lt hi, Nat.add_zero]
  rcases h with h | ⟨t, ht⟩
  · rw [shuffle_small h (mul_add_lt hr hj), shuffle_small h (mul_add_lt hr hj'), hdiv j hj, hdiv j' hj']
  · have hblock : ∀ i < n, (r * n + i) / 32 = r / t := fun i hi => by
      rw [ht, ← Nat.div_div_eq_div_mul, hdiv i hi]
    have hin : ∀ i < n, (r * n + i) % 32 / n = r % t := fun i hi => by
      rw [ht, Nat.mod_mul_right_div_self, hdiv i hi]
    have hbase : ∃ u, K * n - min (32 * (r / t + 1)) (K * n) = n * u := by
      rcases Nat.le_total (32 * (r / t + 1)) (K * n) with h1 | h1
      · rw [Nat.min_eq_left h1]
        exact Nat.dvd_sub (Nat.dvd_mul_left n K) ((Dvd.intro t ht.symm).mul_right _)
      · rw [Nat.min_eq_right h1, Nat.sub_self]
        exact ⟨0, rfl⟩
    obtain ⟨u, hu⟩ := hbase
    simp only [shuffle]
    rw [hblock j hj, hblock j' hj', hu, Nat.mul_add_div (by omega), Nat.mul_add_div (by omega), hin j hj, hin j' hj']

/-- the entry of a shuffled matrix with renamed columns -/
theorem shuffledMat_outputs {K : Nat} (h : K * n ≤ 32 ∨ n ∣ 32) (hσ : ∀ j < n, σ j < n) (q : Nat) (δ : Nat → Nat → ℝ) {r j : Nat} (hr : r < K) (hj : j < n) :
    shuffledMat K n (fun i j => renameUnits q n 1 σ δ q (i * n + j)) r j = shuffledMat K n (fun i j => δ q (i * n + j)) r (σ j) := by
  simp only [shuffledMat]
  rw [rename_weights δ (Nat.mod_lt _ (by omega)), shuffle_column h (mul_add_lt hr hj), shuffle_column h (mul_add_lt hr (hσ j hj)), shuffle_row h hr hj (hσ j hj)]
  simp only [Nat.mul_comm r n, Nat.mul_add_mod, Nat.mod_eq_of_lt hj, Nat.mod_eq_of_lt (hσ j hj)]

/-! ## renaming the outputs -/

theorem layerFns_before {θ θ' : Nat → Nat → ℝ} : ∀ (ds : List (Nat × Act)) (q : Nat), (∀ p < q + 2 * ds.length, θ' p = θ p) → layerFns θ' q ds = layerFns θ q ds
  | [], _, _ => rfl
  | (n, f) :: ds, q, h => by
    simp only [List.length_cons] at h
    simp only [layerFns]
    rw [layerFns_before ds (q + 2) fun p hp => h p (by omega), h q (by omega), h (q + 1) (by omega)]

theorem netTangent_before {θ θ' δ δ' : Nat → Nat → ℝ} : ∀ (ds : List (Nat × Act)) (k q : Nat) (a da : Nat → Nat → ℝ), (∀ p < q + 2 * ds.length, θ' p = θ p) →
    (∀ p < q + 2 * ds.length, δ' p = δ p) → netTangent m θ' δ' k q ds a da = netTangent m θ δ k q ds a da
  | [], _, _, _, _, _, _ => rfl
  | (n, f) :: ds, k, q, a, da, h, h' => by
    simp only [List.length_cons] at h h'
    simp only [netTangent]
    rw [netTangent_before ds n (q + 2) _ _ (fun p hp => h p (by omega)) (fun p hp => h' p (by omega)), h q (by omega), h (q + 1) (by omega), h' q (by omega),
      h' (q + 1) (by omega)]

theorem lastIn_outputs (θ a : Nat → Nat → ℝ) (i : Nat) {j : Nat} (hj : j < n) :
    lastIn k n pre (renameUnits (2 * pre.length) n 1 σ θ) a i j = lastIn k n pre θ a i (σ j) := by
  simp only [lastIn]
  rw [layerFns_before (θ := θ) pre 0 fun p hp => rename_before θ (by omega)]
  exact affine_congr (fun _ _ => rfl) (fun r _ => rename_weights θ hj) (rename_bias θ)

theorem value_outputs (θ a : Nat → Nat → ℝ) (i : Nat) {j : Nat} (hj : j < n) :
    netValue k (layerFns (renameUnits (2 * pre.length) n 1 σ θ) 0 (pre ++ [(n, f)])) a i j = netValue k (layerFns θ 0 (pre ++ [(n, f)])) a i (σ j) := by
  rw [value_last, value_last, lastIn_outputs θ a i hj]

theorem tangent_outputs (h : lastWidth k pre * n ≤ 32 ∨ n ∣ 32) (hσ : ∀ j < n, σ j < n) (θ δ a : Nat → Nat → ℝ) (i : Nat) {j : Nat} (hj : j < n) :
    netTangent m (renameUnits (2 * pre.length) n 1 σ θ) (renameUnits (2 * pre.length) n 1 σ δ) k 0 (pre ++ [(n, f)]) a (fun _ _ => 0) i j =
      netTangent m θ δ k 0 (pre ++ [(n, f)]) a (fun _ _ => 0) i (σ j) := by
  rw [tangent_append, tangent_append, netTangent_before (θ := θ) (δ := δ) pre k 0 a _ (fun p hp => rename_before θ (by omega)) (fun p hp => rename_before δ (by omega)),
    layerFns_before (θ := θ) pre 0 fun p hp => rename_before θ (by omega), Nat.zero_add]
  simp only [netTangent]
  rw [affine_rename hσ θ _ _ i hj, rename_bias δ]
  congr 2
  refine Finset.sum_congr rfl fun r hr => ?_
  rw [rename_weights θ hj, shuffledMat_outputs h hσ _ δ (Finset.mem_range.1 hr) hj]

theorem lossTangent_outputs (h : lastWidth k pre * n ≤ 32 ∨ n ∣ 32) (hσ : ∀ j < n, σ j < n) (a y θ δ : Nat → Nat → ℝ) :
    lossTangent m k (pre ++ [(n, f)]) a (fun i j => y i (σ j)) (renameUnits (2 * pre.length) n 1 σ θ) (renameUnits (2 * pre.length) n 1 σ δ) =
      lossTangent m k (pre ++ [(n, f)]) a y θ δ := by
  simp only [lossTangent, lastWidth_append, lastWidth]
  refine Finset.sum_congr rfl fun i _ => ?_
  rw [← perm_sum hσ fun j => (if netValue k (layerFns θ 0 (pre ++ [(n, f)])) a i j < y i j then (-1 : ℝ) else 1) * netTangent m θ δ k 0 (pre ++ [(n, f)]) a (fun _ _ => 0) i j]
  refine Finset.sum_congr rfl fun j hj => ?_
  rw [value_outputs θ a i (Finset.mem_range.1 hj), tangent_outputs h hσ θ δ a i (Finset.mem_range.1 hj)]

theorem netLoss_outputs (hσ : ∀ j < n, σ j < n) (a y θ : Nat → Nat → ℝ) :
    netLoss m k (pre ++ [(n, f)]) a (fun i j => y i (σ j)) (renameUnits (2 * pre.length) n 1 σ θ) = netLoss m k (pre ++ [(n, f)]) a y θ := by
  simp only [netLoss, lastWidth_append, lastWidth]
  refine Finset.sum_congr rfl fun i _ => ?_
  rw [← perm_sum hσ fun j => |netValue k (layerFns θ 0 (pre ++ [(n, f)])) a i j - y i j|]
  refine Finset.sum_congr rfl fun j hj => ?_
  rw [value_outputs θ a i (Finset.mem_range.1 hj)]

theorem shuffledDescend_outputs (h : lastWidth k pre * n ≤ 32 ∨ n ∣ 32) (hn : 0 < n) (hσ : ∀ j < n, σ j < n) (lr : ℝ) (a y θ : Nat → Nat → ℝ) :
    shuffledDescend lr m k (pre ++ [(n, f)]) a (fun i j => y i (σ j)) (renameUnits (2 * pre.length) n 1 σ θ) =
      renameUnits (2 * pre.length) n 1 σ (shuffledDescend lr m k (pre ++ [(n, f)]) a y θ) := by
  funext p c
  obtain ⟨c', h1, h2⟩ := rename_unit (q := 2 * pre.length) (n' := 1) hσ hn (by omega) p c
  rw [h1, shuffledDescend, shuffledDescend, h1]
  congr 2
  have := lossTangent_outputs (m := m) (f := f) h hσ a y θ (unit p c')
  rw [h2] at this
  exact this

/-! ## weights of the last layer -/

theorem shuffledMat_unit' {q c r j : Nat} : shuffledMat k n (fun i j => unit q c q (i * n + j)) r j = if shuffle (k * n) (r * n + j) = c then 1 else 0 := by
  simp only [shuffledMat, unit, true_and]
  rw [Nat.div_add_mod']

theorem loss_last_weight (a y θ : Nat → Nat → ℝ) {r j : Nat} (hr : r < lastWidth k pre) (hj : j < n) :
    lossTangent m k (pre ++ [(n, f)]) a y θ (unit (2 * pre.length) (shuffle (lastWidth k pre * n) (r * n + j))) = ∑ i ∈ Finset.range m,
      (if f.fn (lastIn k n pre θ a i j) < y i j then -1 else 1) * (f.slope (lastIn k n pre θ a i j) * netValue k (layerFns θ 0 pre) a i r) := by
  rw [lossTangent, lastWidth_append]
  refine Finset.sum_congr rfl fun i _ => ?_
  have ht : ∀ j' < n, netTangent m θ (unit (2 * pre.length) (shuffle (lastWidth k pre * n) (r * n + j))) k 0 (pre ++ [(n, f)]) a (fun _ _ => 0) i j' =
      f.slope (lastIn k n pre θ a i j') * if j' = j then netValue k (layerFns θ 0 pre) a i r else 0 := by
    intro j' hj'
    have hδ : ∀ p < 0 + 2 * pre.length, ∀ c, unit (2 * pre.length) (shuffle (lastWidth k pre * n) (r * n + j)) p c = 0 := fun p hp c => if_neg (by omega)
    rw [tangent_before [(n, f)] pre k 0 a hδ, Nat.zero_add]
    simp only [netTangent]
    congr 1
    rw [show unit (2 * pre.length) (shuffle (lastWidth k pre * n) (r * n + j)) (2 * pre.length + 1) j' = 0 by simp [unit], add_zero, Finset.sum_eq_single r]
    · rw [shuffledMat_unit']
      have h2 : (shuffle (lastWidth k pre * n) (r * n + j') = shuffle (lastWidth k pre * n) (r * n + j)) ↔ j' = j :=
        ⟨fun h => by have := segPos_inj (mul_add_lt hr hj') (mul_add_lt hr hj) h; omega, fun h => by rw [h]⟩
      simp [shuffledMat, h2]
    · intro kk hkk hne
      rw [shuffledMat_unit', if_neg]
      · simp [shuffledMat]
      · intro h
        have h2 := segPos_inj (mul_add_lt (Finset.mem_range.1 hkk) hj') (mul_add_lt hr hj) h
        have h3 := congrArg (· / n) h2
        simp only [Nat.mul_comm _ n, Nat.mul_add_div (show 0 < n by omega), Nat.div_eq_of_lt hj, Nat.div_eq_of_lt hj', Nat.add_zero] at h3
        exact hne h3
    · simp [hr]
  simp only [lastWidth]
  rw [Finset.sum_eq_single_of_mem j (Finset.mem_range.2 hj)]
  · rw [ht j hj, if_pos rfl, value_last]
  · intro j' hj' hne
    rw [ht j' (Finset.mem_range.1 hj'), if_neg hne, mul_zero, mul_zero]

theorem fn_one_pos (f : Act) : 0 < f.fn 1 := by
  cases f with
  | identity => simp [Act.fn]
  | relu => simp [Act.fn]
  | tanh =>
    simp only [Act.fn]
    rw [Real.tanh_eq_sinh_div_cosh]
    exact div_pos (Real.sinh_pos_iff.2 one_pos) (Real.cosh_pos 1)

/-- there are inputs and parameters with which only the first input of the last layer is not 0 -/
theorem first_unit (pre : List (Nat × Act)) (k : Nat) : ∃ (θ a : Nat → Nat → ℝ) (v : ℝ), 0 < v ∧
    (∀ i r, netValue k (layerFns θ 0 pre) a i r = if r = 0 then v else 0) ∧ ∀ q, 2 * pre.length ≤ q → ∀ c, θ q c = 0 := by
  by_cases hp : pre = []
  · subst hp
    exact ⟨fun _ _ => 0, fun _ r => if r = 0 then 1 else 0, 1, one_pos, fun _ _ => rfl, fun _ _ _ => rfl⟩
  · obtain ⟨pre', ⟨n', f'⟩, rfl⟩ : ∃ pre' e, pre = pre' ++ [e] := ⟨_, _, (List.dropLast_append_getLast hp).symm⟩
    refine ⟨fun q c => if q = 2 * pre'.length + 1 ∧ c = 0 then 1 else 0, fun _ _ => 0, f'.fn 1, fn_one_pos f', fun i r => ?_, fun q hq c => if_neg ?_⟩
    · rw [value_last, lastIn, affine_sum]
      by_cases hr : r = 0 <;> simp [hr, Act.fn_zero]
    · simp only [List.length_append, List.length_cons, List.length_nil] at hq
      omega

end RL
