import Verif.Props.Descent
import Verif.Lemmas.Batch

/-!
# Only the side on which an output misses matters (C106)
-/

namespace RL

open Spec

/-- C106: for all sizes, a training step only depends on which outputs of the network are below the expected ones, not on how far away
these are. -/
theorem C106_step (h₁ h₂ : Heap ℝ) (mlp₁ mlp₂ : Mlp ℝ) (x₁ y₁ x₂ y₂ m k : Nat) (ds : List (Nat × Act)) (a b b' θ : Nat → Nat → ℝ) (lr : ℝ)
    (ht₁ : Training h₁ mlp₁ x₁ y₁ m k ds a b θ) (ht₂ : Training h₂ mlp₂ x₂ y₂ m k ds a b' θ)
    (hside : ∀ i < m, ∀ j < lastWidth k ds, netValue k (layerFns θ 0 ds) a i j < b i j ↔ netValue k (layerFns θ 0 ds) a i j < b' i j) :
    ∃ h₁' mlp₁' h₂' mlp₂' θ', trainStep mlp₁ h₁ x₁ y₁ lr = .ok (h₁', mlp₁') ∧ trainStep mlp₂ h₂ x₂ y₂ lr = .ok (h₂', mlp₂') ∧
      Training h₁' mlp₁' x₁ y₁ m k ds a b θ' ∧ Training h₂' mlp₂' x₂ y₂ m k ds a b' θ' := by
  obtain ⟨h₁', mlp₁', e₁, t₁⟩ := C50_step_actual h₁ mlp₁ x₁ y₁ m k ds a b θ lr ht₁
  obtain ⟨h₂', mlp₂', e₂, t₂⟩ := C50_step_actual h₂ mlp₂ x₂ y₂ m k ds a b' θ lr ht₂
  refine ⟨h₁', mlp₁', h₂', mlp₂', _, e₁, e₂, t₁, ?_⟩
  have : shuffledDescend lr m k ds a b' θ = shuffledDescend lr m k ds a b θ := by
    funext q c
    unfold shuffledDescend lossTangent
    congr 2
    refine Finset.sum_congr rfl fun i hi => Finset.sum_congr rfl fun j hj => ?_
    simp only [hside i (Finset.mem_range.1 hi) j (Finset.mem_range.1 hj)]
  rwa [this] at t₂

/-- C106: the same for any number of steps, if in all states the first run goes through both expected outputs are on the same side. -/
theorem C106 (N : Nat) : ∀ (h₁ h₂ : Heap ℝ) (mlp₁ mlp₂ : Mlp ℝ) (x₁ y₁ x₂ y₂ m k : Nat) (ds : List (Nat × Act)) (a b b' θ : Nat → Nat → ℝ) (lr : ℝ),
    Training h₁ mlp₁ x₁ y₁ m k ds a b θ → Training h₂ mlp₂ x₂ y₂ m k ds a b' θ →
    (∀ t < N, ∀ h' mlp' θ', train mlp₁ h₁ x₁ y₁ lr t = .ok (h', mlp') → NetIs h' mlp' k ds θ' → ∀ i < m, ∀ j < lastWidth k ds,
      netValue k (layerFns θ' 0 ds) a i j < b i j ↔ netValue k (layerFns θ' 0 ds) a i j < b' i j) →
    ∃ h₁' mlp₁' h₂' mlp₂' θ', train mlp₁ h₁ x₁ y₁ lr N = .ok (h₁', mlp₁') ∧ train mlp₂ h₂ x₂ y₂ lr N = .ok (h₂', mlp₂') ∧
      NetIs h₁' mlp₁' k ds θ' ∧ NetIs h₂' mlp₂' k ds θ' := by
  induction N with
  | zero => exact fun h₁ h₂ mlp₁ mlp₂ x₁ y₁ x₂ y₂ m k ds a b b' θ lr ht₁ ht₂ _ => ⟨h₁, mlp₁, h₂, mlp₂, θ, rfl, rfl, ht₁.net, ht₂.net⟩
  | succ N ih =>
    intro h₁ h₂ mlp₁ mlp₂ x₁ y₁ x₂ y₂ m k ds a b b' θ lr ht₁ ht₂ hside
    obtain ⟨h₁', mlp₁', h₂', mlp₂', θ', e₁, e₂, t₁, t₂⟩ := C106_step h₁ h₂ mlp₁ mlp₂ x₁ y₁ x₂ y₂ m k ds a b b' θ lr ht₁ ht₂
      (hside 0 (by omega) h₁ mlp₁ θ rfl ht₁.net)
    simp only [train, e₁, e₂]
    exact ih h₁' h₂' mlp₁' mlp₂' x₁ y₁ x₂ y₂ m k ds a b b' θ' lr t₁ t₂ fun t ht h' mlp' θ'' e => hside (t + 1) (by omega) h' mlp' θ'' (by
      simp only [train, e₁]
      exact e)

/-- C106: other expected outputs in one place, however far away, change a step by 0 or by twice the learning rate times the slope of this
output (shuffled, for large matrices). -/
theorem C106_outlier (h₁ h₂ : Heap ℝ) (mlp₁ mlp₂ : Mlp ℝ) (x₁ y₁ x₂ y₂ m k : Nat) (ds : List (Nat × Act)) (a b b' θ : Nat → Nat → ℝ) (lr : ℝ) (i j : Nat)
    (ht₁ : Training h₁ mlp₁ x₁ y₁ m k ds a b θ) (ht₂ : Training h₂ mlp₂ x₂ y₂ m k ds a b' θ)
    (hb : ∀ i' < m, ∀ j' < lastWidth k ds, (i', j') ≠ (i, j) → b i' j' = b' i' j') :
    ∃ h₁' mlp₁' h₂' mlp₂' θ₁' θ₂', trainStep mlp₁ h₁ x₁ y₁ lr = .ok (h₁', mlp₁') ∧ trainStep mlp₂ h₂ x₂ y₂ lr = .ok (h₂', mlp₂') ∧
      NetIs h₁' mlp₁' k ds θ₁' ∧ NetIs h₂' mlp₂' k ds θ₂' ∧
      ∀ q c, |θ₁' q c - θ₂' q c| ≤ 2 * |lr| * |netTangent m θ (fun q' c' => if q' = q ∧ c' = c then 1 else 0) k 0 ds a (fun _ _ => 0) i j| := by
  obtain ⟨h₁', mlp₁', e₁, t₁⟩ := C50_step_actual h₁ mlp₁ x₁ y₁ m k ds a b θ lr ht₁
  obtain ⟨h₂', mlp₂', e₂, t₂⟩ := C50_step_actual h₂ mlp₂ x₂ y₂ m k ds a b' θ lr ht₂
  refine ⟨h₁', mlp₁', h₂', mlp₂', _, _, e₁, e₂, t₁.net, t₂.net, fun q c => ?_⟩
  simp only [shuffledDescend]
  generalize (fun q' c' => if q' = q ∧ c' = c then (1 : ℝ) else 0) = δ
  have key : |lossTangent m k ds a b' θ δ - lossTangent m k ds a b θ δ| ≤ 2 * |netTangent m θ δ k 0 ds a (fun _ _ => 0) i j| := by
    have hterm : ∀ i' ∈ Finset.range m, ∀ j' ∈ Finset.range (lastWidth k ds), (i', j') ≠ (i, j) →
        (if netValue k (layerFns θ 0 ds) a i' j' < b' i' j' then -1 else 1) * netTangent m θ δ k 0 ds a (fun _ _ => 0) i' j' -
        (if netValue k (layerFns θ 0 ds) a i' j' < b i' j' then -1 else 1) * netTangent m θ δ k 0 ds a (fun _ _ => 0) i' j' = 0 := by
      intro i' hi j' hj hne
      rw [hb i' (Finset.mem_range.1 hi) j' (Finset.mem_range.1 hj) hne, sub_self]
    unfold lossTangent
    simp only [← Finset.sum_sub_distrib]
    by_cases hij : i < m ∧ j < lastWidth k ds
    · rw [Finset.sum_eq_single_of_mem i (Finset.mem_range.2 hij.1) fun i' hi hne => Finset.sum_eq_zero fun j' hj => hterm i' hi j' hj (by simp [hne]),
        Finset.sum_eq_single_of_mem j (Finset.mem_range.2 hij.2) fun j' hj hne => hterm i (Finset.mem_range.2 hij.1) j' hj (by simp [hne]), ← sub_mul, abs_mul]
      refine mul_le_mul_of_nonneg_right ?_ (abs_nonneg _)
      split <;> split <;> norm_num
    · rw [Finset.sum_eq_zero fun i' hi => Finset.sum_eq_zero fun j' hj => hterm i' hi j' hj fun h => hij (by
        simp only [Prod.mk.injEq] at h
        rw [← h.1, ← h.2]
        exact ⟨Finset.mem_range.1 hi, Finset.mem_range.1 hj⟩), abs_zero]
      positivity
  rw [show θ q c - lr * lossTangent m k ds a b θ δ - (θ q c - lr * lossTangent m k ds a b' θ δ) =
    lr * (lossTangent m k ds a b' θ δ - lossTangent m k ds a b θ δ) by ring, abs_mul]
  nlinarith [abs_nonneg lr]

/-- C106, test: one input 1, a layer with weight 0 and bias 0, without activation. The expected outputs 5 and 5000 give the same parameters after
a step with learning rate 1. -/
example : ∃ h₁ mlp₁ h₂ mlp₂ h₁' mlp₁' h₂' mlp₂' θ',
    Training h₁ mlp₁ 0 1 1 1 [(1, .identity)] (fun _ _ => 1) (fun _ _ => 5) (fun _ _ => 0) ∧
    Training h₂ mlp₂ 0 1 1 1 [(1, .identity)] (fun _ _ => 1) (fun _ _ => 5000) (fun _ _ => 0) ∧
    trainStep mlp₁ h₁ 0 1 1 = .ok (h₁', mlp₁') ∧ trainStep mlp₂ h₂ 0 1 1 = .ok (h₂', mlp₂') ∧
    NetIs h₁' mlp₁' 1 [(1, .identity)] θ' ∧ NetIs h₂' mlp₂' 1 [(1, .identity)] θ' := by
  have t1 := training_exists 1 1 [(1, .identity)] (fun _ _ => 1) (fun _ _ => 5) (fun _ _ => 0) (by omega) (by omega) (by simp)
  have t2 := training_exists 1 1 [(1, .identity)] (fun _ _ => 1) (fun _ _ => 5000) (fun _ _ => 0) (by omega) (by omega) (by simp)
  obtain ⟨h₁', mlp₁', h₂', mlp₂', θ', e1, e2, u1, u2⟩ := C106_step _ _ _ _ _ _ _ _ _ _ _ _ _ _ _ 1 t1 t2 fun i _ j _ => by
    simp [netValue, layerFns, affine_sum, Act.fn]
  exact ⟨_, _, _, _, h₁', mlp₁', h₂', mlp₂', θ', t1, t2, e1, e2, u1.net, u2.net⟩

/-- C106, test: the outputs of `relu` are not negative, so the expected outputs -1 and -1000 give the same parameters after any number of steps. -/
example (m k n : Nat) (a θ : Nat → Nat → ℝ) (lr : ℝ) (N : Nat) (hm : 0 < m) (hk : 0 < k) (hn : 0 < n) : ∃ h₁ mlp₁ h₂ mlp₂ h₁' mlp₁' h₂' mlp₂' θ',
    Training h₁ mlp₁ 0 1 m k [(n, .relu)] a (fun _ _ => -1) θ ∧ Training h₂ mlp₂ 0 1 m k [(n, .relu)] a (fun _ _ => -1000) θ ∧
    train mlp₁ h₁ 0 1 lr N = .ok (h₁', mlp₁') ∧ train mlp₂ h₂ 0 1 lr N = .ok (h₂', mlp₂') ∧
    NetIs h₁' mlp₁' k [(n, .relu)] θ' ∧ NetIs h₂' mlp₂' k [(n, .relu)] θ' := by
  have t1 := training_exists m k [(n, .relu)] a (fun _ _ => -1) θ hm hk (by simpa using hn)
  have t2 := training_exists m k [(n, .relu)] a (fun _ _ => -1000) θ hm hk (by simpa using hn)
  obtain ⟨h₁', mlp₁', h₂', mlp₂', θ', e1, e2, u1, u2⟩ := C106 N _ _ _ _ _ _ _ _ _ _ _ _ _ _ _ lr t1 t2 fun t _ h' mlp' θ' _ _ i _ j _ => by
    have : 0 ≤ netValue k (layerFns θ' 0 [(n, .relu)]) a i j := le_max_right _ _
    constructor <;> intro h <;> linarith
  exact ⟨_, _, _, _, h₁', mlp₁', h₂', mlp₂', θ', t1, t2, e1, e2, u1, u2⟩

end RL
