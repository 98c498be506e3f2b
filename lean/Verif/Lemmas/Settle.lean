import Verif.Lemmas.Sharp

/-!
# The bias of the last layer in a training step: lemmas
-/

namespace RL

open Spec

variable {m k n : Nat} {f : Act} {pre : List (Nat × Act)} {θ δ : Nat → Nat → ℝ}

/-- what goes into the activation of the last layer -/
noncomputable def lastIn (k n : Nat) (pre : List (Nat × Act)) (θ a : Nat → Nat → ℝ) : Nat → Nat → ℝ :=
  affine (lastWidth k pre) (netValue k (layerFns θ 0 pre) a) (fun i j => θ (2 * pre.length) (i * n + j)) (θ (2 * pre.length + 1))

theorem tangent_before (ds : List (Nat × Act)) : ∀ (pre : List (Nat × Act)) (k q : Nat) (a : Nat → Nat → ℝ), (∀ p < q + 2 * pre.length, ∀ c, δ p c = 0) →
    netTangent m θ δ k q (pre ++ ds) a (fun _ _ => 0) =
      netTangent m θ δ (lastWidth k pre) (q + 2 * pre.length) ds (netValue k (layerFns θ q pre) a) (fun _ _ => 0) := by
  intro pre
  induction pre with
  | nil => exact fun k q a _ => rfl
  | cons e pre ih =>
    obtain ⟨n, f⟩ := e
    intro k q a hδ
    simp only [List.length_cons] at hδ ⊢
    have h0 : q + 2 * (pre.length + 1) = q + 2 + 2 * pre.length := by ring
    rw [h0] at hδ ⊢
    simp only [List.cons_append, netTangent, shuffledMat, hδ q (by omega), hδ (q + 1) (by omega), mul_zero, zero_mul, add_zero,
      Finset.sum_const_zero, lastWidth, layerFns, netValue]
    exact ih n (q + 2) _ hδ

theorem value_append (ds : List (Nat × Act)) : ∀ (pre : List (Nat × Act)) (k q : Nat) (a : Nat → Nat → ℝ),
    netValue k (layerFns θ q (pre ++ ds)) a = netValue (lastWidth k pre) (layerFns θ (q + 2 * pre.length) ds) (netValue k (layerFns θ q pre) a) := by
  intro pre
  induction pre with
  | nil => exact fun k q a => rfl
  | cons e pre ih =>
    obtain ⟨n, f⟩ := e
    intro k q a
    simp only [List.cons_append, List.length_cons, lastWidth, layerFns, netValue]
    rw [ih, show q + 2 * (pre.length + 1) = q + 2 + 2 * pre.length by ring]

theorem value_last (a : Nat → Nat → ℝ) (i j : Nat) : netValue k (layerFns θ 0 (pre ++ [(n, f)])) a i j = f.fn (lastIn k n pre θ a i j) := by
  rw [value_append, Nat.zero_add]
  rfl

theorem loss_last_bias (a y : Nat → Nat → ℝ) {j : Nat} (hj : j < n) :
    lossTangent m k (pre ++ [(n, f)]) a y θ (unit (2 * pre.length + 1) j) =
      ∑ i ∈ Finset.range m, (if f.fn (lastIn k n pre θ a i j) < y i j then -1 else 1) * f.slope (lastIn k n pre θ a i j) := by
  rw [lossTangent, lastWidth_append]
  refine Finset.sum_congr rfl fun i _ => ?_
  have ht : ∀ j', netTangent m θ (unit (2 * pre.length + 1) j) k 0 (pre ++ [(n, f)]) a (fun _ _ => 0) i j' =
      f.slope (lastIn k n pre θ a i j') * if j' = j then 1 else 0 := by
    intro j'
    rw [tangent_before _ pre k 0 a (fun p hp c => by simp only [unit]; rw [if_neg (by omega)]), Nat.zero_add]
    simp only [netTangent, shuffledMat, zero_mul, zero_add, unit]
    rw [Finset.sum_eq_zero fun _ _ => by rw [if_neg (by omega), mul_zero]]
    simp [lastIn]
  simp only [ht, value_last, mul_ite, mul_one, mul_zero, lastWidth]
  rw [Finset.sum_ite_eq' (Finset.range n) j, if_pos (Finset.mem_range.2 hj)]

/-- a last layer that does not react -/
theorem loss_last_dead (a y δ : Nat → Nat → ℝ) (h : ∀ i < m, ∀ j < n, f.slope (lastIn k n pre θ a i j) = 0) :
    lossTangent m k (pre ++ [(n, f)]) a y θ δ = 0 := by
  have ht : ∀ (pre : List (Nat × Act)) (k q : Nat) (a da : Nat → Nat → ℝ) (i j : Nat),
      f.slope (affine (lastWidth k pre) (netValue k (layerFns θ q pre) a) (fun i j => θ (q + 2 * pre.length) (i * n + j)) (θ (q + 2 * pre.length + 1)) i j) = 0 →
      netTangent m θ δ k q (pre ++ [(n, f)]) a da i j = 0 := by
    intro pre
    induction pre with
    | nil =>
      intro k q a da i j h
      simp only [List.length_nil, mul_zero, add_zero, lastWidth, layerFns, netValue] at h
      simp only [List.nil_append, netTangent, h, zero_mul]
    | cons e pre ih =>
      obtain ⟨n', f'⟩ := e
      intro k q a da i j h
      simp only [List.cons_append, netTangent]
      refine ih _ _ _ _ _ _ ?_
      rw [List.length_cons, show q + 2 * (pre.length + 1) = q + 2 + 2 * pre.length by ring] at h
      exact h
  rw [lossTangent, lastWidth_append]
  refine Finset.sum_eq_zero fun i hi => Finset.sum_eq_zero fun j hj => ?_
  rw [ht pre k 0 a _ i j, mul_zero]
  have := h i (Finset.mem_range.1 hi) j (Finset.mem_range.1 hj)
  rw [Nat.zero_add]
  exact this

end RL
