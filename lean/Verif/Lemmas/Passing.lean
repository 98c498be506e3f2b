import Verif.Lemmas.OutputRange

/-!
# Lemmas: a layer that passes on its inputs (C129)
-/

namespace RL

open Spec

/-- the parameters `θ` with a layer of width `w` put in at `q` that passes on its inputs: weights 1 on the diagonal, all others and the biases 0 -/
def passOn (q w : Nat) (θ : Nat → Nat → ℝ) : Nat → Nat → ℝ := fun p c =>
  if p < q then θ p c else if p = q then if c / w = c % w then 1 else 0 else if p = q + 1 then 0 else θ (p - 2) c

theorem layerFns_shift {θ θ' : Nat → Nat → ℝ} : ∀ (ds : List (Nat × Act)) (q : Nat), (∀ p, q ≤ p → θ' (p + 2) = θ p) → layerFns θ' (q + 2) ds = layerFns θ q ds
  | [], _, _ => rfl
  | (n, f) :: ds, q, h => by
    simp only [layerFns]
    rw [h q le_rfl, show q + 2 + 1 = q + 1 + 2 by omega, h (q + 1) (by omega), layerFns_shift ds (q + 2) fun p hp => h p (by omega)]

theorem value_passOn {θ : Nat → Nat → ℝ} {k : Nat} {g : Act} {pre post : List (Nat × Act)} {a : Nat → Nat → ℝ} {i : Nat}
    (hg : ∀ j < lastWidth k pre, g.fn (netValue k (layerFns θ 0 pre) a i j) = netValue k (layerFns θ 0 pre) a i j) :
    ∀ j < lastWidth k (pre ++ post), netValue k (layerFns (passOn (2 * pre.length) (lastWidth k pre) θ) 0 (pre ++ (lastWidth k pre, g) :: post)) a i j =
      netValue k (layerFns θ 0 (pre ++ post)) a i j := by
  intro j hj
  rw [lastWidth_append] at hj
  have hb : ∀ p < 0 + 2 * pre.length, passOn (2 * pre.length) (lastWidth k pre) θ p = θ p := fun p hp => funext fun c => if_pos (by omega)
  have ha : ∀ p, 2 * pre.length ≤ p → passOn (2 * pre.length) (lastWidth k pre) θ (p + 2) = θ p := fun p hp => funext fun c => by
    simp only [passOn]
    rw [if_neg (by omega), if_neg (by omega), if_neg (by omega), Nat.add_sub_cancel]
  rw [value_append, value_append, Nat.zero_add, layerFns_before pre 0 hb]
  simp only [layerFns, netValue]
  rw [layerFns_shift post _ ha]
  refine netValue_congr post _ _ _ _ i (fun _ _ => rfl) (fun r hr => ?_) j hj
  refine Eq.trans (congrArg g.fn ?_) (hg r hr)
  rw [affine_sum, Finset.sum_eq_single_of_mem r (Finset.mem_range.2 hr)]
  · have h1 : (r * lastWidth k pre + r) / lastWidth k pre = (r * lastWidth k pre + r) % lastWidth k pre := by
      rw [Nat.mul_comm, Nat.mul_add_mod, Nat.mod_eq_of_lt hr, Nat.mul_add_div (by omega), Nat.div_eq_of_lt hr, Nat.add_zero]
    simp [passOn, h1]
  · intro r' _ hne
    have h1 : (r' * lastWidth k pre + r) / lastWidth k pre ≠ (r' * lastWidth k pre + r) % lastWidth k pre := by
      rw [Nat.mul_comm, Nat.mul_add_mod, Nat.mod_eq_of_lt hr, Nat.mul_add_div (by omega), Nat.div_eq_of_lt hr, Nat.add_zero]
      exact hne
    simp only [passOn]
    rw [if_neg (by omega), if_pos trivial, if_neg h1, mul_zero]

end RL
