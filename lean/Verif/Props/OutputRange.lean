import Verif.Lemmas.OutputRange
import Verif.Props.Order

/-!
# Property theorems: the values that outputs can have (C127)
-/

namespace RL

open Spec

/-- C127: the outputs are values of the activation of the last layer, whatever comes before it. -/
theorem C127 (h : Heap ℝ) (mlp : Mlp ℝ) (x m k n : Nat) (f : Act) (pre : List (Nat × Act)) (a θ : Nat → Nat → ℝ) (v : Raw ℝ) (hm : 0 < m) (hn : NetIs h mlp k (pre ++ [(n, f)]) θ)
    (hx : dataOf h x = some v) (hv : Matrix v m k a) :
    ∃ g r w o, mlp.forward h x = .ok (g, r) ∧ dataOf g r = some w ∧ Matrix w m n o ∧ ∀ i < m, ∀ j < n, CanReach f (o i j) := by
  obtain ⟨g, r, w, e, d, M, _⟩ := C45_forward mlp _ h x v m k a hm hx hv hn.layers
  rw [outWidth_layerFns, lastWidth_append] at M
  refine ⟨g, r, w, _, e, d, M, fun i _ j _ => ?_⟩
  rw [value_last]
  exact fn_canReach f _

/-- C127, the other direction: for each row of values of the activation there is a network of the given sizes that gives this row for all inputs; the weights of the last layer
are 0. -/
theorem C127_reached (m k n : Nat) (f : Act) (pre : List (Nat × Act)) (hm : 0 < m) (hk : 0 < k) (hd : ∀ d ∈ pre ++ [(n, f)], 0 < d.1) (u : Nat → ℝ) (hu : ∀ j < n, CanReach f (u j)) :
    ∃ θ : Nat → Nat → ℝ, (∀ a : Nat → Nat → ℝ, ∃ h mlp x v, Reachable h ∧ NetIs h mlp k (pre ++ [(n, f)]) θ ∧ dataOf h x = some v ∧ Matrix v m k a) ∧
      ∀ (h : Heap ℝ) (mlp : Mlp ℝ) (x : Nat) (a : Nat → Nat → ℝ) (v : Raw ℝ), NetIs h mlp k (pre ++ [(n, f)]) θ → dataOf h x = some v → Matrix v m k a →
        ∃ g r w, mlp.forward h x = .ok (g, r) ∧ dataOf g r = some w ∧ Matrix w m n fun _ j => u j := by
  have hc : ∀ j, ∃ x, j < n → f.fn x = u j := fun j => by
    by_cases hj : j < n
    · obtain ⟨x, hx⟩ := canReach_fn (hu j hj)
      exact ⟨x, fun _ => hx⟩
    · exact ⟨0, fun h => absurd h hj⟩
  choose c hc using hc
  refine ⟨fun q j => if q = 2 * pre.length + 1 then c j else 0, fun a => ?_, fun h mlp x a v hn hx hv => ?_⟩
  · have t := training_exists m k (pre ++ [(n, f)]) a (fun _ _ => 0) (fun q j => if q = 2 * pre.length + 1 then c j else 0) hm hk hd
    obtain ⟨v, hx, hv⟩ := t.input
    exact ⟨_, _, _, v, t.reachable, t.net, hx, hv⟩
  · obtain ⟨g, r, w, e, d, M, _⟩ := C45_forward mlp _ h x v m k a hm hx hv hn.layers
    rw [outWidth_layerFns, lastWidth_append] at M
    refine ⟨g, r, w, e, d, M.1, M.2.1, fun i hi j hj => ?_⟩
    rw [M.2.2 i hi j hj, value_last, lastIn, affine_sum]
    simp [hc j hj]

/-- TEST of the hypotheses of `C127_reached`: two tanh outputs, 1/2 and -9/10. -/
example : ∀ j < 2, CanReach .tanh (if j = 0 then 1 / 2 else -9 / 10) := by
  intro j _
  split <;> norm_num [CanReach]

/-- TEST: 1 is no value of tanh. -/
example : ¬ CanReach .tanh 1 := by
  norm_num [CanReach]

end RL
