import Verif.Lemmas.Collapse
import Verif.Lemmas.Alone
import Verif.Props.Settle

/-!
# Property theorems: what depth is good for (C120, C121)
-/

namespace RL

open Spec

/-- C120: a network without activations computes what one layer without activation computes, for all inputs. -/
theorem C120_collapse (h : Heap ℝ) (mlp : Mlp ℝ) (k n : Nat) (pre : List (Nat × Act)) (θ : Nat → Nat → ℝ) (hd : ∀ d ∈ pre, d.2 = .identity)
    (hnet : NetIs h mlp k (pre ++ [(n, .identity)]) θ) :
    ∃ η : Nat → Nat → ℝ, ∀ (h₂ : Heap ℝ) (mlp₂ : Mlp ℝ), NetIs h₂ mlp₂ k [(n, .identity)] η →
      ∀ (x x₂ m : Nat) (v v₂ : Raw ℝ) (a : Nat → Nat → ℝ), 0 < m → dataOf h x = some v → Matrix v m k a → dataOf h₂ x₂ = some v₂ → Matrix v₂ m k a →
        ∃ h' r w h₂' r₂ w₂ o, mlp.forward h x = .ok (h', r) ∧ dataOf h' r = some w ∧ Matrix w m n o ∧
          mlp₂.forward h₂ x₂ = .ok (h₂', r₂) ∧ dataOf h₂' r₂ = some w₂ ∧ Matrix w₂ m n o := by
  obtain ⟨w, c, H⟩ := collapse_net θ (pre ++ [(n, .identity)]) k 0 (by simp) fun d hd' => by
    rcases List.mem_append.1 hd' with h1 | h1
    · exact hd d h1
    · rw [List.mem_singleton.1 h1]
  refine ⟨fun q c' => if q = 0 then w (c' / n) (c' % n) else c c', fun h₂ mlp₂ hnet₂ x x₂ m v v₂ a hm hx hv hx₂ hv₂ => ?_⟩
  obtain ⟨h', r, u, e, hu, hM, _⟩ := C45_forward mlp _ h x v m k a hm hx hv hnet.layers
  obtain ⟨h₂', r₂, u₂, e₂, hu₂, hM₂, _⟩ := C45_forward mlp₂ _ h₂ x₂ v₂ m k a hm hx₂ hv₂ hnet₂.layers
  rw [outWidth_layerFns, lastWidth_append, H] at hM
  rw [outWidth_layerFns] at hM₂
  refine ⟨h', r, u, h₂', r₂, u₂, _, e, hu, hM, e₂, hu₂, hM₂.1, hM₂.2.1, fun i hi j hj => ?_⟩
  rw [hM₂.2.2 i hi j hj]
  simp only [layerFns, netValue, Act.fn, id, affine_sum, if_true]
  refine congrArg some (congrArg₂ _ (Finset.sum_congr rfl fun r _ => ?_) rfl)
  rw [Nat.mul_comm r n, Nat.mul_add_div (by omega), Nat.mul_add_mod, Nat.div_eq_of_lt hj, Nat.mod_eq_of_lt hj, Nat.add_zero]

/-- C120 needs that there are no activations: with a `relu` in between, no single layer without activation computes the same for the inputs -1, 0 and 1. -/
theorem C120_relu : ∃ θ : Nat → Nat → ℝ, ¬ ∃ w c : ℝ, ∀ t : ℝ, netValue 1 (layerFns θ 0 ([(1, .relu)] ++ [(1, .identity)])) (fun _ _ => t) 0 0 = t * w + c := by
  refine ⟨fun q _ => if q % 2 = 0 then 1 else 0, fun ⟨w, c, H⟩ => ?_⟩
  have h0 := H 0
  have h1 := H 1
  have h2 := H (-1)
  simp [layerFns, netValue, affine_sum, Act.fn] at h0 h1 h2
  linarith

/-- C121: a network without biases, with `relu` or no activations, is homogeneous: inputs multiplied by `s ≥ 0` give the outputs multiplied by `s`. -/
theorem C121_scale (h : Heap ℝ) (mlp : Mlp ℝ) (k : Nat) (ds : List (Nat × Act)) (θ : Nat → Nat → ℝ) (s : ℝ) (hs : 0 ≤ s) (hd : ∀ d ∈ ds, d.2 ≠ .tanh)
    (hb : ∀ p c, p % 2 = 1 → θ p c = 0) (hnet : NetIs h mlp k ds θ) (x x₂ m : Nat) (v v₂ : Raw ℝ) (a : Nat → Nat → ℝ) (hm : 0 < m)
    (hx : dataOf h x = some v) (hv : Matrix v m k a) (hx₂ : dataOf h x₂ = some v₂) (hv₂ : Matrix v₂ m k fun i j => s * a i j) :
    ∃ h' r w h₂' r₂ w₂ o, mlp.forward h x = .ok (h', r) ∧ dataOf h' r = some w ∧ Matrix w m (lastWidth k ds) o ∧
      mlp.forward h x₂ = .ok (h₂', r₂) ∧ dataOf h₂' r₂ = some w₂ ∧ Matrix w₂ m (lastWidth k ds) fun i j => s * o i j := by
  obtain ⟨h', r, u, e, hu, hM, _⟩ := C45_forward mlp _ h x v m k a hm hx hv hnet.layers
  obtain ⟨h₂', r₂, u₂, e₂, hu₂, hM₂, _⟩ := C45_forward mlp _ h x₂ v₂ m k _ hm hx₂ hv₂ hnet.layers
  rw [outWidth_layerFns] at hM hM₂
  rw [value_scale θ hs ds k 0 rfl hd hb] at hM₂
  exact ⟨h', r, u, h₂', r₂, u₂, _, e, hu, hM, e₂, hu₂, hM₂⟩

/-- C121 needs `s ≥ 0`: `relu` gives 1 for 1 but not -1 for -1. -/
theorem C121_negative : ∃ θ : Nat → Nat → ℝ, (∀ p c, p % 2 = 1 → θ p c = 0) ∧
    netValue 1 (layerFns θ 0 [(1, .relu)]) (fun _ _ => -1 * 1) 0 0 ≠ -1 * netValue 1 (layerFns θ 0 [(1, .relu)]) (fun _ _ => 1) 0 0 := by
  refine ⟨fun q _ => if q % 2 = 0 then 1 else 0, fun p c hp => if_neg (by omega), ?_⟩
  simp [layerFns, netValue, affine_sum, Act.fn]

/-- TEST of the hypotheses of `C120_collapse`: three layers, and a single layer with any parameters. -/
example (a b θ η : Nat → Nat → ℝ) : (∃ h mlp x y, Training h mlp x y 5 7 ([(20, .identity), (9, .identity)] ++ [(3, .identity)]) a b θ) ∧
    ∃ h mlp x y, Training h mlp x y 5 7 [(3, .identity)] a b η :=
  ⟨⟨_, _, _, _, training_exists 5 7 _ _ _ _ (by omega) (by omega) (by simp)⟩, ⟨_, _, _, _, training_exists 5 7 _ _ _ _ (by omega) (by omega) (by simp)⟩⟩

/-- TEST of the hypotheses of `C121_scale`: a relu network with weights 1 and biases 0, and an input; the input multiplied by 2 can be the expected output. -/
example (a : Nat → Nat → ℝ) : ∃ h mlp x y, Training h mlp x y 5 3 [(20, .relu), (3, .relu)] a (fun i j => 2 * a i j) fun q _ => if q % 2 = 0 then 1 else 0 :=
  ⟨_, _, _, _, training_exists 5 3 _ _ _ _ (by omega) (by omega) (by simp)⟩

end RL
