import Verif.Lemmas.Passing
import Verif.Props.Order

/-!
# Property theorems: a layer that passes on its inputs (C129)
-/

namespace RL

open Spec

/-- C129: a further layer without activation, or with relu after a layer with relu, that has weights 1 on the diagonal, all other weights and the biases 0, does not change the
outputs, wherever it is put. -/
theorem C129 (h₁ h₂ : Heap ℝ) (mlp₁ mlp₂ : Mlp ℝ) (x₁ x₂ m k : Nat) (g : Act) (pre post : List (Nat × Act)) (a θ : Nat → Nat → ℝ) (v₁ v₂ : Raw ℝ) (hm : 0 < m)
    (hg : g = .identity ∨ g = .relu ∧ ∃ pre' n, pre = pre' ++ [(n, .relu)]) (hn₁ : NetIs h₁ mlp₁ k (pre ++ post) θ)
    (hn₂ : NetIs h₂ mlp₂ k (pre ++ (lastWidth k pre, g) :: post) (passOn (2 * pre.length) (lastWidth k pre) θ))
    (hx₁ : dataOf h₁ x₁ = some v₁) (hv₁ : Matrix v₁ m k a) (hx₂ : dataOf h₂ x₂ = some v₂) (hv₂ : Matrix v₂ m k a) :
    ∃ h₁' r₁ w₁ h₂' r₂ w₂ o, mlp₁.forward h₁ x₁ = .ok (h₁', r₁) ∧ dataOf h₁' r₁ = some w₁ ∧ Matrix w₁ m (lastWidth k (pre ++ post)) o ∧
      mlp₂.forward h₂ x₂ = .ok (h₂', r₂) ∧ dataOf h₂' r₂ = some w₂ ∧ Matrix w₂ m (lastWidth k (pre ++ post)) o := by
  obtain ⟨h₁', r₁, w₁, e₁, d₁, M₁, _⟩ := C45_forward mlp₁ _ h₁ x₁ v₁ m k a hm hx₁ hv₁ hn₁.layers
  obtain ⟨h₂', r₂, w₂, e₂, d₂, M₂, _⟩ := C45_forward mlp₂ _ h₂ x₂ v₂ m k a hm hx₂ hv₂ hn₂.layers
  have hw : lastWidth k (pre ++ (lastWidth k pre, g) :: post) = lastWidth k (pre ++ post) := by
    rw [lastWidth_append, lastWidth_append]
    rfl
  rw [outWidth_layerFns] at M₁ M₂
  rw [hw] at M₂
  refine ⟨h₁', r₁, w₁, h₂', r₂, w₂, _, e₁, d₁, M₁, e₂, d₂, M₂.1, M₂.2.1, fun i hi j hj => ?_⟩
  rw [M₂.2.2 i hi j hj, value_passOn (fun r _ => ?_) j hj]
  rcases hg with rfl | ⟨rfl, pre', n, rfl⟩
  · rfl
  · rw [value_last]
    exact max_eq_left (le_max_right _ 0)

/-- TEST: after tanh, a relu layer that passes on its inputs does change the outputs. -/
example : netValue 1 (layerFns (passOn 2 1 fun q _ => if q = 0 then 1 else 0) 0 [(1, .tanh), (1, .relu)]) (fun _ _ => -1) 0 0 = 0 ∧
    netValue 1 (layerFns (fun q _ => if q = 0 then 1 else 0) 0 [(1, .tanh)]) (fun _ _ => -1) 0 0 < 0 := by
  have h : Real.tanh (-1) < 0 := by
    have h1 := Real.sinh_pos_iff.2 one_pos
    rw [Real.tanh_neg, Real.tanh_eq_sinh_div_cosh]
    have := div_pos h1 (Real.cosh_pos 1)
    linarith
  constructor
  · simp [netValue, layerFns, affine_sum, Act.fn, passOn, h.le]
    simpa using h.le
  · simpa [netValue, layerFns, affine_sum, Act.fn] using h

/-- TEST of the hypotheses of `C129`: a relu layer of width 6 put in after a relu layer. -/
example (a b θ : Nat → Nat → ℝ) : (∃ h mlp x y, Training h mlp x y 4 9 ([(6, .relu)] ++ [(2, .tanh)]) a b θ) ∧
    (∃ h mlp x y, Training h mlp x y 4 9 ([(6, .relu)] ++ (6, .relu) :: [(2, .tanh)]) a b (passOn 2 6 θ)) ∧ ∃ pre' n, [(6, Act.relu)] = pre' ++ [(n, .relu)] :=
  ⟨⟨_, _, _, _, training_exists 4 9 _ _ _ _ (by omega) (by omega) (by simp)⟩, ⟨_, _, _, _, training_exists 4 9 _ _ _ _ (by omega) (by omega) (by simp)⟩, [], 6, rfl⟩

end RL
