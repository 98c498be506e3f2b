import Verif.Lemmas.Alone
import Verif.Lemmas.DescentDeep
import Verif.Lemmas.Grid

/-!
# Lemmas: networks whose parameters are 0 except for the output biases (C118)
-/

namespace RL

open Spec

variable {m k n : Nat} {f : Act} {pre : List (Nat × Act)}

/-- the parameters of a network with `l` hidden layers: 0, except for the output biases -/
def blank (l : Nat) (β : Nat → ℝ) : Nat → Nat → ℝ := fun q c => if q = 2 * l + 1 then β c else 0

/-- the output of a single bias, and how a training step changes it -/
noncomputable def biasStep (f : Act) (lr : ℝ) (m : Nat) (y : Nat → Nat → ℝ) (β : Nat → ℝ) : Nat → ℝ := fun j =>
  β j - lr * ∑ i ∈ Finset.range m, (if f.fn (β j) < y i j then -1 else 1) * f.slope (β j)

theorem blank_hidden (hp : pre ≠ []) (β : Nat → ℝ) (a : Nat → Nat → ℝ) : netValue k (layerFns (blank pre.length β) 0 pre) a = fun _ _ => 0 := by
  obtain ⟨pre', e, rfl⟩ : ∃ pre' e, pre = pre' ++ [e] := ⟨_, _, (List.dropLast_append_getLast hp).symm⟩
  funext i j
  rw [value_last, lastIn, affine_sum]
  have h : ∀ q c, q < 2 * (pre' ++ [e]).length + 1 → blank (pre' ++ [e]).length β q c = 0 := fun q c hq => if_neg (by omega)
  simp only [List.length_append, List.length_cons, List.length_nil] at h ⊢
  simp only [h (2 * pre'.length) _ (by omega), h (2 * pre'.length + 1) _ (by omega)]
  simp [Act.fn_zero]

theorem blank_in (hp : pre ≠ []) (β : Nat → ℝ) (a : Nat → Nat → ℝ) (i j : Nat) : lastIn k n pre (blank pre.length β) a i j = β j := by
  rw [lastIn, affine_sum, blank_hidden hp]
  simp [blank]

theorem blank_tangent (hp : pre ≠ []) (β : Nat → ℝ) (a : Nat → Nat → ℝ) (δ : Nat → Nat → ℝ) (hδ : ∀ c, δ (2 * pre.length + 1) c = 0) :
    netTangent m (blank pre.length β) δ k 0 (pre ++ [(n, f)]) a (fun _ _ => 0) = fun _ _ => 0 := by
  rw [tangent_append, blank_hidden hp]
  funext i j
  simp only [netTangent, Nat.zero_add, hδ]
  simp [blank]

theorem blank_step (hp : pre ≠ []) (lr : ℝ) (β : Nat → ℝ) (a y : Nat → Nat → ℝ) (q c : Nat) (hc : q = 2 * pre.length + 1 → c < n) :
    shuffledDescend lr m k (pre ++ [(n, f)]) a y (blank pre.length β) q c = blank pre.length (biasStep f lr m y β) q c := by
  by_cases hq : q = 2 * pre.length + 1
  · subst hq
    rw [descend_last_bias a y _ (hc rfl)]
    simp [blank_in hp, blank, biasStep]
  · have h : ∀ c', unit q c (2 * pre.length + 1) c' = 0 := fun c' => if_neg fun h => hq h.1.symm
    change blank pre.length β q c - lr * lossTangent m k (pre ++ [(n, f)]) a y (blank pre.length β) (unit q c) = _
    rw [lossTangent, blank_tangent hp β a _ h]
    simp [blank, hq]

end RL
