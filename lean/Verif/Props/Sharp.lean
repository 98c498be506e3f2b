import Verif.Lemmas.Sharp
import Verif.Props.Train

/-!
# Which networks are trained by gradient descent: C90
-/

namespace RL

open Spec

/-- C90: the training steps of a kind of network (number of rows, widths, activations) are steps of gradient descent, for all heaps, data,
learning rates and parameters without kinks, exactly if all weights, and the outputs of all layers but the last one, have at most 32
elements. -/
theorem C90_exact (m k : Nat) (ds : List (Nat × Act)) (hm : 0 < m) (hk : 0 < k) (hd : ∀ d ∈ ds, 0 < d.1) :
    (∀ (h : Heap ℝ) (mlp : Mlp ℝ) (x y : Nat) (a b θ : Nat → Nat → ℝ) (lr : ℝ), Training h mlp x y m k ds a b θ → Smooth m k ds a b θ →
      ∃ h' mlp', trainStep mlp h x y lr = .ok (h', mlp') ∧ NetIs h' mlp' k ds (descend lr (netLoss m k ds a b) θ)) ↔ SmallNet m k ds := by
  constructor
  · intro H
    by_contra hS
    obtain ⟨a, b, θ, hK, ⟨q, c⟩, hp, hne⟩ := sharp hm hk hd hS
    have ht := training_exists m k ds a b θ hm hk hd
    obtain ⟨h', mlp', e, net⟩ := H _ _ _ _ a b θ 1 ht hK
    obtain ⟨_, _, f, t⟩ := C50_step_actual _ _ _ _ _ _ _ _ _ _ 1 ht
    rw [e] at f
    cases f
    have h1 := net.unique t.net hp
    rw [descend, (netLoss_partial hK q c).deriv, shuffledDescend, one_mul, one_mul, sub_right_inj] at h1
    exact hne h1.symm
  · intro hS h mlp x y a b θ lr ht hK
    obtain ⟨h', mlp', e, t, _⟩ := C50_step_partial h mlp x y m k ds a b θ lr ht hK hS
    exact ⟨h', mlp', e, t.net⟩

/-- C90, for each kind of network with more elements: there are data and parameters without kinks from which a training step with any
learning rate other than 0 leaves a parameter that gradient descent would not. -/
theorem C90_witness (m k : Nat) (ds : List (Nat × Act)) (hm : 0 < m) (hk : 0 < k) (hd : ∀ d ∈ ds, 0 < d.1) (hS : ¬ SmallNet m k ds) :
    ∃ a b θ, Smooth m k ds a b θ ∧ ∃ q c, (q, c) ∈ coords k 0 ds ∧ ∀ (h : Heap ℝ) (mlp : Mlp ℝ) (x y : Nat) (lr : ℝ), lr ≠ 0 →
      Training h mlp x y m k ds a b θ → ∃ h' mlp' θ', trainStep mlp h x y lr = .ok (h', mlp') ∧ NetIs h' mlp' k ds θ' ∧
        θ' q c ≠ descend lr (netLoss m k ds a b) θ q c := by
  obtain ⟨a, b, θ, hK, ⟨q, c⟩, hp, hne⟩ := sharp hm hk hd hS
  refine ⟨a, b, θ, hK, q, c, hp, fun h mlp x y lr hlr ht => ?_⟩
  obtain ⟨h', mlp', f, t⟩ := C50_step_actual _ _ _ _ _ _ _ _ _ _ lr ht
  refine ⟨h', mlp', _, f, t.net, fun h1 => hne ?_⟩
  rw [descend, (netLoss_partial hK q c).deriv, shuffledDescend, sub_right_inj] at h1
  exact mul_left_cancel₀ hlr h1

/-- C90, test: one layer from `k` inputs to `n` outputs with any number of rows. -/
example (m k n : Nat) (f : Act) (hm : 0 < m) (hk : 0 < k) (hn : 0 < n) :
    (∀ (h : Heap ℝ) (mlp : Mlp ℝ) (x y : Nat) (a b θ : Nat → Nat → ℝ) (lr : ℝ), Training h mlp x y m k [(n, f)] a b θ → Smooth m k [(n, f)] a b θ →
      ∃ h' mlp', trainStep mlp h x y lr = .ok (h', mlp') ∧ NetIs h' mlp' k [(n, f)] (descend lr (netLoss m k [(n, f)] a b) θ)) ↔ k * n ≤ 32 := by
  rw [C90_exact m k [(n, f)] hm hk (by simpa using hn)]
  simp [SmallNet]

/-- C90, test: 17 rows are too many for a hidden layer with 2 units, 16 are not; both have weights of 2 elements. -/
example : SmallNet 16 1 [(2, .relu), (1, .identity)] ∧ ¬ SmallNet 17 1 [(2, .relu), (1, .identity)] := by
  simp [SmallNet]

/-- C90, test: the network of `main.rs` (lines 31-47), with any number of rows. There are data and parameters for which a training step
is not a step of gradient descent. -/
example (m : Nat) (hm : 0 < m) : ∃ a b θ, Smooth m 8 [(8192, .relu), (8192, .tanh), (8, .tanh)] a b θ ∧ ∃ q c,
    (q, c) ∈ coords 8 0 [(8192, .relu), (8192, .tanh), (8, .tanh)] ∧ ∀ (h : Heap ℝ) (mlp : Mlp ℝ) (x y : Nat) (lr : ℝ), lr ≠ 0 →
      Training h mlp x y m 8 [(8192, .relu), (8192, .tanh), (8, .tanh)] a b θ → ∃ h' mlp' θ', trainStep mlp h x y lr = .ok (h', mlp') ∧
        NetIs h' mlp' 8 [(8192, .relu), (8192, .tanh), (8, .tanh)] θ' ∧
        θ' q c ≠ descend lr (netLoss m 8 [(8192, .relu), (8192, .tanh), (8, .tanh)] a b) θ q c :=
  C90_witness m 8 _ hm (by omega) (by simp) (by simp [SmallNet])

end RL
