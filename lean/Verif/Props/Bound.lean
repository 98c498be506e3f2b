import Verif.Lemmas.Bound
import Verif.Lemmas.Batch
import Verif.Props.Settle

/-!
# Property theorems: how far training moves the parameters (C110)

The loss adds up distances, so it has slopes between -1 and 1, whatever the distance; the slopes of the activations lie between 0 and 1. So
the sizes of gradients are bounded by the inputs of a layer and the weights of the layers after it.
-/

namespace RL

open Spec

/-- C110: in one training step the biases of a layer move by at most the learning rate times the number of rows, times the largest row sums of
absolute weights of the layers after it; the weights by as much with the inputs of the layer added up instead of the number of rows. For all
networks, also for those whose gradients are not the derivatives. -/
theorem C110_step (h : Heap ℝ) (mlp : Mlp ℝ) (x y m k n : Nat) (f : Act) (pre post : List (Nat × Act)) (a b θ : Nat → Nat → ℝ) (lr : ℝ)
    (ht : Training h mlp x y m k (pre ++ (n, f) :: post) a b θ) (rs : List ℝ) (hrs : RowSums θ n (2 * pre.length + 2) post rs) :
    ∃ h' mlp' θ', trainStep mlp h x y lr = .ok (h', mlp') ∧ NetIs h' mlp' k (pre ++ (n, f) :: post) θ' ∧
      (∀ c < n, |θ' (2 * pre.length + 1) c - θ (2 * pre.length + 1) c| ≤ |lr| * (m * rs.prod)) ∧
      ∀ S, (∀ r < lastWidth k pre, ∑ i ∈ Finset.range m, |netValue k (layerFns θ 0 pre) a i r| ≤ S) →
        ∀ c < lastWidth k pre * n, |θ' (2 * pre.length) c - θ (2 * pre.length) c| ≤ |lr| * (S * rs.prod) := by
  obtain ⟨h', mlp', e, t⟩ := C50_step_actual h mlp x y m k _ a b θ lr ht
  exact ⟨h', mlp', _, e, t.net, fun c _ => descend_bias hrs, fun S hS c hc => descend_weight hrs hc hS⟩

/-- C110: the parameters of a single layer move by at most as much in every step, so at most linearly. -/
theorem C110_single (t : Nat) (h : Heap ℝ) (mlp : Mlp ℝ) (x y m k n : Nat) (f : Act) (a b θ : Nat → Nat → ℝ) (lr : ℝ)
    (ht : Training h mlp x y m k [(n, f)] a b θ) (S : ℝ) (hS : ∀ r < k, ∑ i ∈ Finset.range m, |a i r| ≤ S) :
    ∃ h' mlp' θ', train mlp h x y lr t = .ok (h', mlp') ∧ NetIs h' mlp' k [(n, f)] θ' ∧ (∀ c < n, |θ' 1 c - θ 1 c| ≤ t * (|lr| * m)) ∧
      ∀ c < k * n, |θ' 0 c - θ 0 c| ≤ t * (|lr| * S) := by
  obtain ⟨h', mlp', e, t'⟩ := C50_actual t h mlp x y m k _ a b θ lr ht
  refine ⟨h', mlp', _, e, t'.net, fun c _ => ?_, fun c hc => ?_⟩
  · refine moves (q := 1) (c := c) (fun θ => ?_) t θ
    simpa using descend_bias (pre := []) (post := []) (rs := []) (k := k) (m := m) (n := n) (f := f) (a := a) (b := b) (θ := θ) (lr := lr) (c := c) trivial
  · refine moves (q := 0) (c := c) (fun θ => ?_) t θ
    simpa using descend_weight (pre := []) (post := []) (rs := []) (k := k) (m := m) (n := n) (f := f) (a := a) (b := b) (θ := θ) (lr := lr) (c := c) trivial hc hS

/-- C110: so do those of a last layer that comes after `tanh`, whatever the layers before it do. -/
theorem C110_last (t : Nat) (h : Heap ℝ) (mlp : Mlp ℝ) (x y m k n' n : Nat) (f : Act) (pre : List (Nat × Act)) (a b θ : Nat → Nat → ℝ) (lr : ℝ)
    (ht : Training h mlp x y m k (pre ++ [(n', .tanh)] ++ [(n, f)]) a b θ) :
    ∃ h' mlp' θ', train mlp h x y lr t = .ok (h', mlp') ∧ NetIs h' mlp' k (pre ++ [(n', .tanh)] ++ [(n, f)]) θ' ∧
      (∀ c < n, |θ' (2 * pre.length + 3) c - θ (2 * pre.length + 3) c| ≤ t * (|lr| * m)) ∧
      ∀ c < n' * n, |θ' (2 * pre.length + 2) c - θ (2 * pre.length + 2) c| ≤ t * (|lr| * m) := by
  obtain ⟨h', mlp', e, t'⟩ := C50_actual t h mlp x y m k _ a b θ lr ht
  have e1 : 2 * pre.length + 2 = 2 * (pre ++ [(n', Act.tanh)]).length := by simp; omega
  refine ⟨h', mlp', _, e, t'.net, fun c _ => moves (fun θ => ?_) t θ, fun c hc => moves (fun θ => ?_) t θ⟩
  · have h1 := descend_bias (pre := pre ++ [(n', .tanh)]) (post := []) (rs := []) (k := k) (m := m) (n := n) (f := f) (a := a) (b := b) (θ := θ) (lr := lr) (c := c) trivial
    rw [← e1] at h1
    simpa using h1
  · have h1 := descend_weight (pre := pre ++ [(n', .tanh)]) (post := []) (rs := []) (k := k) (m := m) (n := n) (f := f) (a := a) (b := b) (θ := θ) (lr := lr) (c := c) trivial
      (by rw [lastWidth_append]; exact hc) (S := m) (fun r _ => sum_tanh_le _ _ (fun i => netValue_tanh pre n' k 0 a i r))
    rw [← e1] at h1
    simpa using h1

/-- C110: in a network with `tanh` in all layers but the last one, which has any activation, the parameters of a layer with `d` layers after
it grow at most like `t ^ (2 ^ d)` in `t` training steps. -/
theorem C110_tanh (h : Heap ℝ) (mlp : Mlp ℝ) (x y m k n : Nat) (f : Act) (pre post : List (Nat × Act)) (a b θ : Nat → Nat → ℝ) (lr : ℝ)
    (ht : Training h mlp x y m k (pre ++ (n, f) :: post) a b θ) (hd : ∀ d ∈ (pre ++ (n, f) :: post).dropLast, d.2 = .tanh) :
    ∃ C, ∀ t, ∃ h' mlp' θ', train mlp h x y lr t = .ok (h', mlp') ∧ NetIs h' mlp' k (pre ++ (n, f) :: post) θ' ∧
      (∀ c < n, |θ' (2 * pre.length + 1) c| ≤ C * (t + 1) ^ 2 ^ post.length) ∧
      ∀ c < lastWidth k pre * n, |θ' (2 * pre.length) c| ≤ C * (t + 1) ^ 2 ^ post.length := by
  obtain ⟨C, hC, h1⟩ := rows_grow (θ := θ) (m := m) (k := k) (a := a) (b := b) (lr := lr) hd post (pre ++ [(n, f)]) (by simp)
  have hp : 2 ^ post.length - 1 + 1 = 2 ^ post.length := Nat.sub_add_cancel (Nat.one_le_two_pow)
  obtain ⟨C', _, h2⟩ := params_grow (pre := pre) (post := post) (n := n) (f := f) (θ := θ) (m := m) (k := k) (a := a) (b := b) (lr := lr)
    (fun d hd' => hd d (by rw [List.dropLast_append_of_ne_nil (by simp)]; exact List.mem_append_left _ hd')) hC fun t => by
      obtain ⟨rs, k1, k2⟩ := h1 t
      rw [lastWidth_append] at k1
      exact ⟨rs, by simpa [lastWidth, Nat.mul_add] using k1, k2⟩
  rw [hp] at h2
  refine ⟨C', fun t => ?_⟩
  obtain ⟨h', mlp', e, t'⟩ := C50_actual t h mlp x y m k _ a b θ lr ht
  exact ⟨h', mlp', _, e, t'.net, h2 t⟩

/-- C110: the bound is attained: if all outputs `j` of a network without activation in its last layer are too small, bias `j` of the layer moves by
exactly the learning rate times the number of rows. -/
theorem C110_sharp (h : Heap ℝ) (mlp : Mlp ℝ) (x y m k n : Nat) (pre : List (Nat × Act)) (a b θ : Nat → Nat → ℝ) (lr : ℝ) (j : Nat) (hj : j < n)
    (ht : Training h mlp x y m k (pre ++ [(n, .identity)]) a b θ)
    (hlow : ∀ i < m, netValue k (layerFns θ 0 (pre ++ [(n, .identity)])) a i j < b i j) :
    ∃ h' mlp' θ', trainStep mlp h x y lr = .ok (h', mlp') ∧ NetIs h' mlp' k (pre ++ [(n, .identity)]) θ' ∧
      θ' (2 * pre.length + 1) j = θ (2 * pre.length + 1) j + lr * m := by
  obtain ⟨h', mlp', θ', e, t, hb⟩ := C91_identity h mlp x y m k n pre a b θ lr j hj ht
  refine ⟨h', mlp', θ', e, t.net, ?_⟩
  rw [hb, Finset.filter_true_of_mem fun i hi => hlow i (Finset.mem_range.1 hi), Finset.card_range]
  ring

/-- C110, test: two layers, the second of which has weights 2 and -3: in a step with learning rate 1/10 and five rows the biases of the
first layer move by at most 3/2. -/
example (a b θ : Nat → Nat → ℝ) (h2 : θ 2 0 = 2) (h3 : θ 2 1 = -3) : ∃ h' mlp' θ',
    trainStep ⟨startLayers 2 [(2, .relu), (1, .identity)]⟩ ((startData 5 4 [(2, .relu), (1, .identity)] a b θ).map leafNode) 0 1 (1 / 10) = .ok (h', mlp') ∧
      NetIs h' mlp' 4 [(2, .relu), (1, .identity)] θ' ∧ ∀ c < 2, |θ' 1 c - θ 1 c| ≤ 3 / 2 := by
  obtain ⟨h', mlp', θ', e, net, hb, _⟩ := C110_step _ _ 0 1 5 4 2 .relu [] [(1, .identity)] a b θ (1 / 10)
    (training_exists 5 4 [(2, .relu), (1, .identity)] a b θ (by omega) (by omega) (by simp)) [3] ⟨⟨by norm_num, fun i hi => by
      rcases (by omega : i = 0 ∨ i = 1) with rfl | rfl <;> norm_num [h2, h3]⟩, trivial⟩
  refine ⟨h', mlp', θ', e, net, fun c hc => (hb c hc).trans ?_⟩
  norm_num [abs_of_pos]

/-- C110, test: a network with three layers to which `C110_tanh` applies; `training_exists` makes it with any parameters and data. -/
example (a b θ : Nat → Nat → ℝ) (lr : ℝ) : ∃ C, ∀ t, ∃ h' mlp' θ',
    train ⟨startLayers 2 [(2, .tanh), (3, .tanh), (1, .relu)]⟩ ((startData 5 4 [(2, .tanh), (3, .tanh), (1, .relu)] a b θ).map leafNode) 0 1 lr t = .ok (h', mlp') ∧
      NetIs h' mlp' 4 [(2, .tanh), (3, .tanh), (1, .relu)] θ' ∧ (∀ c < 2, |θ' 1 c| ≤ C * (t + 1) ^ 4) ∧ ∀ c < 8, |θ' 0 c| ≤ C * (t + 1) ^ 4 :=
  C110_tanh _ _ 0 1 5 4 2 .tanh [] [(3, .tanh), (1, .relu)] a b θ lr
    (training_exists 5 4 [(2, .tanh), (3, .tanh), (1, .relu)] a b θ (by omega) (by omega) (by simp)) (by simp)

end RL
