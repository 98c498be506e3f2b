import Verif.Lemmas.InputChange
import Verif.Props.Order

/-!
# Property theorems: how the outputs of a network change with its inputs (C125, C126)
-/

namespace RL

open Spec

/-- C125: without negative weights, a row of larger inputs gives outputs that are at least as large, in the same or another batch; biases of any sign. -/
theorem C125 (h : Heap ℝ) (mlp : Mlp ℝ) (x x' m m' k : Nat) (ds : List (Nat × Act)) (a a' θ : Nat → Nat → ℝ) (v v' : Raw ℝ) (hm : 0 < m) (hm' : 0 < m') (hn : NetIs h mlp k ds θ)
    (hx : dataOf h x = some v) (hv : Matrix v m k a) (hx' : dataOf h x' = some v') (hv' : Matrix v' m' k a') (hw : ∀ p ∈ coords k 0 ds, p.1 % 2 = 0 → 0 ≤ θ p.1 p.2) :
    ∃ g r w g' r' w' o o', mlp.forward h x = .ok (g, r) ∧ dataOf g r = some w ∧ Matrix w m (lastWidth k ds) o ∧ mlp.forward h x' = .ok (g', r') ∧ dataOf g' r' = some w' ∧
      Matrix w' m' (lastWidth k ds) o' ∧ ∀ i < m, ∀ i' < m', (∀ r < k, a i r ≤ a' i' r) → ∀ j < lastWidth k ds, o i j ≤ o' i' j := by
  obtain ⟨g, r, w, e, d, M, _⟩ := C45_forward mlp _ h x v m k a hm hx hv hn.layers
  obtain ⟨g', r', w', e', d', M', _⟩ := C45_forward mlp _ h x' v' m' k a' hm' hx' hv' hn.layers
  rw [outWidth_layerFns] at M M'
  exact ⟨g, r, w, g', r', w', _, _, e, d, M, e', d', M', fun _ _ _ _ => value_mono ds k 0 a a' rfl hw⟩

/-- C125 for a single layer without relu, exactly: the outputs of two rows of a batch are ordered like the rows, for all batches, if and only if no weight is negative. -/
theorem C125_exact (k n : Nat) (f : Act) (θ : Nat → Nat → ℝ) (hk : 0 < k) (hn : 0 < n) (hf : f ≠ .relu) :
    (∀ (h : Heap ℝ) (mlp : Mlp ℝ) (x m : Nat) (a : Nat → Nat → ℝ) (v : Raw ℝ) (i i' : Nat), NetIs h mlp k [(n, f)] θ → dataOf h x = some v → Matrix v m k a → i < m → i' < m →
      (∀ r < k, a i r ≤ a i' r) → ∃ g r w o, mlp.forward h x = .ok (g, r) ∧ dataOf g r = some w ∧ Matrix w m n o ∧ ∀ j < n, o i j ≤ o i' j) ↔
    ∀ r < k, ∀ j < n, 0 ≤ θ 0 (r * n + j) := by
  constructor
  · intro H r hr j hj
    obtain ⟨a, ha⟩ : ∃ a : Nat → Nat → ℝ, a = fun i r' => if i = 1 ∧ r' = r then 1 else 0 := ⟨_, rfl⟩
    have t := training_exists 2 k [(n, f)] a (fun _ _ => 0) θ (by omega) hk (by simp [hn])
    obtain ⟨v, hx, hv⟩ := t.input
    obtain ⟨g, s, w, o, e, d, M, ho⟩ := H _ _ _ 2 a v 0 1 t.net hx hv (by omega) (by omega) (fun r' _ => by
      rw [ha]
      beta_reduce
      rw [if_neg (by omega)]
      split <;> norm_num)
    obtain ⟨g', s', w', e', d', M', _⟩ := C45_forward _ _ _ _ v 2 k a (by omega) hx hv t.net.layers
    rw [e] at e'
    cases e'
    rw [d] at d'
    cases d'
    rw [outWidth_layerFns] at M'
    have h1 : ∀ i < 2, o i j = netValue k (layerFns θ 0 [(n, f)]) a i j := fun i hi => Option.some.inj ((M.2.2 i hi j hj).symm.trans (M'.2.2 i hi j hj))
    have h2 := ho j hj
    rw [h1 0 (by omega), h1 1 (by omega)] at h2
    simp only [layerFns, netValue] at h2
    rw [fn_le_iff hf, affine_sum, affine_sum] at h2
    simpa [ha, Finset.sum_ite_eq', hr] using h2
  · intro hw h mlp x m a v i i' net hx hv hi hi' ha
    obtain ⟨g, r, w, g', r', w', o, o', e, d, M, e', d', M', ho⟩ := C125 h mlp x x m m k [(n, f)] a a θ v v (by omega) (by omega) net hx hv hx hv (fun p hp h0 => by
      simp only [coords, Finset.union_empty, Finset.mem_union, Finset.mem_image, Finset.mem_range] at hp
      rcases hp with ⟨c, hc, rfl⟩ | ⟨c, hc, rfl⟩
      · have := hw (c / n) ((Nat.div_lt_iff_lt_mul hn).2 hc) (c % n) (Nat.mod_lt _ hn)
        rwa [Nat.div_add_mod'] at this
      · simp at h0)
    rw [e] at e'
    cases e'
    rw [d] at d'
    cases d'
    refine ⟨g, r, w, o, e, d, M, fun j hj => (ho i hi i' hi' ha j hj).trans_eq ?_⟩
    exact Option.some.inj ((M'.2.2 i' hi' j hj).symm.trans (M.2.2 i' hi' j hj))

/-- C126: if the absolute values of the weights that feed a unit add up to at most `L`, for each unit, then inputs that differ by at most `ε` give outputs that differ by at most
`ε` times `L` for each layer. -/
theorem C126 (h : Heap ℝ) (mlp : Mlp ℝ) (x x' m m' k : Nat) (ds : List (Nat × Act)) (a a' θ : Nat → Nat → ℝ) (v v' : Raw ℝ) (L ε : ℝ) (hL : 0 ≤ L) (hε : 0 ≤ ε) (hm : 0 < m) (hm' : 0 < m')
    (hn : NetIs h mlp k ds θ) (hx : dataOf h x = some v) (hv : Matrix v m k a) (hx' : dataOf h x' = some v') (hv' : Matrix v' m' k a') (hw : RowSums θ L k 0 ds) :
    ∃ g r w g' r' w' o o', mlp.forward h x = .ok (g, r) ∧ dataOf g r = some w ∧ Matrix w m (lastWidth k ds) o ∧ mlp.forward h x' = .ok (g', r') ∧ dataOf g' r' = some w' ∧
      Matrix w' m' (lastWidth k ds) o' ∧ ∀ i < m, ∀ i' < m', (∀ r < k, |a i r - a' i' r| ≤ ε) → ∀ j < lastWidth k ds, |o i j - o' i' j| ≤ L ^ ds.length * ε := by
  obtain ⟨g, r, w, e, d, M, _⟩ := C45_forward mlp _ h x v m k a hm hx hv hn.layers
  obtain ⟨g', r', w', e', d', M', _⟩ := C45_forward mlp _ h x' v' m' k a' hm' hx' hv' hn.layers
  rw [outWidth_layerFns] at M M'
  exact ⟨g, r, w, g', r', w', _, _, e, d, M, e', d', M', fun _ _ _ _ => value_lipschitz hL ds k 0 a a' ε hε hw⟩

/-- TEST of the hypotheses of `C125` and `C126`: two layers with weights 1/10, biases -1; 20 features. -/
example (a b : Nat → Nat → ℝ) : (∃ h mlp x y, Training h mlp x y 3 20 [(3, .relu), (2, .tanh)] a b fun q _ => if q % 2 = 0 then 1 / 10 else -1) ∧
    (∀ p ∈ coords 20 0 [(3, .relu), (2, .tanh)], p.1 % 2 = 0 → (0 : ℝ) ≤ (fun q _ => if q % 2 = 0 then 1 / 10 else -1 : Nat → Nat → ℝ) p.1 p.2) ∧
    RowSums (fun q _ => if q % 2 = 0 then 1 / 10 else -1) 2 20 0 [(3, .relu), (2, .tanh)] := by
  refine ⟨⟨_, _, _, _, training_exists 3 20 _ _ _ _ (by omega) (by omega) (by simp)⟩, fun p _ hp => ?_, ?_⟩
  · simp only [hp, if_true]
    norm_num
  · norm_num [RowSums, abs_of_pos]

/-- TEST of `C126`: the bound is reached. One feature, two layers that double it. -/
example : netValue 1 (layerFns (fun q _ => if q % 2 = 0 then 2 else 0) 0 [(1, .identity), (1, .relu)]) (fun _ _ => 3) 0 0 -
    netValue 1 (layerFns (fun q _ => if q % 2 = 0 then 2 else 0) 0 [(1, .identity), (1, .relu)]) (fun _ _ => 1) 0 0 = (2 : ℝ) ^ 2 * 2 := by
  norm_num [netValue, layerFns, affine, Act.fn]

end RL
