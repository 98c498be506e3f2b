import Verif.Lemmas.Blank
import Verif.Lemmas.Climb
import Verif.Lemmas.Batch
import Verif.Props.Alone

/-!
# Property theorems: a network of zeros learns nothing but its output biases (C118)
-/

namespace RL

open Spec

/-- C118: training a network with at least one hidden layer whose parameters are 0, except for the output biases, leaves them 0, for any data and any number of steps.
The output biases change as if there were no input. -/
theorem C118_train (N : Nat) (h : Heap ℝ) (mlp : Mlp ℝ) (x y m k n : Nat) (f : Act) (pre : List (Nat × Act)) (a b : Nat → Nat → ℝ) (β : Nat → ℝ) (lr : ℝ)
    (hp : pre ≠ []) (ht : Training h mlp x y m k (pre ++ [(n, f)]) a b (blank pre.length β)) :
    ∃ h' mlp', train mlp h x y lr N = .ok (h', mlp') ∧
      Training h' mlp' x y m k (pre ++ [(n, f)]) a b (blank pre.length ((biasStep f lr m b)^[N] β)) := by
  induction N generalizing h mlp β with
  | zero => exact ⟨h, mlp, rfl, ht⟩
  | succ N ih =>
    obtain ⟨h1, mlp1, e1, ht1⟩ := C50_step_actual h mlp x y m k _ a b _ lr ht
    obtain ⟨h2, mlp2, e2, ht2⟩ := ih h1 mlp1 (biasStep f lr m b β) (ht1.congr fun p hpc => blank_step hp lr β a b p.1 p.2 fun hq => by
      rcases coords_at pre _ k 0 p hpc with h3 | h3
      · omega
      · simp only [coords, Finset.union_empty, Finset.mem_union, Finset.mem_image, Finset.mem_range] at h3
        rcases h3 with ⟨c, _, rfl⟩ | ⟨c, hc, rfl⟩
        · simp at hq
        · exact hc)
    exact ⟨h2, mlp2, by simp only [train, e1, R.bind_ok, e2], ht2⟩

/-- C118: after any number of steps the network gives the same outputs for all inputs. -/
theorem C118_output (N : Nat) (h : Heap ℝ) (mlp : Mlp ℝ) (x y m k n : Nat) (f : Act) (pre : List (Nat × Act)) (a b : Nat → Nat → ℝ) (β : Nat → ℝ) (lr : ℝ)
    (hp : pre ≠ []) (ht : Training h mlp x y m k (pre ++ [(n, f)]) a b (blank pre.length β)) :
    ∃ h' mlp', train mlp h x y lr N = .ok (h', mlp') ∧ ∀ (x' : Nat) (v : Raw ℝ) (m' : Nat) (a' : Nat → Nat → ℝ), 0 < m' → dataOf h' x' = some v → Matrix v m' k a' →
      ∃ h'' r w, mlp'.forward h' x' = .ok (h'', r) ∧ dataOf h'' r = some w ∧ Matrix w m' n fun _ j => f.fn ((biasStep f lr m b)^[N] β j) := by
  obtain ⟨h', mlp', e, t⟩ := C118_train N h mlp x y m k n f pre a b β lr hp ht
  refine ⟨h', mlp', e, fun x' v m' a' hm hx hv => ?_⟩
  obtain ⟨h'', r, w, e', hw, hM, _⟩ := C45_forward mlp' _ h' x' v m' k a' hm hx hv t.net.layers
  refine ⟨h'', r, w, e', hw, ?_⟩
  rw [outWidth_layerFns, lastWidth_append] at hM
  have hv : netValue k (layerFns (blank pre.length ((biasStep f lr m b)^[N] β)) 0 (pre ++ [(n, f)])) a' = fun _ j => f.fn ((biasStep f lr m b)^[N] β j) := by
    funext i j
    rw [value_last, blank_in hp]
  rw [hv] at hM
  exact hM

/-- C118: if the outputs are `tanh` and the expected values of output `j` are at least 1, as in `main`, then this output comes as close to 1 as one likes, for all inputs. -/
theorem C118_limit (h : Heap ℝ) (mlp : Mlp ℝ) (x y m k n : Nat) (pre : List (Nat × Act)) (a b : Nat → Nat → ℝ) (β : Nat → ℝ) (lr : ℝ) (hm : 0 < m) (hlr : 0 < lr) (j : Nat)
    (hy : ∀ i < m, 1 ≤ b i j) (hp : pre ≠ []) (ht : Training h mlp x y m k (pre ++ [(n, .tanh)]) a b (blank pre.length β)) (ε : ℝ) (hε : 0 < ε) :
    ∃ N₀, ∀ N, N₀ ≤ N → ∃ h' mlp', train mlp h x y lr N = .ok (h', mlp') ∧
      ∀ (x' : Nat) (v : Raw ℝ) (m' : Nat) (a' : Nat → Nat → ℝ), 0 < m' → dataOf h' x' = some v → Matrix v m' k a' →
        ∃ h'' r w o, mlp'.forward h' x' = .ok (h'', r) ∧ dataOf h'' r = some w ∧ Matrix w m' n o ∧ ∀ i, |o i j - 1| < ε := by
  obtain ⟨N₀, hN⟩ := Metric.tendsto_atTop.1 (bias_climb hm hlr hy β) ε hε
  refine ⟨N₀, fun N hN' => ?_⟩
  obtain ⟨h', mlp', e, H⟩ := C118_output N h mlp x y m k n .tanh pre a b β lr hp ht
  refine ⟨h', mlp', e, fun x' v m' a' hm' hx hv => ?_⟩
  obtain ⟨h'', r, w, e', hw, hM⟩ := H x' v m' a' hm' hx hv
  exact ⟨h'', r, w, _, e', hw, hM, fun _ => hN N hN'⟩

/-- C118, the hidden layer is needed: a single layer of zeros learns a weight in the first step, for some data. -/
theorem C118_single (m k n : Nat) (f : Act) (hm : 0 < m) (hk : 0 < k) (hn : 0 < n) :
    ∃ (h : Heap ℝ) (mlp : Mlp ℝ) (x y : Nat) (a b : Nat → Nat → ℝ), Training h mlp x y m k [(n, f)] a b (blank 0 fun _ => 0) ∧
      ∃ h' mlp' θ', trainStep mlp h x y 1 = .ok (h', mlp') ∧ NetIs h' mlp' k [(n, f)] θ' ∧ ∃ c < k * n, θ' 0 c ≠ 0 := by
  have ht := training_exists m k [(n, f)] (fun _ _ => 1) (fun _ _ => 1) (blank 0 fun _ => 0) hm hk (by simpa using hn)
  refine ⟨_, _, _, _, _, _, ht, ?_⟩
  obtain ⟨h', mlp', e, t⟩ := C50_step_actual _ _ _ _ _ _ _ _ _ _ 1 ht
  refine ⟨h', mlp', _, e, t.net, shuffle (k * n) (0 * n + 0), shuffle_lt (mul_add_lt hk hn), ?_⟩
  change blank 0 (fun _ => 0) 0 _ - 1 * lossTangent m k [(n, f)] _ _ _ (unit 0 _) ≠ 0
  rw [single_weight _ _ _ hk hn]
  have hz : ∀ i j, unitIn k n (blank 0 fun _ => 0) (fun _ _ => 1) i j = 0 := by
    intro i j
    simp [unitIn, affine_sum, blank]
  simp only [hz, f.fn_zero, f.slope_zero]
  simp [blank, hm.ne']

/-- TEST of the hypotheses of `C118_limit`: the network of `main` with zeros. -/
example (a : Nat → Nat → ℝ) (β : Nat → ℝ) : (∃ h mlp x y, Training h mlp x y 1 8 ([(8192, .relu), (8192, .tanh)] ++ [(8, .tanh)]) a (fun _ _ => 1) (blank 2 β)) ∧
    (0 : ℝ) < 1 / 100 ∧ ∀ i < 1, (1 : ℝ) ≤ (fun _ _ => 1 : Nat → Nat → ℝ) i 0 :=
  ⟨⟨_, _, _, _, training_exists 1 8 _ _ _ _ (by omega) (by omega) (by simp)⟩, by norm_num, fun _ _ => le_refl _⟩

/-- TEST of the hypotheses of `C118_train` and `C118_output`: a deep network with more than 32 weights. -/
example (a b : Nat → Nat → ℝ) (β : Nat → ℝ) : ∃ h mlp x y, Training h mlp x y 5 7 ([(20, .relu), (9, .tanh)] ++ [(3, .identity)]) a b (blank 2 β) :=
  ⟨_, _, _, _, training_exists 5 7 _ _ _ _ (by omega) (by omega) (by simp)⟩

/-- TEST: how an output bias of a network of zeros moves: towards the expected output 1, by the number of rows. -/
example : biasStep .identity 1 5 (fun _ _ => 1) (fun _ => 0) 0 = 5 := by
  simp [biasStep, Act.fn, Act.slope]

end RL
