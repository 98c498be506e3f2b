import Verif.Lemmas.Stable
import Verif.Lemmas.Batch
import Verif.Props.Train

/-!
# Property theorems: starts of training that differ little (C103)
-/

namespace RL

open Spec MeasureTheory

/-- C103, full statement: if the learning rate, the input, the expected output and the parameters of a network are changed a little, then the
parameters after any number of training steps change little. It is false: see `C103_false`. -/
def C103_statement : Prop :=
  ∀ (n m k : Nat) (ds : List (Nat × Act)) (a b θ : Nat → Nat → ℝ) (lr : ℝ) (h : Heap ℝ) (mlp : Mlp ℝ) (x y : Nat), Training h mlp x y m k ds a b θ →
    ∀ ε > 0, ∃ r > 0, ∀ (a' b' θ' : Nat → Nat → ℝ) (lr' : ℝ) (h' : Heap ℝ) (mlp' : Mlp ℝ) (x' y' : Nat), Training h' mlp' x' y' m k ds a' b' θ' →
      |lr' - lr| ≤ r → CloseMats r m k a a' → CloseMats r m (lastWidth k ds) b b' → CloseNets r k ds θ θ' →
      ∀ h1 mlp1 θ1 h1' mlp1' θ1', train mlp h x y lr n = .ok (h1, mlp1) → NetIs h1 mlp1 k ds θ1 → train mlp' h' x' y' lr' n = .ok (h1', mlp1') →
        NetIs h1' mlp1' k ds θ1' → CloseNets ε k ds θ1 θ1'

/-- C103: it holds for a run of training that meets no kink, for networks of all sizes, and the result changes by at most a constant times as much as
the start. Missing: runs that meet a kink, for which it is false. (No step panics: C50_actual.) -/
theorem C103_partial (n m k : Nat) (ds : List (Nat × Act)) (a b θ : Nat → Nat → ℝ) (lr : ℝ) (h : Heap ℝ) (mlp : Mlp ℝ) (x y : Nat)
    (ht : Training h mlp x y m k ds a b θ)
    (hK : ∀ i < n, ∀ hi mlpi θi, train mlp h x y lr i = .ok (hi, mlpi) → NetIs hi mlpi k ds θi → Smooth m k ds a b θi) :
    ∃ C : ℝ, ∃ r > 0, ∀ ε < r, ∀ (a' b' θ' : Nat → Nat → ℝ) (lr' : ℝ) (h' : Heap ℝ) (mlp' : Mlp ℝ) (x' y' : Nat), Training h' mlp' x' y' m k ds a' b' θ' →
      |lr' - lr| ≤ ε → CloseMats ε m k a a' → CloseMats ε m (lastWidth k ds) b b' → CloseNets ε k ds θ θ' →
      ∀ h1 mlp1 θ1 h1' mlp1' θ1', train mlp h x y lr n = .ok (h1, mlp1) → NetIs h1 mlp1 k ds θ1 → train mlp' h' x' y' lr' n = .ok (h1', mlp1') →
        NetIs h1' mlp1' k ds θ1' → CloseNets (C * ε) k ds θ1 θ1' := by
  obtain ⟨C, r, hr, hC⟩ := iterate_close (m := m) (k := k) (ds := ds) (lr := lr) (a := a) (b := b) (θ := θ) (n := n) fun i hi => by
    obtain ⟨hi', mlpi, e, ht'⟩ := C50_actual i h mlp x y m k ds a b θ lr ht
    exact hK i hi hi' mlpi _ e ht'.net
  refine ⟨max C 0, r, hr, fun ε hε a' b' θ' lr' h' mlp' x' y' ht' e1 e2 e3 e4 h1 mlp1 θ1 h1' mlp1' θ1' t1 n1 t2 n2 q c hm => ?_⟩
  let e : Change m k ds := (lr' - lr, fun i j => a' i j - a i j, fun i j => b' i j - b i j, fun p => θ' p.1.1 p.1.2 - θ p.1.1 p.1.2)
  have hε0 : 0 ≤ ε := (abs_nonneg _).trans e1
  have he : ‖e‖ ≤ ε := by
    refine max_le e1 (max_le ?_ (max_le ?_ ?_))
    · exact (pi_norm_le_iff_of_nonneg hε0).2 fun i => (pi_norm_le_iff_of_nonneg hε0).2 fun j => e2 i i.2 j j.2
    · exact (pi_norm_le_iff_of_nonneg hε0).2 fun i => (pi_norm_le_iff_of_nonneg hε0).2 fun j => e3 i i.2 j j.2
    · exact (pi_norm_le_iff_of_nonneg hε0).2 fun p => e4 p.1.1 p.1.2 p.2
  have ht2 : Training h' mlp' x' y' m k ds (changed a e.2.1) (changed b e.2.2.1) (changedNet θ e.2.2.2) := by
    refine (ht'.congr fun p hp => ?_).congr_data (fun i hi j hj => (changed_apply hi hj).symm) (fun i hi j hj => (changed_apply hi hj).symm)
    simp [changedNet, ofPoint, hp, e]
  obtain ⟨_, _, t3, ht3⟩ := C50_actual n h mlp x y m k ds a b θ lr ht
  obtain ⟨_, _, t4, ht4⟩ := C50_actual n h' mlp' x' y' m k ds _ _ _ lr' ht2
  rw [t1] at t3
  rw [t2] at t4
  cases t3
  cases t4
  rw [n1.unique ht3.net hm, n2.unique ht4.net hm]
  have h2 := hC e (he.trans_lt hε) q c hm
  have h3 : lr + e.1 = lr' := by simp [e]
  rw [h3] at h2
  exact h2.trans ((mul_le_mul_of_nonneg_right (le_max_left C 0) (norm_nonneg _)).trans (mul_le_mul_of_nonneg_left he (le_max_right C 0)))

/-- C103: for almost all learning rates and from almost all parameters it holds, after every number of steps, for changes of the learning rate and the
parameters. -/
theorem C103_generic (m k : Nat) (ds : List (Nat × Act)) (a b : Nat → Nat → ℝ) : ∀ᵐ lr : ℝ, ∀ᵐ u : Params k ds, ∀ n,
    ∃ C : ℝ, ∃ r > 0, ∀ ε < r, ∀ (θ' : Nat → Nat → ℝ) (lr' : ℝ) (h h' : Heap ℝ) (mlp mlp' : Mlp ℝ) (x y x' y' : Nat),
      Training h mlp x y m k ds a b (ofPoint u) → Training h' mlp' x' y' m k ds a b θ' → |lr' - lr| ≤ ε → CloseNets ε k ds (ofPoint u) θ' →
      ∀ h1 mlp1 θ1 h1' mlp1' θ1', train mlp h x y lr n = .ok (h1, mlp1) → NetIs h1 mlp1 k ds θ1 → train mlp' h' x' y' lr' n = .ok (h1', mlp1') →
        NetIs h1' mlp1' k ds θ1' → CloseNets (C * ε) k ds θ1 θ1' := by
  filter_upwards [ae_steps m k ds a b] with lr hlr
  filter_upwards [hlr] with u hu n
  obtain ⟨C, r, hr, hC⟩ := iterate_close_point (n := n) hu
  refine ⟨max C 0, r, hr, fun ε hε θ' lr' h h' mlp mlp' x y x' y' ht ht' e1 e4 h1 mlp1 θ1 h1' mlp1' θ1' t1 n1 t2 n2 q c hm => ?_⟩
  have hε0 : 0 ≤ ε := (abs_nonneg _).trans e1
  have hp : ∀ p : coords k 0 ds, ofPoint u p.1.1 p.1.2 = u p := fun p => congrFun (toPoint_ofPoint u) p
  have he : ‖toPoint k ds θ' - u‖ ≤ ε := (pi_norm_le_iff_of_nonneg hε0).2 fun p => by
    have := e4 p.1.1 p.1.2 p.2
    rwa [hp] at this
  have ht2 : Training h' mlp' x' y' m k ds a b (ofPoint (toPoint k ds θ')) := ht'.congr fun p hp => by simp [ofPoint, toPoint, hp]
  obtain ⟨_, _, t3, ht3⟩ := C50_actual n h mlp x y m k ds a b _ lr ht
  obtain ⟨_, _, t4, ht4⟩ := C50_actual n h' mlp' x' y' m k ds _ _ _ lr' ht2
  rw [t1] at t3
  rw [t2] at t4
  cases t3
  cases t4
  rw [n1.unique ht3.net hm, n2.unique ht4.net hm, shuffledDescends_point, shuffledDescends_point]
  have h2 := hC lr' (toPoint k ds θ') (e1.trans_lt hε) (he.trans_lt hε)
  have h3 : max |lr' - lr| ‖toPoint k ds θ' - u‖ ≤ ε := max_le e1 he
  simp only [ofPoint, hm, dif_pos]
  refine le_trans ?_ (h2.trans ((mul_le_mul_of_nonneg_right (le_max_left C 0) ((abs_nonneg _).trans (le_max_left _ _))).trans
    (mul_le_mul_of_nonneg_left h3 (le_max_right C 0))))
  exact norm_le_pi_norm ((fun u => u - lr' • direction m k ds a b u)^[n] (toPoint k ds θ') - (fun u => u - lr • direction m k ds a b u)^[n] u) ⟨(q, c), hm⟩

/-! ### a kink -/

/-- C103: one weight and one bias, the input is 1 and the expected output 0; a step of learning rate 1 changes the bias by 1, in the direction given by the
sign of the output. -/
theorem C103_step (θ : Nat → Nat → ℝ) : shuffledDescend 1 1 1 [(1, .identity)] (fun _ _ => 1) (fun _ _ => 0) θ 1 0 =
    θ 1 0 - if θ 0 0 + θ 1 0 < 0 then -1 else 1 := by
  simp [shuffledDescend, lossTangent, netTangent, netValue, layerFns, lastWidth, affine_sum, Act.fn, Act.slope, shuffledMat]

/-- C103: where the output is the expected one, a small change of the bias turns the direction of the step. -/
theorem C103_false : ¬ C103_statement := by
  intro hs
  have ht := fun θ => training_exists 1 1 [(1, .identity)] (fun _ _ => 1) (fun _ _ => 0) θ (by omega) (by omega) (by simp)
  obtain ⟨r, hr, h1⟩ := hs 1 1 1 [(1, .identity)] (fun _ _ => 1) (fun _ _ => 0) (fun _ _ => 0) 1 _ _ _ _ (ht _) 1 one_pos
  have hd : 0 < min r (1 / 2) := lt_min hr (by norm_num)
  have h2 := h1 (fun _ _ => 1) (fun _ _ => 0) (fun _ _ => -min r (1 / 2)) 1 _ _ _ _ (ht _) (by simpa using hr.le) (fun i _ j _ => by simpa using hr.le)
    (fun i _ j _ => by simpa using hr.le) (fun q c _ => by
      show |-min r (1 / 2) - 0| ≤ r
      rw [sub_zero, abs_neg, abs_of_pos hd]
      exact min_le_left _ _)
  obtain ⟨_, _, e1, t1⟩ := C50_actual 1 _ _ _ _ 1 1 [(1, .identity)] _ _ _ 1 (ht fun _ _ => 0)
  obtain ⟨_, _, e2, t2⟩ := C50_actual 1 _ _ _ _ 1 1 [(1, .identity)] _ _ _ 1 (ht fun _ _ => -min r (1 / 2))
  have h3 := h2 _ _ _ _ _ _ e1 t1.net e2 t2.net 1 0 (by simp [coords])
  simp only [Function.iterate_one, C103_step] at h3
  rw [if_pos (by linarith), if_neg (by simp)] at h3
  have h4 := (abs_le.1 h3).2
  have := min_le_right r (1 / 2)
  linarith

/-- TEST of the hypotheses of `C103_partial`: one step where the output is not the expected one. -/
example : ∃ h mlp x y, Training h mlp x y 1 1 [(1, .identity)] (fun _ _ => 1) (fun _ _ => 0) (fun _ _ => 1) ∧
    ∀ i < 1, ∀ hi mlpi θi, train mlp h x y 1 i = .ok (hi, mlpi) → NetIs hi mlpi 1 [(1, .identity)] θi → Smooth 1 1 [(1, .identity)] (fun _ _ => 1) (fun _ _ => 0) θi := by
  have ht := training_exists 1 1 [(1, .identity)] (fun _ _ => 1) (fun _ _ => 0) (fun _ _ => 1) (by omega) (by omega) (by simp)
  refine ⟨_, _, _, _, ht, fun i hi hh mlpi θi e hn => ?_⟩
  obtain rfl : i = 0 := by omega
  cases e
  have h1 : θi 0 0 = 1 := hn.unique ht.net (by simp [coords])
  have h2 : θi 1 0 = 1 := hn.unique ht.net (by simp [coords])
  refine ⟨⟨by simp, trivial⟩, fun i hi j hj => ?_⟩
  obtain rfl : j = 0 := by simp [lastWidth] at hj; omega
  simp [netValue, layerFns, affine_sum, Act.fn, h1, h2]

end RL
