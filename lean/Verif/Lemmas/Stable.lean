import Verif.SpecStable
import Verif.Lemmas.Generic
import Verif.Lemmas.Units
import Verif.Lemmas.TrainStart

/-!
# Starts of training that differ little: lemmas
-/

namespace RL

open Spec MeasureTheory

/-! ## iterates of a smooth map -/

theorem iterate_contDiffAt {E : Type} [NormedAddCommGroup E] [NormedSpace ℝ E] {S : E → E} {e : E} {n : WithTop ℕ∞} : ∀ t : Nat,
    (∀ i < t, ContDiffAt ℝ n S (S^[i] e)) → ContDiffAt ℝ n S^[t] e := by
  intro t
  induction t with
  | zero => exact fun _ => contDiffAt_id
  | succ t ih =>
    intro h
    rw [Function.iterate_succ']
    exact (h t (by omega)).comp e (ih fun i hi => h i (by omega))

/-- near a point a smooth map changes distances by at most a factor -/
theorem lipschitz_near {E : Type} [NormedAddCommGroup E] [NormedSpace ℝ E] {F : E → E} {e : E} (hF : ContDiffAt ℝ 1 F e) :
    ∃ C : ℝ, ∃ r > 0, ∀ e', ‖e' - e‖ < r → ‖F e' - F e‖ ≤ C * ‖e' - e‖ := by
  obtain ⟨K, s, hs, hl⟩ := hF.exists_lipschitzOnWith
  obtain ⟨r, hr, hb⟩ := Metric.mem_nhds_iff.1 hs
  refine ⟨K, r, hr, fun e' he => ?_⟩
  have := hl.norm_sub_le (hb (by rwa [Metric.mem_ball, dist_eq_norm])) (hb (Metric.mem_ball_self hr))
  exact this

/-! ## a loss whose data and parameters depend on a point -/

theorem lossTangent_contDiffAt_of {E : Type} [NormedAddCommGroup E] [NormedSpace ℝ E] {m k : Nat} {ds : List (Nat × Act)} {θ A Y : E → Nat → Nat → ℝ}
    {n : WithTop ℕ∞} {e : E} (hθ : ∀ q c, ContDiffAt ℝ n (fun e => θ e q c) e) (hA : ∀ i < m, ∀ j < k, ContDiffAt ℝ n (fun e => A e i j) e)
    (hY : ∀ i < m, ∀ j < lastWidth k ds, ContDiffAt ℝ n (fun e => Y e i j) e) (hK : Smooth m k ds (A e) (Y e) (θ e)) (δ : Nat → Nat → ℝ) :
    ContDiffAt ℝ n (fun e => lossTangent m k ds (A e) (Y e) (θ e) δ) e := by
  refine ContDiffAt.sum fun i hi => ContDiffAt.sum fun j hj => ?_
  rw [Finset.mem_range] at hi hj
  have h1 := netTangent_contDiffAt hθ δ m ds k 0 A (fun _ _ _ => 0) hA (fun _ _ _ _ => contDiffAt_const) hK.1 i hi j hj
  have h2 : ContinuousAt (fun e => netValue k (layerFns (θ e) 0 ds) (A e) i j) e := (netValue_contDiffAt hθ m ds k 0 A hA hK.1 i hi j hj).continuousAt
  have h3 : ContinuousAt (fun e => Y e i j) e := (hY i hi j hj).continuousAt
  refine (contDiffAt_const.mul h1).congr_of_eventuallyEq (f₁ := fun e' => _)
    (f := fun e' => (if netValue k (layerFns (θ e) 0 ds) (A e) i j < Y e i j then -1 else 1) * netTangent m (θ e') δ k 0 ds (A e') (fun _ _ => 0) i j) ?_
  rcases lt_or_gt_of_ne (hK.2 i hi j hj) with h | h
  · filter_upwards [h2.eventually_lt h3 h] with e' h'
    rw [if_pos h, if_pos h']
  · filter_upwards [h3.eventually_lt h2 h] with e' h'
    rw [if_neg h.not_gt, if_neg h'.not_gt]

/-! ## small changes of a start -/

/-- Changes of the learning rate, the input, the expected output and the parameters. -/
abbrev Change (m k : Nat) (ds : List (Nat × Act)) : Type := ℝ × (Fin m → Fin k → ℝ) × (Fin m → Fin (lastWidth k ds) → ℝ) × Params k ds

/-- A matrix with changed entries. -/
def changed {m k : Nat} (a : Nat → Nat → ℝ) (A : Fin m → Fin k → ℝ) : Nat → Nat → ℝ := fun i j =>
  a i j + if h : i < m ∧ j < k then A ⟨i, h.1⟩ ⟨j, h.2⟩ else 0

/-- Changed parameters. -/
noncomputable def changedNet {k : Nat} {ds : List (Nat × Act)} (θ : Nat → Nat → ℝ) (u : Params k ds) : Nat → Nat → ℝ := fun q c => θ q c + ofPoint u q c

/-- How a training step changes a change. -/
noncomputable def changeStep (m k : Nat) (ds : List (Nat × Act)) (lr : ℝ) (a b θ : Nat → Nat → ℝ) (e : Change m k ds) : Change m k ds :=
  (e.1, e.2.1, e.2.2.1, fun p => shuffledDescend (lr + e.1) m k ds (changed a e.2.1) (changed b e.2.2.1) (changedNet θ e.2.2.2) p.1.1 p.1.2 - θ p.1.1 p.1.2)

section

variable {m k : Nat} {ds : List (Nat × Act)} {lr : ℝ} {a b θ : Nat → Nat → ℝ}

theorem changed_apply {a' : Nat → Nat → ℝ} {i j : Nat} (hi : i < m) (hj : j < k) :
    changed a (fun (i : Fin m) (j : Fin k) => a' i j - a i j) i j = a' i j := by
  simp [changed, hi, hj]

theorem changed_zero : changed a (0 : Fin m → Fin k → ℝ) = a := by
  funext i j
  simp [changed]

theorem changedNet_zero : changedNet θ (0 : Params k ds) = θ := by
  funext q c
  simp [changedNet, ofPoint]

theorem changedNet_step (e : Change m k ds) : changedNet θ (changeStep m k ds lr a b θ e).2.2.2 =
    shuffledDescend (lr + e.1) m k ds (changed a e.2.1) (changed b e.2.2.1) (changedNet θ e.2.2.2) := by
  funext q c
  by_cases hm : (q, c) ∈ coords k 0 ds
  · simp [changedNet, changeStep, ofPoint, hm]
  · have : shuffledDescend (lr + e.1) m k ds (changed a e.2.1) (changed b e.2.2.1) (changedNet θ e.2.2.2) q c = changedNet θ e.2.2.2 q c -
      (lr + e.1) * lossTangent m k ds (changed a e.2.1) (changed b e.2.2.1) (changedNet θ e.2.2.2) (unit q c) := rfl
    rw [this, lossTangent_outside _ _ _ hm]
    simp [changedNet, ofPoint, hm]

theorem changeStep_iterate (t : Nat) (e : Change m k ds) : ((changeStep m k ds lr a b θ)^[t] e).1 = e.1 ∧ ((changeStep m k ds lr a b θ)^[t] e).2.1 = e.2.1 ∧
    ((changeStep m k ds lr a b θ)^[t] e).2.2.1 = e.2.2.1 ∧ changedNet θ ((changeStep m k ds lr a b θ)^[t] e).2.2.2 =
      (shuffledDescend (lr + e.1) m k ds (changed a e.2.1) (changed b e.2.2.1))^[t] (changedNet θ e.2.2.2) := by
  induction t with
  | zero => exact ⟨rfl, rfl, rfl, rfl⟩
  | succ t ih =>
    obtain ⟨h1, h2, h3, h4⟩ := ih
    rw [Function.iterate_succ_apply', Function.iterate_succ_apply']
    refine ⟨h1, h2, h3, ?_⟩
    rw [changedNet_step, h1, h2, h3, h4]

theorem changeStep_contDiffAt {n : WithTop ℕ∞} {e : Change m k ds}
    (hK : Smooth m k ds (changed a e.2.1) (changed b e.2.2.1) (changedNet θ e.2.2.2)) : ContDiffAt ℝ n (changeStep m k ds lr a b θ) e := by
  have d1 : ContDiffAt ℝ n (fun e : Change m k ds => e.1) e := contDiffAt_fst
  have d2 : ContDiffAt ℝ n (fun e : Change m k ds => e.2.1) e := contDiffAt_snd.fst
  have d3 : ContDiffAt ℝ n (fun e : Change m k ds => e.2.2.1) e := contDiffAt_snd.snd.fst
  have d4 : ContDiffAt ℝ n (fun e : Change m k ds => e.2.2.2) e := contDiffAt_snd.snd.snd
  have hθ : ∀ q c, ContDiffAt ℝ n (fun e : Change m k ds => changedNet θ e.2.2.2 q c) e := fun q c =>
    contDiffAt_const.add (ContDiffAt.comp (g := fun u : Params k ds => ofPoint u q c) e (ofPoint_contDiffAt q c) d4)
  have hA : ∀ i < m, ∀ j < k, ContDiffAt ℝ n (fun e : Change m k ds => changed a e.2.1 i j) e := by
    intro i hi j hj
    simp only [changed, hi, hj, and_self, dif_pos]
    exact contDiffAt_const.add (contDiffAt_pi.1 (contDiffAt_pi.1 d2 ⟨i, hi⟩) ⟨j, hj⟩)
  have hY : ∀ i < m, ∀ j < lastWidth k ds, ContDiffAt ℝ n (fun e : Change m k ds => changed b e.2.2.1 i j) e := by
    intro i hi j hj
    simp only [changed, hi, hj, and_self, dif_pos]
    exact contDiffAt_const.add (contDiffAt_pi.1 (contDiffAt_pi.1 d3 ⟨i, hi⟩) ⟨j, hj⟩)
  refine d1.prodMk (d2.prodMk (d3.prodMk (contDiffAt_pi.2 fun p => ContDiffAt.sub ?_ contDiffAt_const)))
  exact (hθ _ _).sub ((contDiffAt_const.add d1).mul (lossTangent_contDiffAt_of hθ hA hY hK _))

theorem Spec.Training.congr_data {h : Heap ℝ} {mlp : Mlp ℝ} {x y : Nat} {a' b' : Nat → Nat → ℝ} (ht : Training h mlp x y m k ds a b θ)
    (ha : ∀ i < m, ∀ j < k, a i j = a' i j) (hb : ∀ i < m, ∀ j < lastWidth k ds, b i j = b' i j) : Training h mlp x y m k ds a' b' θ := by
  obtain ⟨v, h1, h2, h3, h4⟩ := ht.input
  obtain ⟨w, h5, h6, h7, h8⟩ := ht.expected
  exact ⟨ht.reachable, ht.net, ⟨v, h1, h2, h3, fun i hi j hj => by rw [h4 i hi j hj, ha i hi j hj]⟩,
    ⟨w, h5, h6, h7, fun i hi j hj => by rw [h8 i hi j hj, hb i hi j hj]⟩, ht.ready⟩

/-- if a run of training meets no kink, then close to its start training is Lipschitz continuous -/
theorem iterate_close {n : Nat} (hK : ∀ i < n, Smooth m k ds a b ((shuffledDescend lr m k ds a b)^[i] θ)) :
    ∃ C : ℝ, ∃ r > 0, ∀ e : Change m k ds, ‖e‖ < r → ∀ q c, (q, c) ∈ coords k 0 ds →
      |(shuffledDescend (lr + e.1) m k ds (changed a e.2.1) (changed b e.2.2.1))^[n] (changedNet θ e.2.2.2) q c -
        (shuffledDescend lr m k ds a b)^[n] θ q c| ≤ C * ‖e‖ := by
  have h0 : ∀ i, (changeStep m k ds lr a b θ)^[i] 0 = (0, 0, 0, ((changeStep m k ds lr a b θ)^[i] 0).2.2.2) ∧
      changedNet θ ((changeStep m k ds lr a b θ)^[i] 0).2.2.2 = (shuffledDescend lr m k ds a b)^[i] θ := by
    intro i
    obtain ⟨h1, h2, h3, h4⟩ := changeStep_iterate (lr := lr) (a := a) (b := b) (θ := θ) i (0 : Change m k ds)
    refine ⟨Prod.ext h1 (Prod.ext h2 (Prod.ext h3 rfl)), ?_⟩
    rw [h4]
    show (shuffledDescend (lr + 0) m k ds (changed a 0) (changed b 0))^[i] (changedNet θ 0) = _
    rw [changed_zero, changed_zero, changedNet_zero, add_zero]
  obtain ⟨C, r, hr, hC⟩ := lipschitz_near (iterate_contDiffAt (S := changeStep m k ds lr a b θ) (e := 0) n fun i hi => by
    refine changeStep_contDiffAt ?_
    rw [(h0 i).2, (h0 i).1]
    show Smooth m k ds (changed a 0) (changed b 0) _
    rw [changed_zero, changed_zero]
    exact hK i hi)
  refine ⟨C, r, hr, fun e he q c hm => ?_⟩
  have h1 := hC e (by rwa [sub_zero])
  rw [sub_zero] at h1
  have h2 := (changeStep_iterate (lr := lr) (a := a) (b := b) (θ := θ) n e).2.2.2
  rw [← h2, ← (h0 n).2]
  refine le_trans ?_ h1
  have e1 : changedNet θ ((changeStep m k ds lr a b θ)^[n] e).2.2.2 q c - changedNet θ ((changeStep m k ds lr a b θ)^[n] 0).2.2.2 q c =
      ((changeStep m k ds lr a b θ)^[n] e - (changeStep m k ds lr a b θ)^[n] 0).2.2.2 ⟨(q, c), hm⟩ := by
    simp [changedNet, ofPoint, hm]
  rw [e1, ← Real.norm_eq_abs]
  exact (norm_le_pi_norm _ _).trans ((norm_snd_le _).trans ((norm_snd_le _).trans (norm_snd_le _)))

/-- the same from almost all parameters, for changes of the learning rate and the parameters -/
theorem iterate_close_point {n : Nat} {u : Params k ds} (hK : ∀ i, NoKink m k ds a b ((fun u => u - lr • direction m k ds a b u)^[i] u)) :
    ∃ C : ℝ, ∃ r > 0, ∀ lr' (u' : Params k ds), |lr' - lr| < r → ‖u' - u‖ < r →
      ‖(fun u => u - lr' • direction m k ds a b u)^[n] u' - (fun u => u - lr • direction m k ds a b u)^[n] u‖ ≤ C * max |lr' - lr| ‖u' - u‖ := by
  let S : ℝ × Params k ds → ℝ × Params k ds := fun e => (e.1, e.2 - e.1 • direction m k ds a b e.2)
  have hS : ∀ (e : ℝ × Params k ds) (i : Nat), S^[i] e = (e.1, (fun u => u - e.1 • direction m k ds a b u)^[i] e.2) := by
    intro e i
    induction i with
    | zero => rfl
    | succ i ih => rw [Function.iterate_succ_apply', Function.iterate_succ_apply', ih]
  obtain ⟨C, r, hr, hC⟩ := lipschitz_near (iterate_contDiffAt (S := S) (e := (lr, u)) n fun i _ => by
    have h1 : ContDiffAt ℝ 1 (direction m k ds a b) (S^[i] (lr, u)).2 := by
      rw [hS]
      exact direction_contDiffAt (hK i)
    exact contDiffAt_fst.prodMk (contDiffAt_snd.sub (contDiffAt_fst.smul (ContDiffAt.comp (g := direction m k ds a b) _ h1 contDiffAt_snd))))
  refine ⟨C, r, hr, fun lr' u' h1 h2 => ?_⟩
  have h3 := hC (lr', u') (max_lt h1 h2)
  rw [hS, hS] at h3
  exact (norm_snd_le _).trans h3

end

end RL
