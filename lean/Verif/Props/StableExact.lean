import Verif.Props.Stable
import Verif.Props.Settle
import Verif.Lemmas.Generic

/-!
# Property theorems: exactly which runs of training change little with their start (C103)
-/

namespace RL

open Spec

/-- C103 for one start and `n` steps: if the learning rate, the input, the expected output and the parameters are changed a little, then the
parameters after `n` steps change little. -/
def StableAfter (n m k : Nat) (ds : List (Nat × Act)) (a b θ : Nat → Nat → ℝ) (lr : ℝ) (h : Heap ℝ) (mlp : Mlp ℝ) (x y : Nat) : Prop :=
  ∀ ε > 0, ∃ r > 0, ∀ (a' b' θ' : Nat → Nat → ℝ) (lr' : ℝ) (h' : Heap ℝ) (mlp' : Mlp ℝ) (x' y' : Nat), Training h' mlp' x' y' m k ds a' b' θ' →
    |lr' - lr| ≤ r → CloseMats r m k a a' → CloseMats r m (lastWidth k ds) b b' → CloseNets r k ds θ θ' →
    ∀ h1 mlp1 θ1 h1' mlp1' θ1', train mlp h x y lr n = .ok (h1, mlp1) → NetIs h1 mlp1 k ds θ1 → train mlp' h' x' y' lr' n = .ok (h1', mlp1') →
      NetIs h1' mlp1' k ds θ1' → CloseNets ε k ds θ1 θ1'

/-- `C103_statement` is this for all starts. -/
theorem C103_stableAfter : C103_statement ↔ ∀ (n m k : Nat) (ds : List (Nat × Act)) (a b θ : Nat → Nat → ℝ) (lr : ℝ) (h : Heap ℝ) (mlp : Mlp ℝ) (x y : Nat),
    Training h mlp x y m k ds a b θ → StableAfter n m k ds a b θ lr h mlp x y :=
  Iff.rfl

theorem slope_pos_of_ne_relu {f : Act} (hf : f ≠ .relu) (z : ℝ) : 0 < f.slope z := by
  cases f with
  | identity => exact one_pos
  | relu => exact absurd rfl hf
  | tanh =>
    have := (sq_lt_one_iff_abs_lt_one _).2 (Real.abs_tanh_lt_one z)
    simp only [Act.slope]
    linarith

theorem step_same_sides {lr : ℝ} {m k : Nat} {ds : List (Nat × Act)} {a b b' θ : Nat → Nat → ℝ}
    (hside : ∀ i < m, ∀ j < lastWidth k ds, netValue k (layerFns θ 0 ds) a i j < b i j ↔ netValue k (layerFns θ 0 ds) a i j < b' i j) :
    shuffledDescend lr m k ds a b' θ = shuffledDescend lr m k ds a b θ := by
  funext q c
  unfold shuffledDescend lossTangent
  congr 2
  refine Finset.sum_congr rfl fun i hi => Finset.sum_congr rfl fun j hj => ?_
  simp only [hside i (Finset.mem_range.1 hi) j (Finset.mem_range.1 hj)]

theorem exists_gap (v : Nat → ℝ) : ∀ t, (∀ s < t, v s ≠ 0) → ∃ η > 0, ∀ s < t, η ≤ |v s| := by
  intro t
  induction t with
  | zero => exact fun _ => ⟨1, one_pos, fun s hs => absurd hs (by omega)⟩
  | succ t ih =>
    intro hv
    obtain ⟨η, h1, h2⟩ := ih fun s hs => hv s (by omega)
    refine ⟨min η |v t|, lt_min h1 (abs_pos.2 (hv t (by omega))), fun s hs => ?_⟩
    rcases Nat.lt_succ_iff_lt_or_eq.1 hs with h3 | rfl
    · exact (min_le_left _ _).trans (h2 s h3)
    · exact min_le_right _ _

/-- C103, exactly: let the last layer of the network not be `relu`, the learning rate not 0, and let nothing that goes into `relu` during training be 0.
Then all steps change little with the start if and only if no output is ever the expected one. -/
theorem C103_exact (m k n : Nat) (pre : List (Nat × Act)) (f : Act) (a b θ : Nat → Nat → ℝ) (lr : ℝ) (h : Heap ℝ) (mlp : Mlp ℝ) (x y : Nat)
    (hk : 0 < k) (hd : ∀ d ∈ pre ++ [(n, f)], 0 < d.1) (hf : f ≠ .relu) (hlr : lr ≠ 0) (ht : Training h mlp x y m k (pre ++ [(n, f)]) a b θ)
    (hR : ∀ N hN mlpN θN, train mlp h x y lr N = .ok (hN, mlpN) → NetIs hN mlpN k (pre ++ [(n, f)]) θN → ReluSmooth m θN k 0 (pre ++ [(n, f)]) a) :
    (∀ N, StableAfter N m k (pre ++ [(n, f)]) a b θ lr h mlp x y) ↔
      ∀ N hN mlpN θN, train mlp h x y lr N = .ok (hN, mlpN) → NetIs hN mlpN k (pre ++ [(n, f)]) θN →
        ∀ i < m, ∀ j < n, netValue k (layerFns θN 0 (pre ++ [(n, f)])) a i j ≠ b i j := by
  have hw : lastWidth k (pre ++ [(n, f)]) = n := by
    rw [lastWidth_append]
    rfl
  constructor
  · intro hs
    by_contra hc
    let S := fun b => shuffledDescend lr m k (pre ++ [(n, f)]) a b
    let O := fun t => netValue k (layerFns ((S b)^[t] θ) 0 (pre ++ [(n, f)])) a
    have hex : ∃ t, ∃ i < m, ∃ j < n, O t i j = b i j := by
      push Not at hc
      obtain ⟨N, hN, mlpN, θN, e1, e2, i, hi, j, hj, e3⟩ := hc
      obtain ⟨_, _, t1, t2⟩ := C50_actual N h mlp x y m k _ a b θ lr ht
      rw [e1] at t1
      cases t1
      refine ⟨N, i, hi, j, hj, ?_⟩
      rw [← e3]
      exact netValue_congr _ k 0 a a i (fun p hp => t2.net.unique e2 hp) (fun _ _ => rfl) j (hj.trans_eq hw.symm)
    classical
    let t := Nat.find hex
    obtain ⟨i, hi, j, hj, hO⟩ := Nat.find_spec hex
    have hmin : ∀ s < t, ∀ i < m, ∀ j < n, O s i j ≠ b i j := fun s hs i hi j hj e => Nat.find_min hex hs ⟨i, hi, j, hj, e⟩
    obtain ⟨η, hη, hgap⟩ := exists_gap (fun s => O s i j - b i j) t fun s hs => sub_ne_zero.2 (hmin s hs i hi j hj)
    let φ := (S b)^[t] θ
    let z := lastIn k n pre φ a i j
    have hz : 0 < f.slope z := slope_pos_of_ne_relu hf z
    obtain ⟨r, hr, hst⟩ := hs (t + 1) (|lr| * f.slope z) (mul_pos (abs_pos.2 hlr) hz)
    let e := min r (η / 2)
    have he : 0 < e := lt_min hr (by linarith)
    have he2 : e ≤ η / 2 := min_le_right _ _
    let b' := fun i' j' => if i' = i ∧ j' = j then b i j + e else b i' j'
    have ht' := training_exists m k (pre ++ [(n, f)]) a b' θ (training_pos ht).1 hk hd
    have hsame : ∀ s ≤ t, (S b')^[s] θ = (S b)^[s] θ := by
      intro s
      induction s with
      | zero => exact fun _ => rfl
      | succ s ih =>
        intro hs'
        rw [Function.iterate_succ_apply', Function.iterate_succ_apply', ih (by omega)]
        refine step_same_sides fun i' hi' j' hj' => ?_
        show O s i' j' < b i' j' ↔ O s i' j' < b' i' j'
        by_cases hij : i' = i ∧ j' = j
        · obtain ⟨rfl, rfl⟩ := hij
          have h1 := hgap s (by omega)
          simp only [b', and_self, if_true]
          constructor
          · intro h2
            linarith
          · intro h2
            by_contra h3
            rw [abs_of_nonneg (by linarith)] at h1
            linarith
        · simp only [b', hij, if_false]
    obtain ⟨_, _, t1, n1⟩ := C50_actual (t + 1) h mlp x y m k _ a b θ lr ht
    obtain ⟨_, _, t2, n2⟩ := C50_actual (t + 1) _ _ _ _ m k _ a b' θ lr ht'
    have hcl := hst a b' θ lr _ _ _ _ ht' (by simpa using hr.le) (fun i _ j _ => by simpa using hr.le) (fun i' _ j' _ => by
        by_cases hij : i' = i ∧ j' = j
        · obtain ⟨rfl, rfl⟩ := hij
          simp only [b', and_self, if_true, add_sub_cancel_left, abs_of_pos he]
          exact min_le_left _ _
        · simpa only [b', hij, if_false, sub_self, abs_zero] using hr.le) (fun q c _ => by simpa using hr.le)
      _ _ _ _ _ _ t1 n1.net t2 n2.net (2 * pre.length + 1) j (last_bias_mem k n pre f hj)
    have hv : f.fn z = b i j := (value_last (θ := φ) (pre := pre) a i j).symm.trans hO
    have hdiff : lossTangent m k (pre ++ [(n, f)]) a b φ (unit (2 * pre.length + 1) j) -
        lossTangent m k (pre ++ [(n, f)]) a b' φ (unit (2 * pre.length + 1) j) = 2 * f.slope z := by
      rw [loss_last_bias a b hj, loss_last_bias a b' hj, ← Finset.sum_sub_distrib, Finset.sum_eq_single_of_mem i (Finset.mem_range.2 hi)]
      · show (if f.fn z < b i j then -1 else 1) * f.slope z - (if f.fn z < b' i j then -1 else 1) * f.slope z = _
        rw [if_neg (by rw [hv]; exact lt_irrefl _), if_pos (by simp only [b', and_self, if_true]; linarith)]
        ring
      · intro i' _ hne
        simp only [b', hne, false_and, if_false, sub_self]
    have e1 : (S b)^[t + 1] θ (2 * pre.length + 1) j = φ (2 * pre.length + 1) j -
        lr * lossTangent m k (pre ++ [(n, f)]) a b φ (unit (2 * pre.length + 1) j) := by
      rw [Function.iterate_succ_apply']
      rfl
    have e2 : (S b')^[t + 1] θ (2 * pre.length + 1) j = φ (2 * pre.length + 1) j -
        lr * lossTangent m k (pre ++ [(n, f)]) a b' φ (unit (2 * pre.length + 1) j) := by
      rw [Function.iterate_succ_apply', hsame t le_rfl]
      rfl
    have e3 : (S b')^[t + 1] θ (2 * pre.length + 1) j - (S b)^[t + 1] θ (2 * pre.length + 1) j = lr * (2 * f.slope z) := by
      rw [e1, e2, ← hdiff]
      ring
    have h5 : |(S b')^[t + 1] θ (2 * pre.length + 1) j - (S b)^[t + 1] θ (2 * pre.length + 1) j| ≤ |lr| * f.slope z := hcl
    rw [e3, abs_mul, abs_of_pos (by linarith : 0 < 2 * f.slope z)] at h5
    have := mul_pos (abs_pos.2 hlr) hz
    linarith
  · intro hne N ε hε
    obtain ⟨C, r, hr, hC⟩ := C103_partial N m k (pre ++ [(n, f)]) a b θ lr h mlp x y ht fun s _ hs mlps θs e1 e2 =>
      ⟨hR s hs mlps θs e1 e2, fun i hi j hj => hne s hs mlps θs e1 e2 i hi j (hj.trans_eq hw)⟩
    have hC1 : 0 < max C 1 := lt_max_of_lt_right one_pos
    refine ⟨min (r / 2) (ε / max C 1), lt_min (by linarith) (div_pos hε hC1), ?_⟩
    intro a' b' θ' lr' h' mlp' x' y' ht' c1 c2 c3 c4 h1 mlp1 θ1 h1' mlp1' θ1' t1 n1 t2 n2 q c hm
    refine (hC _ ((min_le_left _ _).trans_lt (by linarith)) a' b' θ' lr' h' mlp' x' y' ht' c1 c2 c3 c4 h1 mlp1 θ1 h1' mlp1' θ1' t1 n1 t2 n2 q c hm).trans ?_
    have h0 : 0 ≤ min (r / 2) (ε / max C 1) := (lt_min (by linarith) (div_pos hε hC1)).le
    calc C * min (r / 2) (ε / max C 1) ≤ max C 1 * (ε / max C 1) := mul_le_mul (le_max_left _ _) (min_le_right _ _) h0 hC1.le
      _ = ε := mul_div_cancel₀ _ hC1.ne'

/-- TEST of `C103_exact`: one weight and one bias, the input is 1, the expected output 0 and the learning rate 1. If the first output is 0, training does
change a lot with the start. -/
example : ∃ h mlp x y, Training h mlp x y 1 1 [(1, .identity)] (fun _ _ => 1) (fun _ _ => 0) (fun _ _ => 0) ∧
    ¬ ∀ N, StableAfter N 1 1 [(1, .identity)] (fun _ _ => 1) (fun _ _ => 0) (fun _ _ => 0) 1 h mlp x y := by
  have ht := training_exists 1 1 [(1, .identity)] (fun _ _ => 1) (fun _ _ => 0) (fun _ _ => 0) (by omega) (by omega) (by simp)
  refine ⟨_, _, _, _, ht, fun hs => ?_⟩
  refine (C103_exact 1 1 1 [] .identity _ _ _ 1 _ _ _ _ (by omega) (by simp) (by simp) one_ne_zero ht
    (fun _ _ _ _ _ _ => ⟨by simp, trivial⟩)).1 hs 0 _ _ _ rfl ht.net 0 (by omega) 0 (by omega) ?_
  simp [netValue, layerFns, affine_sum, Act.fn]

/-- TEST of `C103_exact`: if the first output is 1, the outputs are 1 and -1 in turn, and training changes little with the start. -/
example : ∃ h mlp x y, Training h mlp x y 1 1 [(1, .identity)] (fun _ _ => 1) (fun _ _ => 0) (fun q _ => if q = 0 then 1 else 0) ∧
    ∀ N, StableAfter N 1 1 [(1, .identity)] (fun _ _ => 1) (fun _ _ => 0) (fun q _ => if q = 0 then 1 else 0) 1 h mlp x y := by
  have ht := training_exists 1 1 [(1, .identity)] (fun _ _ => 1) (fun _ _ => 0) (fun q _ => if q = 0 then 1 else 0) (by omega) (by omega) (by simp)
  refine ⟨_, _, _, _, ht, (C103_exact 1 1 1 [] .identity _ _ _ 1 _ _ _ _ (by omega) (by simp) (by simp) one_ne_zero ht
    (fun _ _ _ _ _ _ => ⟨by simp, trivial⟩)).2 ?_⟩
  intro N hN mlpN θN e hn i hi j hj
  obtain rfl : i = 0 := by omega
  obtain rfl : j = 0 := by omega
  obtain ⟨_, _, t1, t2⟩ := C50_actual N _ _ _ _ 1 1 [(1, .identity)] _ _ _ 1 ht
  rw [e] at t1
  cases t1
  have h0 : ∀ t, let θ := (shuffledDescend 1 1 1 [(1, .identity)] (fun _ _ => 1) (fun _ _ => 0))^[t] (fun q _ => if q = 0 then 1 else 0)
      θ 0 0 + θ 1 0 = 1 ∨ θ 0 0 + θ 1 0 = -1 := by
    intro t
    induction t with
    | zero => simp
    | succ t ih =>
      rw [Function.iterate_succ_apply']
      generalize (shuffledDescend 1 1 1 [(1, .identity)] (fun _ _ => 1) (fun _ _ => 0))^[t] (fun q _ => if q = 0 then 1 else 0) = θ at ih ⊢
      have h1 : shuffledDescend 1 1 1 [(1, .identity)] (fun _ _ => 1) (fun _ _ => 0) θ 0 0 = θ 0 0 - if θ 0 0 + θ 1 0 < 0 then -1 else 1 := by
        have h00 : shuffle 1 0 = 0 := by decide
        simp [shuffledDescend, lossTangent, netTangent, netValue, layerFns, lastWidth, affine_sum, Act.fn, Act.slope, shuffledMat, Finset.filter_singleton, h00]
      dsimp only at ih ⊢
      rw [h1, C103_step]
      rcases ih with h2 | h2
      · rw [if_neg (by linarith)]
        right
        linarith
      · rw [if_pos (by linarith)]
        left
        linarith
  have h1 : netValue 1 (layerFns θN 0 [(1, .identity)]) (fun _ _ => 1) 0 0 = θN 0 0 + θN 1 0 := by simp [netValue, layerFns, affine_sum, Act.fn]
  have h2 := h0 N
  dsimp only at h2
  rw [List.nil_append, h1, hn.unique t2.net (by simp [coords]), hn.unique t2.net (by simp [coords])]
  rcases h2 with h2 | h2 <;> rw [h2] <;> norm_num

end RL
