import Verif.Lemmas.Batch
import Verif.Lemmas.Converge
import Verif.Lemmas.Generic
import Verif.Lemmas.TrainStart

/-!
# Networks with larger matrices: lemmas

Data and parameters for which only unit 0 of every layer is not 0.
-/

namespace RL

open Spec

/-- only the first column is not 0 -/
def onPath (x : Nat → ℝ) : Nat → Nat → ℝ := fun i r => if r = 0 then x i else 0

/-- unit 0 of every layer reads unit 0 of the one before, the other units are 0 -/
def Path (θ : Nat → Nat → ℝ) : Nat → List (Nat × Act) → Prop
  | _, [] => True
  | q, (_, f) :: ds => (∀ c, θ q c = if c = 0 then 1 else 0) ∧ (∀ j, θ (q + 1) j = if j = 0 then 0 else if f = .relu then -1 else 0) ∧ Path θ (q + 2) ds

/-- what unit 0 of the last layer computes -/
noncomputable def pathFn : List (Nat × Act) → ℝ → ℝ
  | [], x => x
  | (_, f) :: ds, x => pathFn ds (f.fn x)

/-- its slope -/
noncomputable def pathSlope : List (Nat × Act) → ℝ → ℝ
  | [], _ => 1
  | (_, f) :: ds, x => pathSlope ds (f.fn x) * f.slope x

/-- such parameters -/
noncomputable def pathParams (ds : List (Nat × Act)) : Nat → Nat → ℝ := fun q c =>
  if q % 2 = 0 then (if c = 0 then 1 else 0) else if c = 0 then 0 else if (ds[q / 2]?).map Prod.snd = some .relu then -1 else 0

theorem path_exists (ds : List (Nat × Act)) : Path (pathParams ds) 0 ds := by
  have h : ∀ (es : List (Nat × Act)) (l : Nat), (∀ t, es[t]? = ds[l + t]?) → Path (pathParams ds) (2 * l) es := by
    intro es
    induction es with
    | nil => intros; trivial
    | cons d es ih =>
      intro l hl
      obtain ⟨n, f⟩ := d
      have h0 := hl 0
      simp only [List.getElem?_cons_zero, Nat.add_zero] at h0
      refine ⟨fun c => by simp [pathParams], fun j => ?_, ?_⟩
      · have e1 : (2 * l + 1) % 2 = 1 := by omega
        have e2 : (2 * l + 1) / 2 = l := by omega
        simp [pathParams, e1, e2, ← h0]
      · have := ih (l + 1) fun t => by
          have h2 := hl (t + 1)
          rw [List.getElem?_cons_succ] at h2
          rw [h2]
          congr 1
          omega
        exact this
  exact h ds 0 fun t => by rw [Nat.zero_add]

theorem affine_path {k n : Nat} (hk : 0 < k) {w : Nat → ℝ} (hw : ∀ c, w c = if c = 0 then 1 else 0) (x b : Nat → ℝ) (i j : Nat) :
    affine k (onPath x) (fun i j => w (i * n + j)) b i j = (if j = 0 then x i else 0) + b j := by
  rw [affine_sum, Finset.sum_eq_single 0]
  · simp [onPath, hw]
  · intro r _ hr
    simp [onPath, hr]
  · intro h
    exact absurd (Finset.mem_range.2 hk) h

theorem Spec.Act.fn_zero (f : Act) : f.fn 0 = 0 := by
  cases f <;> simp [Act.fn]

theorem Spec.Act.slope_pos (f : Act) {x : ℝ} (hx : 0 < x) : 0 < f.slope x := by
  cases f with
  | identity => exact one_pos
  | relu => simp [Act.slope, not_lt.2 hx.le]
  | tanh => simpa [Act.slope] using Real.tanh_sq_lt_one x

theorem Spec.Act.fn_lt (f : Act) {x y : ℝ} (hx : 0 ≤ x) (h : x < y) : f.fn x < f.fn y := by
  cases f with
  | identity => exact h
  | relu => simpa [Act.fn, max_eq_left hx, max_eq_left (hx.trans h.le)] using h
  | tanh =>
    refine strictMono_of_deriv_pos (fun z => ?_) h
    rw [show Act.tanh.fn = Real.tanh from rfl, (hasDerivAt_tanh z).deriv]
    simpa using Real.tanh_sq_lt_one z

theorem Spec.Act.fn_pos (f : Act) {x : ℝ} (hx : 0 < x) : 0 < f.fn x := by
  have := f.fn_lt le_rfl hx
  rwa [f.fn_zero] at this

theorem pathFn_pos : ∀ (ds : List (Nat × Act)) {x : ℝ}, 0 < x → 0 < pathFn ds x
  | [], _, h => h
  | (_, f) :: ds, _, h => pathFn_pos ds (f.fn_pos h)

theorem pathFn_lt : ∀ (ds : List (Nat × Act)) {x y : ℝ}, 0 < x → x < y → pathFn ds x < pathFn ds y
  | [], _, _, _, h => h
  | (_, f) :: ds, _, _, hx, h => pathFn_lt ds (f.fn_pos hx) (f.fn_lt hx.le h)

theorem pathSlope_pos : ∀ (ds : List (Nat × Act)) {x : ℝ}, 0 < x → 0 < pathSlope ds x
  | [], _, _ => one_pos
  | (_, f) :: ds, _, h => mul_pos (pathSlope_pos ds (f.fn_pos h)) (f.slope_pos h)

/-- what goes into the activation of a layer -/
theorem path_in {θ : Nat → Nat → ℝ} {q k n : Nat} {f : Act} {ds : List (Nat × Act)} (hp : Path θ q ((n, f) :: ds)) (hk : 0 < k) (x : Nat → ℝ) (i j : Nat) :
    affine k (onPath x) (fun i j => θ q (i * n + j)) (θ (q + 1)) i j = if j = 0 then x i else if f = .relu then -1 else 0 := by
  rw [affine_path hk hp.1, hp.2.1]
  split <;> simp

/-- and what comes out of it -/
theorem path_out {θ : Nat → Nat → ℝ} {q k n : Nat} {f : Act} {ds : List (Nat × Act)} (hp : Path θ q ((n, f) :: ds)) (hk : 0 < k) (x : Nat → ℝ) :
    (fun i j => f.fn (affine k (onPath x) (fun i j => θ q (i * n + j)) (θ (q + 1)) i j)) = onPath fun i => f.fn (x i) := by
  funext i j
  rw [path_in hp hk, onPath]
  split
  · rfl
  · split
    · rename_i h
      subst h
      simp [Act.fn]
    · exact f.fn_zero

theorem path_value {θ : Nat → Nat → ℝ} : ∀ (ds : List (Nat × Act)) (k q : Nat) (x : Nat → ℝ), Path θ q ds → 0 < k → (∀ d ∈ ds, 0 < d.1) →
    netValue k (layerFns θ q ds) (onPath x) = onPath fun i => pathFn ds (x i) := by
  intro ds
  induction ds with
  | nil => intros; rfl
  | cons d ds ih =>
    obtain ⟨n, f⟩ := d
    intro k q x hp hk hd
    simp only [layerFns, netValue]
    rw [path_out hp hk, ih n (q + 2) _ hp.2.2 (hd _ List.mem_cons_self) fun d h => hd d (List.mem_cons_of_mem _ h)]
    rfl

theorem path_smooth {m : Nat} {θ : Nat → Nat → ℝ} : ∀ (ds : List (Nat × Act)) (k q : Nat) (x : Nat → ℝ), Path θ q ds → 0 < k → (∀ d ∈ ds, 0 < d.1) →
    (∀ i, 0 < x i) → ReluSmooth m θ k q ds (onPath x) := by
  intro ds
  induction ds with
  | nil => intros; trivial
  | cons d ds ih =>
    obtain ⟨n, f⟩ := d
    intro k q x hp hk hd hx
    refine ⟨fun hf i _ j _ => ?_, ?_⟩
    · rw [path_in hp hk, if_pos hf]
      split
      · exact (hx i).ne'
      · norm_num
    · rw [path_out hp hk]
      exact ih n (q + 2) _ hp.2.2 (hd _ List.mem_cons_self) (fun d h => hd d (List.mem_cons_of_mem _ h)) fun i => f.fn_pos (hx i)

/-- a change of unit 0 goes through the rest of the network -/
theorem path_diff {θ δ : Nat → Nat → ℝ} : ∀ (ds : List (Nat × Act)) (k q : Nat) (x d : Nat → ℝ), Path θ q ds → 0 < k → (∀ d ∈ ds, 0 < d.1) →
    (∀ p ≥ q, ∀ c, δ p c = 0) → netDiff θ δ k q ds (onPath x) (onPath d) = onPath fun i => pathSlope ds (x i) * d i := by
  intro ds
  induction ds with
  | nil =>
    intros
    simp [netDiff, pathSlope]
  | cons e ds ih =>
    obtain ⟨n, f⟩ := e
    intro k q x d hp hk hd hδ
    simp only [netDiff]
    have h1 : (fun i j => f.slope (affine k (onPath x) (fun i j => θ q (i * n + j)) (θ (q + 1)) i j) *
        ((∑ kk ∈ Finset.range k, (onPath d i kk * θ q (kk * n + j) + onPath x i kk * δ q (kk * n + j))) + δ (q + 1) j)) =
        onPath fun i => f.slope (x i) * d i := by
      funext i j
      simp only [hδ q le_rfl, hδ (q + 1) (Nat.le_succ q), mul_zero, add_zero]
      rw [path_in hp hk, Finset.sum_eq_single 0, hp.1]
      · simp only [onPath, if_true, Nat.zero_mul, Nat.zero_add]
        split <;> simp
      · intro r _ hr
        simp [onPath, hr]
      · intro h
        exact absurd (Finset.mem_range.2 hk) h
    rw [h1, path_out hp hk, ih n (q + 2) _ _ hp.2.2 (hd _ List.mem_cons_self) (fun d h => hd d (List.mem_cons_of_mem _ h))
      fun p hpq c => hδ p (by omega) c]
    funext i j
    simp only [onPath, pathSlope, mul_assoc]

/-- nothing changes before the first changed parameter -/
theorem path_before {m : Nat} {θ δ : Nat → Nat → ℝ} (ds : List (Nat × Act)) : ∀ (pre : List (Nat × Act)) (k q : Nat) (x : Nat → ℝ),
    Path θ q (pre ++ ds) → 0 < k → (∀ d ∈ pre, 0 < d.1) → (∀ p < q + 2 * pre.length, ∀ c, δ p c = 0) →
    Path θ (q + 2 * pre.length) ds ∧
    netTangent m θ δ k q (pre ++ ds) (onPath x) (fun _ _ => 0) =
      netTangent m θ δ (lastWidth k pre) (q + 2 * pre.length) ds (onPath fun i => pathFn pre (x i)) (fun _ _ => 0) ∧
    netDiff θ δ k q (pre ++ ds) (onPath x) (fun _ _ => 0) =
      netDiff θ δ (lastWidth k pre) (q + 2 * pre.length) ds (onPath fun i => pathFn pre (x i)) (fun _ _ => 0) := by
  intro pre
  induction pre with
  | nil => exact fun k q x hp _ _ _ => ⟨hp, rfl, rfl⟩
  | cons e pre ih =>
    obtain ⟨n, f⟩ := e
    intro k q x hp hk hd hδ
    simp only [List.length_cons] at hδ ⊢
    have h0 : q + 2 * (pre.length + 1) = q + 2 + 2 * pre.length := by ring
    rw [h0] at hδ ⊢
    simp only [List.cons_append, netTangent, netDiff, shuffledMat, hδ q (by omega), hδ (q + 1) (by omega), mul_zero, zero_mul, add_zero,
      Finset.sum_const_zero, lastWidth, pathFn]
    rw [path_out hp hk]
    exact ih n (q + 2) _ hp.2.2 (hd _ List.mem_cons_self) (fun d h => hd d (List.mem_cons_of_mem _ h)) hδ

/-- expected outputs such that the outputs are too large where `s` holds and too small elsewhere -/
noncomputable def pathGoal (ds : List (Nat × Act)) (x : Nat → ℝ) (s : Nat → Nat → Bool) : Nat → Nat → ℝ := fun i j =>
  onPath (fun i => pathFn ds (x i)) i j + if s i j then -1 else 1

/-- the sign of a distance -/
noncomputable def side (b : Bool) : ℝ := if b then 1 else -1

theorem pathGoal_ne (ds : List (Nat × Act)) (x : Nat → ℝ) (s : Nat → Nat → Bool) (i j : Nat) :
    onPath (fun i => pathFn ds (x i)) i j ≠ pathGoal ds x s i j := by
  unfold pathGoal
  split <;> norm_num

theorem pathGoal_side (ds : List (Nat × Act)) (x : Nat → ℝ) (s : Nat → Nat → Bool) (i j : Nat) :
    (if onPath (fun i => pathFn ds (x i)) i j < pathGoal ds x s i j then -1 else 1 : ℝ) = side (s i j) := by
  unfold pathGoal side
  split <;> simp

/-- slope of the activation of a unit -/
noncomputable def unitSlope (f : Act) (X : Nat → ℝ) (i j : Nat) : ℝ := f.slope (if j = 0 then X i else if f = .relu then -1 else 0)

theorem unitSlope_pos (f : Act) {X : Nat → ℝ} (hX : ∀ i, 0 < X i) (i : Nat) : 0 < unitSlope f X i 0 := f.slope_pos (hX i)

theorem unitSlope_nonneg (f : Act) {X : Nat → ℝ} (hX : ∀ i, 0 < X i) (i j : Nat) : 0 ≤ unitSlope f X i j := by
  unfold unitSlope
  split
  · exact (f.slope_pos (hX i)).le
  · cases f <;> simp [Act.slope]

/-- the change of the output of a layer -/
noncomputable def layerChange (f : Act) (X : Nat → ℝ) (w b : Nat → ℝ) (i j : Nat) : ℝ := unitSlope f X i j * (X i * w j + b j)

section

variable {m k n : Nat} {f : Act} {pre post : List (Nat × Act)} {θ δ : Nat → Nat → ℝ} {x : Nat → ℝ}

theorem lastWidth_append (ds : List (Nat × Act)) : ∀ (pre : List (Nat × Act)) (k : Nat), lastWidth k (pre ++ ds) = lastWidth (lastWidth k pre) ds
  | [], _ => rfl
  | (n, _) :: pre, _ => lastWidth_append ds pre n

theorem target_layer (hp : Path θ 0 (pre ++ (n, f) :: post)) (hk : 0 < k) (hd : ∀ d ∈ pre ++ (n, f) :: post, 0 < d.1)
    (hδ : ∀ p, p ≠ 2 * pre.length → p ≠ 2 * pre.length + 1 → ∀ c, δ p c = 0) :
    netTangent m θ δ k 0 (pre ++ (n, f) :: post) (onPath x) (fun _ _ => 0) =
      netTangent m θ δ n (2 * pre.length + 2) post (onPath fun i => f.fn (pathFn pre (x i)))
        (layerChange f (fun i => pathFn pre (x i)) (fun j => δ (2 * pre.length) (shuffle (lastWidth k pre * n) j)) (δ (2 * pre.length + 1))) ∧
    netDiff θ δ k 0 (pre ++ (n, f) :: post) (onPath x) (fun _ _ => 0) =
      netDiff θ δ n (2 * pre.length + 2) post (onPath fun i => f.fn (pathFn pre (x i)))
        (layerChange f (fun i => pathFn pre (x i)) (δ (2 * pre.length)) (δ (2 * pre.length + 1))) := by
  have hd1 : ∀ d ∈ pre, 0 < d.1 := fun d h => hd d (List.mem_append_left _ h)
  have hK := lastWidth_pos pre k hk hd1
  obtain ⟨h1, h2, h3⟩ := path_before (m := m) ((n, f) :: post) pre k 0 x hp hk hd1 (δ := δ) fun p hlt c => hδ p (by omega) (by omega) c
  rw [Nat.zero_add] at h1 h2 h3
  rw [h2, h3]
  constructor
  · simp only [netTangent]
    rw [path_out h1 hK]
    congr 1
    funext i j
    rw [path_in h1 hK, Finset.sum_eq_single 0]
    · simp only [shuffledMat, Nat.zero_mul, Nat.zero_add, zero_mul, zero_add]
      rw [Nat.div_add_mod']
      simp [layerChange, unitSlope, onPath]
    · intro r _ hr
      simp [onPath, hr, shuffledMat]
    · intro h
      exact absurd (Finset.mem_range.2 hK) h
  · simp only [netDiff]
    rw [path_out h1 hK]
    congr 1
    funext i j
    rw [path_in h1 hK, Finset.sum_eq_single 0]
    · simp [layerChange, unitSlope, onPath]
    · intro r _ hr
      simp [onPath, hr]
    · intro h
      exact absurd (Finset.mem_range.2 hK) h

theorem path_append : ∀ (pre : List (Nat × Act)) (q : Nat) {ds : List (Nat × Act)}, Path θ q (pre ++ ds) → Path θ (q + 2 * pre.length) ds
  | [], _, _, h => h
  | _ :: pre, q, _, h => by
    have := path_append pre (q + 2) h.2.2
    rw [List.length_cons, show q + 2 * (pre.length + 1) = q + 2 + 2 * pre.length by ring]
    exact this

/-- the rest of the network, when it is not empty and small -/
theorem target_rest (hp : Path θ (q + 2) post) (hne : post ≠ []) (hn : 0 < n) (hd : ∀ d ∈ post, 0 < d.1) (hS : SmallNet m n post)
    (hδ : ∀ p ≥ q + 2, ∀ c, δ p c = 0) (X : Nat → ℝ) (C : Nat → Nat → ℝ) :
    (∀ i < m, ∀ j < lastWidth n post, netTangent m θ δ n (q + 2) post (onPath X) C i j =
      onPath (fun i => pathSlope post (X i) * shuffledMat m n C i 0) i j) ∧
    ∀ i < m, ∀ j < lastWidth n post, netDiff θ δ n (q + 2) post (onPath X) C i j = onPath (fun i => pathSlope post (X i) * C i 0) i j := by
  cases post with
  | nil => exact absurd rfl hne
  | cons e post =>
    obtain ⟨n', f'⟩ := e
    have hn' : 0 < n' := hd _ List.mem_cons_self
    have hd' : ∀ d ∈ post, 0 < d.1 := fun d h => hd d (List.mem_cons_of_mem _ h)
    have h1 : ∀ S : Nat → Nat → ℝ, (fun i j => f'.slope (affine n (onPath X) (fun i j => θ (q + 2) (i * n' + j)) (θ (q + 2 + 1)) i j) *
        ∑ kk ∈ Finset.range n, S i kk * θ (q + 2) (kk * n' + j)) = onPath fun i => f'.slope (X i) * S i 0 := by
      intro S
      funext i j
      rw [path_in hp hn, Finset.sum_eq_single 0]
      · simp only [Nat.zero_mul, Nat.zero_add]
        rw [hp.1, onPath]
        split <;> simp
      · intro r hr hr0
        rw [hp.1, if_neg, mul_zero]
        have : 0 < r * n' := Nat.mul_pos (by omega) hn'
        omega
      · intro h
        exact absurd (Finset.mem_range.2 hn) h
    have hδ0 : ∀ c, δ (q + 2) c = 0 := hδ (q + 2) le_rfl
    have hδ1 : ∀ c, δ (q + 2 + 1) c = 0 := hδ (q + 2 + 1) (by omega)
    have hδ' : ∀ p ≥ q + 2 + 2, ∀ c, δ p c = 0 := fun p h => hδ p (by omega)
    constructor
    · intro i hi j hj
      simp only [netTangent, hδ0, hδ1]
      simp only [show shuffledMat n n' (fun _ _ => 0) = fun _ _ => 0 from rfl, mul_zero, add_zero]
      rw [h1 (shuffledMat m n C), path_out hp hn]
      have h2 : netDiff θ δ n' (q + 2 + 2) post (onPath fun i => f'.fn (X i)) (onPath fun i => f'.slope (X i) * shuffledMat m n C i 0) i j =
          onPath (fun i => pathSlope ((n', f') :: post) (X i) * shuffledMat m n C i 0) i j := by
        rw [path_diff post n' (q + 2 + 2) _ _ hp.2.2 hn' hd' hδ']
        simp only [onPath, pathSlope, mul_assoc]
      rw [← h2]
      cases post with
      | nil => rfl
      | cons e' post' => exact netTangent_small m θ δ _ n' (q + 2 + 2) _ _ hS.2.2 (Or.inr (hS.2.1 (by simp))) i hi j hj
    · intro i hi j hj
      simp only [netDiff, hδ0, hδ1, mul_zero, add_zero]
      rw [h1 C, path_out hp hn, path_diff post n' (q + 2 + 2) _ _ hp.2.2 hn' hd' hδ']
      simp only [onPath, pathSlope, mul_assoc]

theorem target_last (hp : Path θ 0 (pre ++ [(n, f)])) (hk : 0 < k) (hd : ∀ d ∈ pre ++ [(n, f)], 0 < d.1)
    (hδ : ∀ p, p ≠ 2 * pre.length → p ≠ 2 * pre.length + 1 → ∀ c, δ p c = 0) (s : Nat → Nat → Bool) :
    lossTangent m k (pre ++ [(n, f)]) (onPath x) (pathGoal (pre ++ [(n, f)]) x s) θ δ =
      ∑ i ∈ Finset.range m, ∑ j ∈ Finset.range n, side (s i j) *
        layerChange f (fun i => pathFn pre (x i)) (fun j => δ (2 * pre.length) (shuffle (lastWidth k pre * n) j)) (δ (2 * pre.length + 1)) i j ∧
    lossDiff m k (pre ++ [(n, f)]) (onPath x) (pathGoal (pre ++ [(n, f)]) x s) θ δ =
      ∑ i ∈ Finset.range m, ∑ j ∈ Finset.range n, side (s i j) *
        layerChange f (fun i => pathFn pre (x i)) (δ (2 * pre.length)) (δ (2 * pre.length + 1)) i j := by
  obtain ⟨h1, h2⟩ := target_layer (m := m) (x := x) hp hk hd hδ
  unfold lossTangent lossDiff
  rw [path_value _ k 0 x hp hk hd, h1, h2, lastWidth_append]
  simp only [pathGoal_side, netTangent, netDiff, lastWidth, and_self]

theorem target_hidden (hp : Path θ 0 (pre ++ (n, f) :: post)) (hk : 0 < k) (hd : ∀ d ∈ pre ++ (n, f) :: post, 0 < d.1) (hne : post ≠ [])
    (hS : SmallNet m n post) (hδ : ∀ p, p ≠ 2 * pre.length → p ≠ 2 * pre.length + 1 → ∀ c, δ p c = 0) (s : Nat → Nat → Bool) :
    lossTangent m k (pre ++ (n, f) :: post) (onPath x) (pathGoal (pre ++ (n, f) :: post) x s) θ δ =
      ∑ i ∈ Finset.range m, side (s i 0) * (pathSlope post (f.fn (pathFn pre (x i))) * shuffledMat m n
        (layerChange f (fun i => pathFn pre (x i)) (fun j => δ (2 * pre.length) (shuffle (lastWidth k pre * n) j)) (δ (2 * pre.length + 1))) i 0) ∧
    lossDiff m k (pre ++ (n, f) :: post) (onPath x) (pathGoal (pre ++ (n, f) :: post) x s) θ δ =
      ∑ i ∈ Finset.range m, side (s i 0) * (pathSlope post (f.fn (pathFn pre (x i))) *
        layerChange f (fun i => pathFn pre (x i)) (δ (2 * pre.length)) (δ (2 * pre.length + 1)) i 0) := by
  obtain ⟨h1, h2⟩ := target_layer (m := m) (x := x) hp hk hd hδ
  have hp' := path_append pre 0 hp
  rw [Nat.zero_add] at hp'
  have hn : 0 < n := hd (n, f) (by simp)
  have hd' : ∀ d ∈ post, 0 < d.1 := fun d h => hd d (by simp [h])
  have hl := lastWidth_pos post n hn hd'
  have hδ' : ∀ p ≥ 2 * pre.length + 2, ∀ c, δ p c = 0 := fun p h => hδ p (by omega) (by omega)
  unfold lossTangent lossDiff
  rw [path_value _ k 0 x hp hk hd, h1, h2, lastWidth_append]
  simp only [pathGoal_side, lastWidth]
  have hsum : ∀ (i : Nat) (g : Nat → ℝ), (∑ j ∈ Finset.range (lastWidth n post), side (s i j) * onPath g i j) = side (s i 0) * g i := by
    intro i g
    rw [Finset.sum_eq_single 0]
    · simp [onPath]
    · intro j _ hj
      simp [onPath, hj]
    · intro h
      exact absurd (Finset.mem_range.2 hl) h
  constructor
  · refine Finset.sum_congr rfl fun i hi => ?_
    refine Eq.trans (Finset.sum_congr rfl fun j hj => ?_) (hsum i fun i => pathSlope post (f.fn (pathFn pre (x i))) * shuffledMat m n
        (layerChange f (fun i => pathFn pre (x i)) (fun j => δ (2 * pre.length) (shuffle (lastWidth k pre * n) j)) (δ (2 * pre.length + 1))) i 0)
    rw [(target_rest hp'.2.2 hne hn hd' hS hδ' _ _).1 i (Finset.mem_range.1 hi) j (Finset.mem_range.1 hj)]
  · refine Finset.sum_congr rfl fun i hi => ?_
    refine Eq.trans (Finset.sum_congr rfl fun j hj => ?_) (hsum i fun i => pathSlope post (f.fn (pathFn pre (x i))) *
        layerChange f (fun i => pathFn pre (x i)) (δ (2 * pre.length)) (δ (2 * pre.length + 1)) i 0)
    rw [(target_rest hp'.2.2 hne hn hd' hS hδ' _ _).2 i (Finset.mem_range.1 hi) j (Finset.mem_range.1 hj)]

theorem unit_weights (pre : List (Nat × Act)) (c : Nat) :
    ∀ p, p ≠ 2 * pre.length → p ≠ 2 * pre.length + 1 → ∀ c', unit (2 * pre.length) c p c' = 0 := by
  intro p h1 _ c'
  simp [unit, h1]

theorem unit_bias (pre : List (Nat × Act)) (c : Nat) :
    ∀ p, p ≠ 2 * pre.length → p ≠ 2 * pre.length + 1 → ∀ c', unit (2 * pre.length + 1) c p c' = 0 := by
  intro p _ h1 c'
  simp [unit, h1]

theorem shuffle_zero {len : Nat} (h : 32 < len) : shuffle len 0 ≠ 0 := by
  unfold shuffle
  omega

/-- the weights of the last layer -/
theorem sharp_last (hm : 0 < m) (hk : 0 < k) (hd : ∀ d ∈ pre ++ [(n, f)], 0 < d.1) (hb : 32 < lastWidth k pre * n) (hx : ∀ i, 0 < x i) :
    let ds := pre ++ [(n, f)]
    let y := pathGoal ds x fun _ j => decide (j = 0)
    lossTangent m k ds (onPath x) y (pathParams ds) (unit (2 * pre.length) 0) ≤ 0 ∧
      0 < lossDiff m k ds (onPath x) y (pathParams ds) (unit (2 * pre.length) 0) := by
  intro ds y
  obtain ⟨h1, h2⟩ := target_last (m := m) (x := x) (path_exists ds) hk hd (unit_weights pre 0) fun _ j => decide (j = 0)
  rw [h1, h2]
  have hX : ∀ i, 0 < pathFn pre (x i) := fun i => pathFn_pos pre (hx i)
  have hn : 0 < n := hd (n, f) (by simp)
  constructor
  · refine Finset.sum_nonpos fun i _ => Finset.sum_nonpos fun j _ => ?_
    simp only [layerChange, unit]
    rcases eq_or_ne j 0 with rfl | hj
    · rw [if_neg fun h => shuffle_zero hb h.2]
      simp
    · rw [show side (decide (j = 0)) = -1 by simp [side, hj]]
      have := mul_nonneg (unitSlope_nonneg f hX i j) (hX i).le
      split <;> simp <;> nlinarith
  · refine Finset.sum_pos (fun i _ => ?_) ⟨0, Finset.mem_range.2 hm⟩
    rw [Finset.sum_eq_single 0]
    · simp only [layerChange, unit, side]
      simpa using mul_pos (unitSlope_pos f hX i) (hX i)
    · intro j _ hj
      simp [layerChange, unit, hj]
    · intro h
      exact absurd (Finset.mem_range.2 hn) h

/-- the weights of another layer -/
theorem sharp_weights (hm : 0 < m) (hk : 0 < k) (hd : ∀ d ∈ pre ++ (n, f) :: post, 0 < d.1) (hne : post ≠ []) (hS : SmallNet m n post)
    (hb : 32 < lastWidth k pre * n) :
    let ds := pre ++ (n, f) :: post
    let y := pathGoal ds (fun _ => 1) fun _ _ => true
    ∃ q, lossTangent m k ds (onPath fun _ => 1) y (pathParams ds) (unit q 0) < lossDiff m k ds (onPath fun _ => 1) y (pathParams ds) (unit q 0) := by
  intro ds y
  have hX : ∀ i : Nat, 0 < (fun _ : Nat => pathFn pre 1) i := fun _ => pathFn_pos pre one_pos
  have hP : 0 < pathSlope post (f.fn (pathFn pre 1)) := pathSlope_pos post (f.fn_pos (pathFn_pos pre one_pos))
  have hu := unitSlope_pos f hX
  by_cases hJ : ∀ i < m, shuffle (m * n) (i * n + 0) % n = 0
  · refine ⟨2 * pre.length, ?_⟩
    obtain ⟨h1, h2⟩ := target_hidden (m := m) (x := fun _ => 1) (path_exists ds) hk hd hne hS (unit_weights pre 0) fun _ _ => true
    rw [h1, h2]
    refine Finset.sum_lt_sum_of_nonempty ⟨0, Finset.mem_range.2 hm⟩ fun i hi => ?_
    simp only [shuffledMat, hJ i (Finset.mem_range.1 hi), layerChange, unit]
    rw [if_neg fun h => shuffle_zero hb h.2]
    have := mul_pos hP (mul_pos (hu i) (hX i))
    simpa [side] using this
  · push Not at hJ
    obtain ⟨i0, hi0, hJ⟩ := hJ
    refine ⟨2 * pre.length + 1, ?_⟩
    obtain ⟨h1, h2⟩ := target_hidden (m := m) (x := fun _ => 1) (path_exists ds) hk hd hne hS (unit_bias pre 0) fun _ _ => true
    rw [h1, h2]
    have hpos : ∀ i, 0 < pathSlope post (f.fn (pathFn pre 1)) * unitSlope f (fun _ => pathFn pre 1) i 0 := fun i => mul_pos hP (hu i)
    refine Finset.sum_lt_sum (fun i hi => ?_) ⟨i0, Finset.mem_range.2 hi0, ?_⟩
    · simp only [shuffledMat, layerChange, unit]
      by_cases h0 : shuffle (m * n) (i * n + 0) % n = 0
      · rw [h0]
        simp [side, unitSlope]
      · rw [Nat.add_zero] at h0
        have := (hpos i).le
        simpa [side, h0] using this
    · simp only [shuffledMat, layerChange, unit]
      rw [Nat.add_zero] at hJ
      have := hpos i0
      simpa [side, hJ] using this

/-- the output of a layer -/
theorem sharp_outputs (hm : 0 < m) (hk : 0 < k) (hd : ∀ d ∈ pre ++ (n, f) :: post, 0 < d.1) (hne : post ≠ []) (hS : SmallNet m n post)
    (hw : lastWidth k pre * n ≤ 32) (hb : 32 < m * n) :
    let ds := pre ++ (n, f) :: post
    let x := fun i : Nat => if i = 0 then (2 : ℝ) else 1
    let y := pathGoal ds x fun i _ => decide (i = 0)
    ∃ q, lossTangent m k ds (onPath x) y (pathParams ds) (unit q 0) ≠ lossDiff m k ds (onPath x) y (pathParams ds) (unit q 0) := by
  intro ds x y
  by_contra hcon
  push Not at hcon
  have hx : ∀ i, 0 < x i := by
    intro i
    simp only [x]
    split <;> norm_num
  have hX : ∀ i : Nat, 0 < (fun i => pathFn pre (x i)) i := fun i => pathFn_pos pre (hx i)
  have hP : ∀ i, 0 < pathSlope post (f.fn (pathFn pre (x i))) := fun i => pathSlope_pos post (f.fn_pos (hX i))
  have hn : 0 < n := hd (n, f) (by simp)
  have hK : 0 < lastWidth k pre := lastWidth_pos pre k hk fun d h => hd d (by simp [h])
  have e1 := hcon (2 * pre.length)
  have e2 := hcon (2 * pre.length + 1)
  obtain ⟨h1, h2⟩ := target_hidden (m := m) (x := x) (path_exists ds) hk hd hne hS (unit_weights pre 0) fun i _ => decide (i = 0)
  obtain ⟨h3, h4⟩ := target_hidden (m := m) (x := x) (path_exists ds) hk hd hne hS (unit_bias pre 0) fun i _ => decide (i = 0)
  rw [h1, h2] at e1
  rw [h3, h4] at e2
  have e3 := congrArg₂ (fun u v => u - pathFn pre 1 * v) e1 e2
  simp only [Finset.mul_sum, ← Finset.sum_sub_distrib] at e3
  refine absurd e3 (ne_of_lt (lt_of_le_of_lt (b := 0) (Finset.sum_nonpos fun i _ => ?_) (Finset.sum_pos' (fun i _ => ?_) ⟨0, Finset.mem_range.2 hm, ?_⟩)))
  · simp only [shuffledMat, layerChange, unit]
    set p := shuffle (m * n) (i * n + 0) with hp
    have hJ : p % n < n := Nat.mod_lt _ hn
    rw [shuffle_small hw (lt_of_lt_of_le hJ (Nat.le_mul_of_pos_left n hK))]
    rcases eq_or_ne (p % n) 0 with hp0 | hp0
    · rcases eq_or_ne (p / n) 0 with hd0 | hd0
      · have hi : i ≠ 0 := by
          rintro rfl
          rw [Nat.zero_mul] at hp
          have h5 := shuffle_zero hb
          rw [← hp] at h5
          have := Nat.div_add_mod p n
          rw [hd0, hp0] at this
          simp at this
          exact h5 this.symm
        have h6 : pathFn pre 1 < pathFn pre 2 := pathFn_lt pre one_pos (by norm_num)
        have h7 := mul_pos (hP i) (mul_pos (unitSlope_pos f hX 0) (sub_pos.2 h6))
        have hx0 : x 0 = 2 := rfl
        simp only [hd0, hp0, hx0, side, hi]
        simp only [decide_false, if_true, and_self, Nat.succ_ne_self, false_and, if_false]
        simp
        nlinarith
      · have hx1 : x (p / n) = 1 := if_neg hd0
        simp only [hp0, hx1]
        simp
        nlinarith
    · simp [hp0]
  · rcases eq_or_ne i 0 with rfl | hi
    · have h6 : pathFn pre 1 < pathFn pre 2 := pathFn_lt pre one_pos (by norm_num)
      have h7 := mul_pos (hP 0) (mul_pos (unitSlope_pos f hX 0) (sub_pos.2 h6))
      have hx0 : x 0 = 2 := rfl
      simp only [hx0] at h7
      simp [layerChange, unit, side, hx0]
      nlinarith
    · have hx1 : x i = 1 := if_neg hi
      refine le_of_eq ?_
      simp only [layerChange, unit, side, hx1, hi]
      simp
      ring
  · have h6 : pathFn pre 1 < pathFn pre 2 := pathFn_lt pre one_pos (by norm_num)
    have h7 := mul_pos (hP 0) (mul_pos (unitSlope_pos f hX 0) (sub_pos.2 h6))
    have hx0 : x 0 = 2 := rfl
    simp only [hx0] at h7
    simp [layerChange, unit, side, hx0]
    nlinarith

end

/-- the last place where something is too large -/
theorem not_small {m : Nat} : ∀ (ds : List (Nat × Act)) (k : Nat), ¬ SmallNet m k ds → ∃ pre n f post, ds = pre ++ (n, f) :: post ∧ SmallNet m n post ∧
    (32 < lastWidth k pre * n ∨ post ≠ [] ∧ 32 < m * n) := by
  intro ds
  induction ds with
  | nil => exact fun k h => absurd trivial h
  | cons d ds ih =>
    obtain ⟨n, f⟩ := d
    intro k h
    by_cases hS : SmallNet m n ds
    · refine ⟨[], n, f, ds, rfl, hS, ?_⟩
      by_contra hc
      push Not at hc
      exact h ⟨hc.1, hc.2, hS⟩
    · obtain ⟨pre, n', f', post, rfl, h1, h2⟩ := ih n hS
      exact ⟨(n, f) :: pre, n', f', post, rfl, h1, h2⟩

theorem path_Smooth {m k : Nat} {ds : List (Nat × Act)} (hk : 0 < k) (hd : ∀ d ∈ ds, 0 < d.1) {x : Nat → ℝ} (hx : ∀ i, 0 < x i) (s : Nat → Nat → Bool) :
    Smooth m k ds (onPath x) (pathGoal ds x s) (pathParams ds) := by
  refine ⟨path_smooth ds k 0 x (path_exists ds) hk hd hx, fun i _ j _ => ?_⟩
  rw [path_value ds k 0 x (path_exists ds) hk hd]
  exact pathGoal_ne ds x s i j

/-- a network that is not small: data without kinks for which a wrong derivative is computed -/
theorem sharp {m k : Nat} {ds : List (Nat × Act)} (hm : 0 < m) (hk : 0 < k) (hd : ∀ d ∈ ds, 0 < d.1) (hS : ¬ SmallNet m k ds) :
    ∃ a y θ, Smooth m k ds a y θ ∧ ∃ p ∈ coords k 0 ds, lossTangent m k ds a y θ (unit p.1 p.2) ≠ lossDiff m k ds a y θ (unit p.1 p.2) := by
  have hmem : ∀ {a y θ : Nat → Nat → ℝ} {q c : Nat}, Smooth m k ds a y θ → lossTangent m k ds a y θ (unit q c) ≠ lossDiff m k ds a y θ (unit q c) →
      ∃ p ∈ coords k 0 ds, lossTangent m k ds a y θ (unit p.1 p.2) ≠ lossDiff m k ds a y θ (unit p.1 p.2) := by
    intro a y θ q c hK hne
    refine ⟨(q, c), ?_, hne⟩
    by_contra hn
    apply hne
    rw [lossTangent_outside a y θ hn]
    by_contra h0
    exact hn (mem_coords hK (by rw [gradient, (netLoss_partial hK q c).deriv]; exact Ne.symm h0))
  obtain ⟨pre, n, f, post, rfl, h1, h2⟩ := not_small ds k hS
  by_cases hne : post = []
  · subst hne
    have hb : 32 < lastWidth k pre * n := by
      rcases h2 with h | ⟨h, _⟩
      · exact h
      · exact absurd rfl h
    obtain ⟨h3, h4⟩ := sharp_last (m := m) (x := fun _ => 1) hm hk hd hb fun _ => one_pos
    have hK := path_Smooth (m := m) hk hd (x := fun _ => 1) (fun _ => one_pos) fun _ j => decide (j = 0)
    exact ⟨_, _, _, hK, hmem hK (lt_of_le_of_lt h3 h4).ne⟩
  · by_cases hb : 32 < lastWidth k pre * n
    · obtain ⟨q, h3⟩ := sharp_weights hm hk hd hne h1 hb
      have hK := path_Smooth (m := m) hk hd (x := fun _ => 1) (fun _ => one_pos) fun _ _ => true
      exact ⟨_, _, _, hK, hmem hK h3.ne⟩
    · obtain ⟨q, h3⟩ := sharp_outputs hm hk hd hne h1 (not_lt.1 hb) (by rcases h2 with h | ⟨_, h⟩; exacts [absurd h hb, h])
      have hx : ∀ i : Nat, (0 : ℝ) < if i = 0 then 2 else 1 := fun i => by split <;> norm_num
      have hK := path_Smooth (m := m) hk hd hx fun i _ => decide (i = 0)
      exact ⟨_, _, _, hK, hmem hK h3⟩

end RL
