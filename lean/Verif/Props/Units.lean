import Verif.Lemmas.Units
import Verif.Props.Descent

/-!
# The units of a layer (C82, C83)
-/

namespace RL

open Spec

/-! ## the order of the units (C82) -/

/-- C82, full statement: the order of the units of a hidden layer does not matter for training. If the parameters of two networks only differ
by the order `σ` of the units of a layer, then so do they after any number of steps. It is false: see `C82_false`. -/
def C82_statement : Prop :=
  ∀ (h₁ h₂ : Heap ℝ) (mlp₁ mlp₂ : Mlp ℝ) (x₁ y₁ x₂ y₂ m k n n' : Nat) (f f' : Act) (pre post : List (Nat × Act)) (a b θ : Nat → Nat → ℝ) (lr : ℝ)
    (N : Nat) (σ : Equiv.Perm Nat), (∀ j < n, σ j < n) → Training h₁ mlp₁ x₁ y₁ m k (pre ++ (n, f) :: (n', f') :: post) a b θ →
    Training h₂ mlp₂ x₂ y₂ m k (pre ++ (n, f) :: (n', f') :: post) a b (renameUnits (2 * pre.length) n n' σ θ) →
    ∃ h₁' mlp₁' h₂' mlp₂' θ', train mlp₁ h₁ x₁ y₁ lr N = .ok (h₁', mlp₁') ∧ train mlp₂ h₂ x₂ y₂ lr N = .ok (h₂', mlp₂') ∧
      NetIs h₁' mlp₁' k (pre ++ (n, f) :: (n', f') :: post) θ' ∧
      NetIs h₂' mlp₂' k (pre ++ (n, f) :: (n', f') :: post) (renameUnits (2 * pre.length) n n' σ θ')

theorem training_widths {h : Heap ℝ} {mlp : Mlp ℝ} {x y m k : Nat} {ds : List (Nat × Act)} {a b θ : Nat → Nat → ℝ}
    (ht : Training h mlp x y m k ds a b θ) : ∀ d ∈ ds, 0 < d.1 := by
  have : ∀ (ds : List (Nat × Act)) (ls : List (Linear ℝ)) (k q : Nat), LayersAre h k ls (layerFns θ q ds) → ∀ d ∈ ds, 0 < d.1 := by
    intro ds
    induction ds with
    | nil => intro ls k q _ d hd; simp at hd
    | cons e ds ih =>
      intro ls k q hl d hd
      cases ls with
      | nil => exact hl.elim
      | cons l ls =>
        rcases List.mem_cons.1 hd with rfl | hd
        · exact hl.1.1
        · exact ih ls e.1 (q + 2) hl.2 d hd
  exact this ds _ k 0 ht.net.layers

/-- C82 for networks whose matrices have at most 32 elements. Missing: larger ones; for these it is false. -/
theorem C82_partial (h₁ h₂ : Heap ℝ) (mlp₁ mlp₂ : Mlp ℝ) (x₁ y₁ x₂ y₂ m k n n' : Nat) (f f' : Act) (pre post : List (Nat × Act))
    (a b θ : Nat → Nat → ℝ) (lr : ℝ) (N : Nat) (σ : Equiv.Perm Nat) (hσ : ∀ j < n, σ j < n)
    (ht₁ : Training h₁ mlp₁ x₁ y₁ m k (pre ++ (n, f) :: (n', f') :: post) a b θ)
    (ht₂ : Training h₂ mlp₂ x₂ y₂ m k (pre ++ (n, f) :: (n', f') :: post) a b (renameUnits (2 * pre.length) n n' σ θ))
    (hS : SmallNet m k (pre ++ (n, f) :: (n', f') :: post)) :
    ∃ h₁' mlp₁' h₂' mlp₂' θ', train mlp₁ h₁ x₁ y₁ lr N = .ok (h₁', mlp₁') ∧ train mlp₂ h₂ x₂ y₂ lr N = .ok (h₂', mlp₂') ∧
      NetIs h₁' mlp₁' k (pre ++ (n, f) :: (n', f') :: post) θ' ∧
      NetIs h₂' mlp₂' k (pre ++ (n, f) :: (n', f') :: post) (renameUnits (2 * pre.length) n n' σ θ') := by
  obtain ⟨h₁', mlp₁', e₁, t₁⟩ := C50_actual N h₁ mlp₁ x₁ y₁ m k _ a b θ lr ht₁
  obtain ⟨h₂', mlp₂', e₂, t₂⟩ := C50_actual N h₂ mlp₂ x₂ y₂ m k _ a b _ lr ht₂
  refine ⟨h₁', mlp₁', h₂', mlp₂', _, e₁, e₂, t₁.net, ?_⟩
  have hw := training_widths ht₁
  have hcomm : ∀ (N : Nat) (θ : Nat → Nat → ℝ), (shuffledDescend lr m k (pre ++ (n, f) :: (n', f') :: post) a b)^[N]
      (renameUnits (2 * pre.length) n n' σ θ) = renameUnits (2 * pre.length) n n' σ ((shuffledDescend lr m k (pre ++ (n, f) :: (n', f') :: post) a b)^[N] θ) := by
    intro N
    induction N with
    | zero => intro θ; rfl
    | succ N ih =>
      intro θ
      rw [Function.iterate_succ_apply, Function.iterate_succ_apply,
        shuffledDescend_rename hσ pre rfl (hw (n, f) (by simp)) (hw (n', f') (by simp)) hS, ih]
  rw [← hcomm]
  exact t₂.net

/-- C82, for all sizes: the order of the units does not matter for the loss. -/
theorem C82_loss (h₁ h₂ : Heap ℝ) (mlp₁ mlp₂ : Mlp ℝ) (x₁ y₁ x₂ y₂ m k n n' : Nat) (f f' : Act) (pre post : List (Nat × Act))
    (a b θ : Nat → Nat → ℝ) (σ : Equiv.Perm Nat) (hσ : ∀ j < n, σ j < n)
    (ht₁ : Training h₁ mlp₁ x₁ y₁ m k (pre ++ (n, f) :: (n', f') :: post) a b θ)
    (ht₂ : Training h₂ mlp₂ x₂ y₂ m k (pre ++ (n, f) :: (n', f') :: post) a b (renameUnits (2 * pre.length) n n' σ θ)) :
    ∃ h₁' l₁ h₂' l₂ L, trainLoss mlp₁ h₁ x₁ y₁ = .ok (h₁', l₁) ∧ trainLoss mlp₂ h₂ x₂ y₂ = .ok (h₂', l₂) ∧
      dataOf h₁' l₁ = some ⟨[L], []⟩ ∧ dataOf h₂' l₂ = some ⟨[L], []⟩ := by
  obtain ⟨h₁', l₁, e₁, d₁⟩ := C54_loss _ _ _ _ _ _ _ _ _ _ ht₁
  obtain ⟨h₂', l₂, e₂, d₂⟩ := C54_loss _ _ _ _ _ _ _ _ _ _ ht₂
  rw [netLoss_rename hσ pre rfl] at d₂
  exact ⟨h₁', l₁, h₂', l₂, _, e₁, e₂, d₁, d₂⟩

/-- C82: units that start with the same parameters keep the same parameters, whatever the data (for networks whose matrices have at most 32
elements; for larger ones this is false, see `C82_same_false`). In particular a hidden layer that starts with all weights 0 acts as
one unit forever. -/
theorem C82_same_partial (h : Heap ℝ) (mlp : Mlp ℝ) (x y m k n n' : Nat) (f f' : Act) (pre post : List (Nat × Act)) (a b θ : Nat → Nat → ℝ) (lr : ℝ)
    (N j j' : Nat) (ht : Training h mlp x y m k (pre ++ (n, f) :: (n', f') :: post) a b θ) (hj : j < n) (hj' : j' < n)
    (hsame : SameUnits (lastWidth k pre) (2 * pre.length) n n' θ j j') (hS : SmallNet m k (pre ++ (n, f) :: (n', f') :: post)) :
    ∃ h' mlp' θ', train mlp h x y lr N = .ok (h', mlp') ∧ NetIs h' mlp' k (pre ++ (n, f) :: (n', f') :: post) θ' ∧
      SameUnits (lastWidth k pre) (2 * pre.length) n n' θ' j j' := by
  have hσ : ∀ r < n, Equiv.swap j j' r < n := by
    intro r hr
    rw [Equiv.swap_apply_def]
    split
    · exact hj'
    · split
      · exact hj
      · exact hr
  obtain ⟨h', mlp', h'', mlp'', θ', e1, e2, n1, n2⟩ := C82_partial h h mlp mlp x y x y m k n n' f f' pre post a b θ lr N (Equiv.swap j j') hσ ht
    (ht.congr (rename_same hsame)) hS
  rw [e1] at e2
  cases e2
  exact ⟨h', mlp', θ', e1, n1, same_of_rename hj fun p hp => n1.unique n2 hp⟩

/-- C82: 11 inputs, 3 units, one output, without activation. -/
def C82_net : List (Nat × Act) := [(3, .identity), (1, .identity)]

/-- C82: the weights of the output are `w`, all other parameters 0. -/
def C82_params (w : Nat → ℝ) : Nat → Nat → ℝ := fun q c => if q = 2 then w c else 0

/-- C82: only the first input is not 0. -/
def C82_input : Nat → Nat → ℝ := fun _ r => if r = 0 then 1 else 0

theorem C82_training (w : Nat → ℝ) : Training ((startData 1 11 C82_net C82_input (fun _ _ => 5) (C82_params w)).map leafNode)
    ⟨startLayers 2 C82_net⟩ 0 1 1 11 C82_net C82_input (fun _ _ => 5) (C82_params w) :=
  training_exists 1 11 C82_net _ _ _ (by omega) (by omega) (by simp [C82_net])

/-- C82: for the weight at `c` of the first layer a step takes the slope of the weight before it. -/
theorem C82_slope (w : Nat → ℝ) (c : Nat) : lossTangent 1 11 C82_net C82_input (fun _ _ => 5) (C82_params w) (fun q' c' => if q' = 0 ∧ c' = c then 1 else 0) =
    -∑ j ∈ Finset.range 3, (if j + 1 = c then 1 else 0) * w j := by
  have h0 : shuffle 33 0 = 1 := by decide
  have h1 : shuffle 33 1 = 2 := by decide
  have h2 : shuffle 33 2 = 3 := by decide
  have h3 : ∀ r < 3, shuffle 3 r = r := by decide
  simp only [lossTangent, C82_net, lastWidth, layerFns, netValue, netTangent, affine_sum, Act.fn, Act.slope, Finset.sum_range_succ, Finset.sum_range_zero, id,
    C82_params, C82_input, shuffledMat]
  norm_num [h0, h1, h2, h3]

/-- C82 is false: if the output only reads unit 0, a step changes the first weight of unit 1; if it only reads unit 1, a step changes the
first weight of unit 2. -/
theorem C82_false : ¬ C82_statement := by
  intro H
  have hren : renameUnits (2 * ([] : List (Nat × Act)).length) 3 1 (Equiv.swap 0 1) (C82_params fun j => if j = 0 then 1 else 0) =
      C82_params fun j => if j = 1 then 1 else 0 := by
    funext p c
    simp only [renameUnits, C82_params, List.length_nil, Nat.mul_zero, Nat.zero_add, Nat.div_one, Nat.mul_one, Nat.mod_one, Nat.add_zero]
    by_cases h2 : p = 2
    · subst h2
      simp only [if_true]
      rw [if_neg (by omega), if_neg (by omega)]
      congr 1
      rw [Equiv.swap_apply_eq_iff, Equiv.swap_apply_left]
    · simp [h2]
  obtain ⟨h₁, mlp₁, h₂, mlp₂, θ, e₁, e₂, n₁, n₂⟩ := H _ _ _ _ _ _ _ _ 1 11 3 1 .identity .identity [] [] C82_input (fun _ _ => 5)
    (C82_params fun j => if j = 0 then 1 else 0) 1 1 (Equiv.swap 0 1) (by decide) (C82_training _) (by rw [hren]; exact C82_training _)
  obtain ⟨_, _, f₁, t₁⟩ := C50_actual 1 _ _ _ _ _ _ _ _ _ _ 1 (C82_training fun j => if j = 0 then 1 else 0)
  obtain ⟨_, _, f₂, t₂⟩ := C50_actual 1 _ _ _ _ _ _ _ _ _ _ 1 (C82_training fun j => if j = 1 then 1 else 0)
  rw [e₁] at f₁
  rw [e₂] at f₂
  cases f₁
  cases f₂
  have c₁ := n₁.unique t₁.net (q := 0) (c := 1) (by decide)
  have c₂ := n₂.unique t₂.net (q := 0) (c := 0) (by decide)
  have hr : renameUnits (2 * ([] : List (Nat × Act)).length) 3 1 (Equiv.swap 0 1) θ 0 0 = θ 0 1 := by simp [renameUnits]
  rw [hr, c₁] at c₂
  simp only [Function.iterate_one, shuffledDescend] at c₂
  rw [C82_slope, C82_slope] at c₂
  norm_num [C82_params, Finset.sum_range_succ] at c₂

/-- C82, full statement for units with the same parameters. It is false: see `C82_same_false`. -/
def C82_same_statement : Prop :=
  ∀ (h : Heap ℝ) (mlp : Mlp ℝ) (x y m k n n' : Nat) (f f' : Act) (pre post : List (Nat × Act)) (a b θ : Nat → Nat → ℝ) (lr : ℝ) (N j j' : Nat),
    Training h mlp x y m k (pre ++ (n, f) :: (n', f') :: post) a b θ → j < n → j' < n →
    SameUnits (lastWidth k pre) (2 * pre.length) n n' θ j j' →
    ∃ h' mlp' θ', train mlp h x y lr N = .ok (h', mlp') ∧ NetIs h' mlp' k (pre ++ (n, f) :: (n', f') :: post) θ' ∧
      SameUnits (lastWidth k pre) (2 * pre.length) n n' θ' j j'

/-- C82: three units with the same parameters, for 11 inputs. The first step changes the first weight of units 1 and 2, but not of unit 0. -/
theorem C82_same_false : ¬ C82_same_statement := by
  intro H
  obtain ⟨h', mlp', θ', e, net, same⟩ := H _ _ _ _ 1 11 3 1 .identity .identity [] [] C82_input (fun _ _ => 5) (C82_params fun _ => 1) 1 1 0 1
    (C82_training _) (by omega) (by omega) ⟨fun _ _ => rfl, rfl, fun _ _ => rfl⟩
  obtain ⟨_, _, f, t⟩ := C50_actual 1 _ _ _ _ _ _ _ _ _ _ 1 (C82_training fun _ => 1)
  rw [e] at f
  cases f
  have c₀ := net.unique t.net (q := 0) (c := 0) (by decide)
  have c₁ := net.unique t.net (q := 0) (c := 1) (by decide)
  have hs := same.1 0 (by simp [lastWidth])
  simp only [List.length_nil, Nat.mul_zero, Nat.zero_mul, Nat.zero_add] at hs
  rw [c₀, c₁] at hs
  simp only [Function.iterate_one, shuffledDescend] at hs
  rw [C82_slope, C82_slope] at hs
  norm_num [C82_params, Finset.sum_range_succ] at hs

/-- C82, test: two inputs, two units with `tanh`, one output, all parameters 0. The hypotheses of `C82_same_partial` are satisfied, and the
two units stay the same. -/
example (a b : Nat → Nat → ℝ) (lr : ℝ) (N : Nat) : ∃ h' mlp' θ',
    train ⟨startLayers 2 [(2, .tanh), (1, .identity)]⟩ ((startData 3 2 [(2, .tanh), (1, .identity)] a b fun _ _ => 0).map leafNode) 0 1 lr N = .ok (h', mlp') ∧
      NetIs h' mlp' 2 [(2, .tanh), (1, .identity)] θ' ∧ SameUnits 2 0 2 1 θ' 0 1 :=
  C82_same_partial _ _ 0 1 3 2 2 1 .tanh .identity [] [] a b (fun _ _ => 0) lr N 0 1
    (training_exists 3 2 [(2, .tanh), (1, .identity)] a b _ (by omega) (by omega) (by simp)) (by omega) (by omega) ⟨fun _ _ => rfl, rfl, fun _ _ => rfl⟩
    (by simp [SmallNet])

/-- C82, test: the hypotheses of `C82_partial` for any parameters of this network, with its two units exchanged. -/
example (a b θ : Nat → Nat → ℝ) (lr : ℝ) (N : Nat) : ∃ h₁' mlp₁' h₂' mlp₂' θ',
    train ⟨startLayers 2 [(2, .tanh), (1, .identity)]⟩ ((startData 3 2 [(2, .tanh), (1, .identity)] a b θ).map leafNode) 0 1 lr N = .ok (h₁', mlp₁') ∧
    train ⟨startLayers 2 [(2, .tanh), (1, .identity)]⟩ ((startData 3 2 [(2, .tanh), (1, .identity)] a b (renameUnits 0 2 1 (Equiv.swap 0 1) θ)).map leafNode) 0 1 lr N =
      .ok (h₂', mlp₂') ∧ NetIs h₁' mlp₁' 2 [(2, .tanh), (1, .identity)] θ' ∧
      NetIs h₂' mlp₂' 2 [(2, .tanh), (1, .identity)] (renameUnits 0 2 1 (Equiv.swap 0 1) θ') :=
  C82_partial _ _ _ _ 0 1 0 1 3 2 2 1 .tanh .identity [] [] a b θ lr N (Equiv.swap 0 1) (by decide)
    (training_exists 3 2 [(2, .tanh), (1, .identity)] a b _ (by omega) (by omega) (by simp))
    (training_exists 3 2 [(2, .tanh), (1, .identity)] a b _ (by omega) (by omega) (by simp)) (by simp [SmallNet])

/-! ## units that never react (C83) -/

/-- C83, full statement: if the sum that unit `j` of the first layer feeds into `relu` is negative for all rows, then training never changes
its weights and its bias. It is false: see `C83_false`. -/
def C83_statement : Prop :=
  ∀ (h : Heap ℝ) (mlp : Mlp ℝ) (x y m k n : Nat) (ds : List (Nat × Act)) (a b θ : Nat → Nat → ℝ) (lr : ℝ) (N j : Nat),
    Training h mlp x y m k ((n, .relu) :: ds) a b θ → j < n → (∀ i < m, affine k a (fun r j => θ 0 (r * n + j)) (θ 1) i j < 0) →
    ∃ h' mlp' θ', train mlp h x y lr N = .ok (h', mlp') ∧ NetIs h' mlp' k ((n, .relu) :: ds) θ' ∧
      (∀ r < k, θ' 0 (r * n + j) = θ 0 (r * n + j)) ∧ θ' 1 j = θ 1 j

theorem dead_step {m k n : Nat} {ds : List (Nat × Act)} {a b θ : Nat → Nat → ℝ} (lr : ℝ) {j : Nat} (hj : j < n)
    (hS : k * n ≤ 32 ∨ n ∣ 32)
    (hdead : ∀ i < m, affine k a (fun r j => θ 0 (r * n + j)) (θ 1) i j < 0) :
    (∀ r < k, shuffledDescend lr m k ((n, .relu) :: ds) a b θ 0 (r * n + j) = θ 0 (r * n + j)) ∧
      shuffledDescend lr m k ((n, .relu) :: ds) a b θ 1 j = θ 1 j := by
  refine ⟨fun r hr => ?_, ?_⟩
  · rw [shuffledDescend, lossTangent_dead hdead (fun p hp => ?_) (fun r' hr' j' hj' hne => ?_) (fun j' _ _ => by simp), mul_zero, sub_zero]
    · have := coords_ge _ _ _ _ hp
      rw [if_neg (by omega)]
    · rw [shuffledMat, Nat.div_add_mod', if_neg]
      rintro ⟨_, h⟩
      apply hne
      have := congrArg (· % n) h
      simp only [shuffle_column hS (show r' * n + j' < k * n by nlinarith)] at this
      simpa [Nat.mul_comm _ n, Nat.mul_add_mod, Nat.mod_eq_of_lt hj, Nat.mod_eq_of_lt hj'] using this
  · rw [shuffledDescend, lossTangent_dead hdead (fun p hp => ?_) (fun r' hr' j' hj' hne => by simp [shuffledMat]) (fun j' _ hne => by simp [hne]),
      mul_zero, sub_zero]
    have := coords_ge _ _ _ _ hp
    rw [if_neg (by omega)]

/-- C83 if the first layer has at most 32 weights, or if its number of units divides 32; the other layers may have any size. Missing: all
other sizes of the first layer; for these it is false (`C83_exact`). -/
theorem C83_partial (h : Heap ℝ) (mlp : Mlp ℝ) (x y m k n : Nat) (ds : List (Nat × Act)) (a b θ : Nat → Nat → ℝ) (lr : ℝ) (N j : Nat)
    (ht : Training h mlp x y m k ((n, .relu) :: ds) a b θ) (hj : j < n)
    (hdead : ∀ i < m, affine k a (fun r j => θ 0 (r * n + j)) (θ 1) i j < 0) (hS : k * n ≤ 32 ∨ n ∣ 32) :
    ∃ h' mlp' θ', train mlp h x y lr N = .ok (h', mlp') ∧ NetIs h' mlp' k ((n, .relu) :: ds) θ' ∧
      (∀ r < k, θ' 0 (r * n + j) = θ 0 (r * n + j)) ∧ θ' 1 j = θ 1 j := by
  obtain ⟨h', mlp', e, t⟩ := C50_actual N h mlp x y m k _ a b θ lr ht
  refine ⟨h', mlp', _, e, t.net, ?_⟩
  clear t e ht
  induction N generalizing θ with
  | zero => exact ⟨fun _ _ => rfl, rfl⟩
  | succ N ih =>
    rw [Function.iterate_succ_apply]
    obtain ⟨s1, s2⟩ := dead_step (ds := ds) (b := b) lr hj hS hdead
    obtain ⟨i1, i2⟩ := ih (θ := shuffledDescend lr m k ((n, .relu) :: ds) a b θ) fun i hi => by
      rw [affine_congr (w' := fun r j => θ 0 (r * n + j)) (b' := θ 1) (j' := j) (fun _ _ => rfl) s1 s2]
      exact hdead i hi
    exact ⟨fun r hr => (i1 r hr).trans (s1 r hr), i2.trans s2⟩

/-- C83, for all sizes: the first step leaves the bias of such a unit. -/
theorem C83_bias (h : Heap ℝ) (mlp : Mlp ℝ) (x y m k n : Nat) (ds : List (Nat × Act)) (a b θ : Nat → Nat → ℝ) (lr : ℝ) (j : Nat)
    (ht : Training h mlp x y m k ((n, .relu) :: ds) a b θ)
    (hdead : ∀ i < m, affine k a (fun r j => θ 0 (r * n + j)) (θ 1) i j < 0) :
    ∃ h' mlp' θ', trainStep mlp h x y lr = .ok (h', mlp') ∧ NetIs h' mlp' k ((n, .relu) :: ds) θ' ∧ θ' 1 j = θ 1 j := by
  obtain ⟨h', mlp', e, t⟩ := C50_step_actual h mlp x y m k _ a b θ lr ht
  refine ⟨h', mlp', _, e, t.net, ?_⟩
  rw [shuffledDescend, lossTangent_dead hdead (fun p hp => ?_) (fun r' hr' j' hj' hne => by simp [shuffledMat]) (fun j' _ hne => by simp [hne]),
    mul_zero, sub_zero]
  have := coords_ge _ _ _ _ hp
  rw [if_neg (by omega)]

/-- C83: the bias of the first of three units is 1, the other biases are -1, the weights 0. -/
def C83_params : Nat → Nat → ℝ := fun q c => if q = 1 then if c = 0 then 1 else -1 else 0

/-- C83 is false: 11 inputs, of which only the first is not 0, and 3 units, of which only the first reacts. The first step changes the
first weight of the second unit. -/
theorem C83_false : ¬ C83_statement := by
  intro H
  have ht := training_exists 1 11 [(3, .relu)] C82_input (fun _ _ => 5) C83_params (by omega) (by omega) (by simp)
  obtain ⟨h', mlp', θ', e, net, same, _⟩ := H _ _ _ _ 1 11 3 [] C82_input (fun _ _ => 5) C83_params 1 1 1 ht (by omega) fun i _ => by
    simp [affine_sum, C83_params]
  obtain ⟨_, _, f, t⟩ := C50_actual 1 _ _ _ _ _ _ _ _ _ _ 1 ht
  rw [e] at f
  cases f
  have c := net.unique t.net (q := 0) (c := 1) (by decide)
  have hs := same 0 (by omega)
  simp only [Nat.zero_mul, Nat.zero_add] at hs
  rw [c] at hs
  have h0 : shuffle 33 0 = 1 := by decide
  have h1 : shuffle 33 1 = 2 := by decide
  have h2 : shuffle 33 2 = 3 := by decide
  simp only [Function.iterate_one, shuffledDescend, lossTangent, lastWidth, layerFns, netValue, netTangent, affine_sum, Act.fn, Act.slope,
    Finset.sum_range_succ, Finset.sum_range_zero, C83_params, C82_input, shuffledMat] at hs
  norm_num [h0, h1, h2] at hs

/-- C83, test: two units with the biases 1 and -1 and the weights 0; the hypotheses of `C83_partial` for the second one. -/
example (a b : Nat → Nat → ℝ) (lr : ℝ) (N : Nat) : ∃ h' mlp' θ',
    train ⟨startLayers 2 [(2, .relu), (1, .identity)]⟩ ((startData 3 2 [(2, .relu), (1, .identity)] a b C83_params).map leafNode) 0 1 lr N = .ok (h', mlp') ∧
      NetIs h' mlp' 2 [(2, .relu), (1, .identity)] θ' ∧ (∀ r < 2, θ' 0 (r * 2 + 1) = 0) ∧ θ' 1 1 = -1 := by
  obtain ⟨h', mlp', θ', e, net, h1, h2⟩ := C83_partial _ _ 0 1 3 2 2 [(1, .identity)] a b C83_params lr N 1
    (training_exists 3 2 [(2, .relu), (1, .identity)] a b _ (by omega) (by omega) (by simp)) (by omega) (fun i _ => by simp [affine_sum, C83_params]) (by omega)
  exact ⟨h', mlp', θ', e, net, fun r hr => by rw [h1 r hr]; simp [C83_params], by rw [h2]; simp [C83_params]⟩

end RL
