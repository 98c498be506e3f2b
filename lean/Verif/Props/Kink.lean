import Verif.Lemmas.Kink

/-!
# Gradients where `relu` and `abs` have no derivative (C76)
-/

namespace RL

open Spec

/-- C76, full statement: where the loss has a derivative by an element of `x`, `backward` computes it, also if elements that go into `relu` or
`abs` are 0. It is false: see `C76_false`. -/
def C76_statement : Prop := ∀ (H : ℝ → Heap ℝ) (l x : Nat) (X : List Nat → ℝ) (c il : List Nat) (y D : ℝ) (h' : Heap ℝ) (g : Raw ℝ), LossFamily H l x X c →
  InRange (shapeOf (H y) l) il → HasDerivAt (fun z => coord (dataOf (H z) l) il) D y → backward (H y) l = .ok h' → gradOf h' x = some g →
  Raw.elem? g c = some D

/-- C76 if all elements that go into `relu` or `abs` and are 0 do not change to first order (for example because they do not depend on the
element, or are 0 for all values of it). Otherwise it is false. -/
theorem C76_partial (h h' : Heap ℝ) (l x : Nat) (v : Raw ℝ) (hr : Reachable h) (hl : RealLoss h l) (hsm : SmallFor h l x)
    (htop : SumsOnTop h l x) (e : backward h l = .ok h') (hx : Ancestor h x l) (hv : dataOf h x = some v)
    (hfit : ∀ p, gradOf h x = some p → p.shape = v.shape ∧ WF p) (X : List Nat → ℝ)
    (hX : ∀ idx, InRange v.shape idx → Raw.elem? v idx = some (X idx)) (V : (List Nat → ℝ) → Nat → List Nat → ℝ)
    (hV : ∀ Y, Reeval h l x Y (V Y)) (c : List Nat) (hc : InRange v.shape c)
    (hk : ∀ a idx, IntoKink h l a idx → coord (dataOf h a) idx = 0 → ∀ D, HasDerivAt (fun y => V (Function.update X c y) a idx) D (X c) → D = 0)
    (il : List Nat) (hil : InRange (shapeOf h l) il) :
    ∃ g D, gradOf h' x = some g ∧ g.shape = v.shape ∧ HasDerivAt (fun y => V (Function.update X c y) l il) D (X c) ∧ Raw.elem? g c = some (coord (gradOf h x) c + D) := by
  obtain ⟨g, h1, hsh, _, h2⟩ := backward_derivative_regular hr.good hl hsm htop e hx hv hfit (fun idx hi => (cell_elem (hX idx hi)).symm) hV
  obtain ⟨D, h3, h4⟩ := h2 c hc (fun i a k t hi hh hk' ht idx hidx h0 =>
    hk a idx ⟨i, k, hi, hh, hk', by rw [shapeOf_data ht]; exact hidx⟩ (by rw [ht, coord_some]; exact h0)) il hil
  exact ⟨g, D, h1, hsh, h3, h4⟩

/-- C76 in terms of runs of the program. -/
theorem C76_runs_partial (H : ℝ → Heap ℝ) (l x : Nat) (X : List Nat → ℝ) (c : List Nat) (hH : LossFamily H l x X c) (y : ℝ)
    (hk : ∀ a idx, IntoKink (H y) l a idx → coord (dataOf (H y) a) idx = 0 → ∀ D, HasDerivAt (fun z => coord (dataOf (H z) a) idx) D y → D = 0)
    (h' : Heap ℝ) (e : backward (H y) l = .ok h') (il : List Nat) (hil : InRange (shapeOf (H y) l) il) :
    ∃ g D, gradOf h' x = some g ∧ g.shape = shapeOf (H y) x ∧ HasDerivAt (fun z => coord (dataOf (H z) l) il) D y ∧ Raw.elem? g c = some D := by
  obtain ⟨v, hv, hc, hX⟩ := hH.elems y
  choose V hV using C29_exists (H y) l x (hH.reachable y) (hH.loss y)
  have hval : ∀ z i idx, Feeds (H y) i l → InRange (shapeOf (H y) i) idx →
      V (Function.update (Function.update X c y) c z) i idx = coord (dataOf (H z) i) idx := by
    intro z i idx hi hidx
    have hr2 := C29_replay (H y) (H z) l x (hH.reachable y) (hH.reachable z) (hH.loss y) (hH.replay y z)
    refine (C29_unique (H y) l x (hH.reachable y) (hH.loss y) (Function.update (Function.update X c y) c z) _ _ ⟨?_, hr2.leaf, hr2.add, hr2.neg, hr2.relu,
      hr2.abs, hr2.tanh, hr2.bmm, hr2.sum, hr2.dot⟩ (hV _) i hi idx hidx).symm
    intro idx hidx
    obtain ⟨w, hw, _, hwX⟩ := hH.elems z
    rw [← (hH.replay y z).shape x (Or.inr (hH.depends y)), shapeOf_data hw] at hidx
    rw [Function.update_idem, hw, coord_some, cell_elem (hwX idx hidx)]
  have hfun : ∀ i idx, Feeds (H y) i l → InRange (shapeOf (H y) i) idx →
      (fun z => V (Function.update (Function.update X c y) c z) i idx) = fun z => coord (dataOf (H z) i) idx :=
    fun i idx hi hidx => funext fun z => hval z i idx hi hidx
  have hXc : Function.update X c y c = y := Function.update_self ..
  obtain ⟨g, D, h1, hsh, h2, h3⟩ := C76_partial (H y) h' l x v (hH.reachable y) (hH.loss y) (hH.small y) (hH.top y) e (hH.depends y) hv
    (fun p hp => by rw [hH.fresh y] at hp; cases hp) (Function.update X c y) hX V hV c hc (fun a idx ha h0 D hD => by
      rw [hfun a idx (Or.inr (intoKink_ancestor ha)) ha.choose_spec.choose_spec.2.2.2, hXc] at hD
      exact hk a idx ha h0 D hD) il hil
  rw [hfun l il (Or.inl rfl) hil, hXc] at h2
  refine ⟨g, D, h1, by rw [hsh, shapeOf_data hv], h2, ?_⟩
  rw [h3, hH.fresh y]
  simp [coord]

/-- C76 for all but countably many values of the element: on every line parallel to an axis, `backward` computes the derivative of the loss
except at countably many points. -/
theorem C76_almost (H : ℝ → Heap ℝ) (l x : Nat) (X : List Nat → ℝ) (c : List Nat) (hH : LossFamily H l x X c) :
    ∃ E : Set ℝ, E.Countable ∧ ∀ y, y ∉ E → ∀ h', backward (H y) l = .ok h' → ∀ il, InRange (shapeOf (H y) l) il →
      ∃ g D, gradOf h' x = some g ∧ HasDerivAt (fun z => coord (dataOf (H z) l) il) D y ∧ Raw.elem? g c = some D := by
  refine ⟨⋃ p : Nat × List Nat, {y | (fun z => coord (dataOf (H z) p.1) p.2) y = 0 ∧ ∃ D, HasDerivAt (fun z => coord (dataOf (H z) p.1) p.2) D y ∧ D ≠ 0},
    Set.countable_iUnion fun p => countable_simple_zeros _, fun y hy h' e il hil => ?_⟩
  obtain ⟨g, D, h1, _, h2, h3⟩ := C76_runs_partial H l x X c hH y (fun a idx _ h0 D hD => by
    by_contra hne
    exact hy (Set.mem_iUnion.2 ⟨(a, idx), h0, D, hD, hne⟩)) h' e il hil
  exact ⟨g, D, h1, h2, h3⟩

/-- C76 for almost all elements of a tensor: the elements for which `backward` does not compute the partial derivatives of the loss by all of
them, or for which the loss has none, have Lebesgue measure zero. -/
theorem C76_measure {n : Nat} (H : (Fin n → ℝ) → Heap ℝ) (l x : Nat) (s : List Nat) (hH : LossSpace H l x s) :
    ∀ᵐ u, ∀ h', backward (H u) l = .ok h' → ∀ il, InRange (shapeOf (H u) l) il → ∀ j : Fin n,
      ∃ g D, gradOf h' x = some g ∧ HasDerivAt (fun z => coord (dataOf (H (Function.update u j z)) l) il) D (u j) ∧ g.array[(j : Nat)]? = some D := by
  have hnull : ∀ p : (Nat × List Nat) × Fin n, ∀ᵐ u : Fin n → ℝ, ¬ (Continuous (fun v => coord (dataOf (H v) p.1.1) p.1.2) ∧
      coord (dataOf (H u) p.1.1) p.1.2 = 0 ∧ deriv (fun z => coord (dataOf (H (Function.update u p.2 z)) p.1.1) p.1.2) (u p.2) ≠ 0) := by
    intro p
    by_cases hc : Continuous (fun v => coord (dataOf (H v) p.1.1) p.1.2)
    · simpa only [hc, true_and, MeasureTheory.ae_iff, not_not] using null_simple_zeros p.2 hc
    · simp [hc]
  filter_upwards [MeasureTheory.ae_all_iff.2 hnull] with u hu h' e il hil j
  have hs : ∀ v : Fin n → ℝ, WF (⟨List.ofFn v, s⟩ : Raw ℝ) := fun v => ((hH.loss v).data x _ (Or.inr (hH.depends v)) (hH.elems v)).1
  have hn : s.prod = n := by simpa [WF] using (hs u).symm
  obtain ⟨c, hc, hcj⟩ : ∃ c, InRange s c ∧ rowMajor s c = j := by
    have hlt : (j : Nat) < (allIndices s).length := by rw [allIndices_length, hn]; exact j.isLt
    exact ⟨_, inRange_getElem_allIndices hlt, rowMajor_getElem_allIndices hlt⟩
  let X : List Nat → ℝ := fun idx => ((List.ofFn u)[rowMajor s idx]?).getD 0
  have hF : LossFamily (fun z => H (Function.update u j z)) l x X c := by
    refine ⟨fun z => hH.reachable _, fun z => hH.loss _, fun z => hH.small _, fun z => hH.top _, fun z => hH.depends _, fun y z => hH.replay _ _,
      fun z => ⟨_, hH.elems _, hc, fun idx hidx => ?_⟩, fun z => hH.fresh _⟩
    have hlt : rowMajor s idx < n := hn ▸ rowMajor_lt hidx
    simp only [Raw.elem?, List.getElem?_ofFn, hlt, dif_pos]
    by_cases hi : idx = c
    · subst hi
      have : (⟨rowMajor s idx, hlt⟩ : Fin n) = j := Fin.ext hcj
      rw [this, Function.update_self, Function.update_self]
    · have : (⟨rowMajor s idx, hlt⟩ : Fin n) ≠ j := fun h => hi (rowMajor_inj hidx hc (by rw [hcj, ← h]))
      rw [Function.update_of_ne this, Function.update_of_ne hi]
      simp [X, hlt]
  have hself : Function.update u j (u j) = u := Function.update_eq_self ..
  have hcont : ∀ a idx, Feeds (H u) a l → InRange (shapeOf (H u) a) idx → Continuous fun v => coord (dataOf (H v) a) idx := by
    intro a idx ha hidx
    refine reeval_continuous (hH.reachable u).good (hH.loss u) (Y := fun v => coord (dataOf (H v) x)) (fun idx hidx => ?_)
      (fun v => C29_replay (H u) (H v) l x (hH.reachable u) (hH.reachable v) (hH.loss u) (hH.replay u v)) a ha idx hidx
    rw [shapeOf_data (hH.elems u)] at hidx
    have hlt : rowMajor s idx < n := hn ▸ rowMajor_lt hidx
    refine (continuous_apply (⟨rowMajor s idx, hlt⟩ : Fin n)).congr fun v => ?_
    simp [coord, hH.elems v, Raw.elem?, hlt]
  obtain ⟨g, D, h1, hsh, h2, h3⟩ := C76_runs_partial _ l x X c hF (u j) (fun a idx ha h0 D hD => by
    rw [hself] at ha h0
    have := hu ((a, idx), j)
    rw [hD.deriv] at this
    by_contra hne
    exact this ⟨hcont a idx (Or.inr (intoKink_ancestor ha)) ha.choose_spec.choose_spec.2.2.2, h0, hne⟩) h' (by rw [hself]; exact e) il
    (by rw [hself]; exact hil)
  refine ⟨g, D, h1, h2, ?_⟩
  rw [Raw.elem?, hsh, shapeOf_data (hH.elems _)] at h3
  rw [← hcj]
  exact h3

noncomputable section

/-- C76: the heap of `relu x - relu (-x)` for `x = y`. -/
def C76_witness (y : ℝ) : Heap ℝ :=
  [leafNode ⟨[y], [1]⟩, ⟨⟨[reluFn y], [1]⟩, none, some ⟨[0], .relu⟩⟩, ⟨⟨[-y], [1]⟩, none, some ⟨[0], .neg⟩⟩,
   ⟨⟨[reluFn (-y)], [1]⟩, none, some ⟨[2], .relu⟩⟩, ⟨⟨[-reluFn (-y)], [1]⟩, none, some ⟨[3], .neg⟩⟩,
   ⟨⟨[reluFn y + -reluFn (-y)], [1]⟩, none, some ⟨[1, 4], .add⟩⟩]

theorem C76_witness_reachable (y : ℝ) : Reachable (C76_witness y) := ⟨[.new [y] [1], .relu 0, .neg 0, .relu 2, .sub 1 3], rfl⟩

theorem C76_witness_cases (i : Nat) : i < 6 ∨ ∀ y, (C76_witness y)[i]? = none := by
  rcases Nat.lt_or_ge i 6 with h | h
  · exact Or.inl h
  · exact Or.inr fun y => List.getElem?_eq_none h

theorem C76_witness_input (y : ℝ) : IsInput (C76_witness y) 0 1 ∧ IsInput (C76_witness y) 0 2 ∧ IsInput (C76_witness y) 2 3 ∧ IsInput (C76_witness y) 3 4 ∧
    IsInput (C76_witness y) 1 5 ∧ IsInput (C76_witness y) 4 5 :=
  ⟨⟨_, _, rfl, rfl, by simp⟩, ⟨_, _, rfl, rfl, by simp⟩, ⟨_, _, rfl, rfl, by simp⟩, ⟨_, _, rfl, rfl, by simp⟩, ⟨_, _, rfl, rfl, by simp⟩,
    ⟨_, _, rfl, rfl, by simp⟩⟩

/-- C76: the witness meets the conditions. -/
theorem C76_witness_family : LossFamily C76_witness 5 0 (fun _ => 0) [0] := by
  refine ⟨C76_witness_reachable, fun y => ⟨⟨_, rfl, by simp⟩, rfl, ?_, ?_, ?_, fun _ _ hd => by cases hd⟩, ?_, ?_, ?_, ?_, ?_, fun y => rfl⟩
  · intro i v _ hv
    rcases C76_witness_cases i with hi | hi
    · interval_cases i <;> cases hv <;> simp [WF, Pos, leafNode]
    · simp [dataOf, hi] at hv
  · intro i d ha hd
    have hi := ancestor_lt (C76_witness_reachable y).good ha
    interval_cases i <;> cases hd <;> simp
  · intro i a b _ hh
    rcases C76_witness_cases i with hi | hi
    · interval_cases i <;> cases hh
    · simp [historyOf, hi] at hh
  · intro y i a b _ hh
    rcases C76_witness_cases i with hi | hi
    · interval_cases i <;> cases hh
    · simp [historyOf, hi] at hh
  · intro y
    refine C59_last _ _ _ (C76_witness_reachable y) fun i d ha hd => ?_
    have hi := ancestor_lt (C76_witness_reachable y).good ha
    interval_cases i <;> cases hd <;> simp
  · intro y
    exact .head (C76_witness_input y).1 (.single (C76_witness_input y).2.2.2.2.1)
  · intro y z
    refine ⟨?_, ?_, ?_, ?_⟩
    · intro i _
      rcases C76_witness_cases i with hi | hi
      · interval_cases i <;> rfl
      · simp [shapeOf, dataOf, hi]
    · intro i _ _
      rcases C76_witness_cases i with hi | hi
      · interval_cases i <;> rfl
      · simp [historyOf, hi]
    · intro i _ hx hh
      rcases C76_witness_cases i with hi | hi
      · interval_cases i <;> first | exact absurd rfl hx | rfl | cases hh
      · simp [historyOf, hi] at hh
    · intro i v _ hv
      rcases C76_witness_cases i with hi | hi
      · interval_cases i <;> cases hv <;> simp [WF, leafNode]
      · simp [dataOf, hi] at hv
  · intro y
    refine ⟨⟨[y], [1]⟩, rfl, inRange1.2 (by simp), fun idx hidx => ?_⟩
    obtain ⟨i, rfl⟩ : ∃ i, idx = [i] := List.length_eq_one_iff.1 hidx.length_eq.symm
    obtain rfl : i = 0 := by have := inRange1.1 hidx; omega
    simp [Raw.elem?, rowMajor]

/-- test: the same family with all elements of `x` as variables -/
example : LossSpace (n := 1) (fun u => C76_witness (u 0)) 5 0 [1] :=
  have h := C76_witness_family
  ⟨fun _ => h.reachable _, fun _ => h.loss _, fun _ => h.small _, fun _ => h.top _, fun _ => h.depends _, fun _ _ => h.replay _ _,
    fun u => by simp [C76_witness, dataOf, leafNode], fun _ => h.fresh _⟩

/-- C76: the heap of `x + relu c` for `x = y` and a constant `c = 0`. -/
def C76_constant (y : ℝ) : Heap ℝ :=
  [leafNode ⟨[y], [1]⟩, leafNode ⟨[0], [1]⟩, ⟨⟨[reluFn 0], [1]⟩, none, some ⟨[1], .relu⟩⟩, ⟨⟨[y + reluFn 0], [1]⟩, none, some ⟨[0, 2], .add⟩⟩]

theorem C76_constant_cases (i : Nat) : i < 4 ∨ ∀ y, (C76_constant y)[i]? = none := by
  rcases Nat.lt_or_ge i 4 with h | h
  · exact Or.inl h
  · exact Or.inr fun y => List.getElem?_eq_none h

/-- test: the hypotheses of `C76_runs_partial` with a zero that goes into `relu` -/
example : LossFamily C76_constant 3 0 (fun _ => 0) [0] ∧ IntoKink (C76_constant 5) 3 1 [0] ∧ coord (dataOf (C76_constant 5) 1) [0] = 0 ∧
    (∀ a idx, IntoKink (C76_constant 5) 3 a idx → coord (dataOf (C76_constant 5) a) idx = 0 →
      ∀ D, HasDerivAt (fun z => coord (dataOf (C76_constant z) a) idx) D 5 → D = 0) := by
  have hr : ∀ y, Reachable (C76_constant y) := fun y => ⟨[.new [y] [1], .new [0] [1], .relu 1, .add 0 2], rfl⟩
  have i0 : ∀ y, IsInput (C76_constant y) 0 3 := fun y => ⟨_, _, rfl, rfl, by simp⟩
  have i2 : ∀ y, IsInput (C76_constant y) 2 3 := fun y => ⟨_, _, rfl, rfl, by simp⟩
  refine ⟨⟨hr, fun y => ⟨⟨_, rfl, by simp⟩, rfl, ?_, ?_, ?_, fun _ _ hd => by cases hd⟩, ?_, ?_, ?_, ?_, ?_, fun y => rfl⟩, ?_, ?_, ?_⟩
  · intro i v _ hv
    rcases C76_constant_cases i with hi | hi
    · interval_cases i <;> cases hv <;> simp [WF, Pos, leafNode]
    · simp [dataOf, hi] at hv
  · intro i d ha hd
    have hi := ancestor_lt (hr y).good ha
    interval_cases i <;> cases hd <;> simp
  · intro i a b _ hh
    rcases C76_constant_cases i with hi | hi
    · interval_cases i <;> cases hh
    · simp [historyOf, hi] at hh
  · intro y i a b _ hh
    rcases C76_constant_cases i with hi | hi
    · interval_cases i <;> cases hh
    · simp [historyOf, hi] at hh
  · intro y
    refine C59_last _ _ _ (hr y) fun i d ha hd => ?_
    have hi := ancestor_lt (hr y).good ha
    interval_cases i <;> cases hd <;> simp
  · exact fun y => .single (i0 y)
  · intro y z
    refine ⟨?_, ?_, ?_, ?_⟩
    · intro i _
      rcases C76_constant_cases i with hi | hi
      · interval_cases i <;> rfl
      · simp [shapeOf, dataOf, hi]
    · intro i _ _
      rcases C76_constant_cases i with hi | hi
      · interval_cases i <;> rfl
      · simp [historyOf, hi]
    · intro i _ hx hh
      rcases C76_constant_cases i with hi | hi
      · interval_cases i <;> first | exact absurd rfl hx | rfl | cases hh
      · simp [historyOf, hi] at hh
    · intro i v _ hv
      rcases C76_constant_cases i with hi | hi
      · interval_cases i <;> cases hv <;> simp [WF, leafNode]
      · simp [dataOf, hi] at hv
  · intro y
    refine ⟨⟨[y], [1]⟩, rfl, inRange1.2 (by simp), fun idx hidx => ?_⟩
    obtain ⟨i, rfl⟩ : ∃ i, idx = [i] := List.length_eq_one_iff.1 hidx.length_eq.symm
    obtain rfl : i = 0 := by have := inRange1.1 hidx; omega
    simp [Raw.elem?, rowMajor]
  · exact ⟨2, .relu, Or.inr (.single (i2 5)), rfl, Or.inl rfl, inRange1.2 (by simp)⟩
  · simp [coord, dataOf, C76_constant, leafNode, Raw.elem?, rowMajor]
  · rintro a idx ⟨i, k, _, hh, hk, _⟩ _ D hD
    rcases C76_constant_cases i with hi | hi
    · interval_cases i <;> cases hh
      exact hD.unique (hasDerivAt_const (5 : ℝ) (coord (dataOf (C76_constant 5) 1) idx))
    · simp [historyOf, hi] at hh

/-- C76 is false: `relu x - relu (-x)` is `x`, but `backward` computes the gradient 2 for `x = 0`. -/
theorem C76_false : ¬ C76_statement := by
  intro hs
  have hF := C76_witness_family
  have hr := C76_witness_reachable 0
  have hin : InRange [1] [0] := inRange1.2 (by simp)
  obtain ⟨h', e⟩ := C29_success _ 5 hr (hF.loss 0) (by
    intro x v p hx hv hp
    have := ancestor_lt hr.good hx
    interval_cases x <;> cases hp)
  obtain ⟨g, h1, _, _, h2⟩ := C59_partial _ h' 5 0 ⟨[0], [1]⟩ hr (hF.loss 0) (hF.top 0) e (hF.depends 0) rfl (fun p hp => by cases hp)
  obtain ⟨τ, hτ⟩ := C29_tangents_exist (C76_witness 0) 5 0 [0] hr
  have h3 := h2 [0] hin [0] hin τ hτ
  obtain ⟨i1, i2, i3, i4, i5, i6⟩ := C76_witness_input 0
  have t0 : τ 0 [0] = 1 := (hτ.self [0] hin).trans (if_pos rfl)
  have t1 : τ 1 [0] = τ 0 [0] := by
    rw [hτ.relu 1 0 (Or.inr (.single i5)) (by decide) rfl [0] hin]
    simp [coord, dataOf, C76_witness, leafNode, Raw.elem?, rowMajor]
  have t2 : τ 2 [0] = -τ 0 [0] := hτ.neg 2 0 (Or.inr (.head i3 (.head i4 (.single i6)))) (by decide) rfl [0] hin
  have t3 : τ 3 [0] = τ 2 [0] := by
    rw [hτ.relu 3 2 (Or.inr (.head i4 (.single i6))) (by decide) rfl [0] hin]
    simp [coord, dataOf, C76_witness, leafNode, Raw.elem?, rowMajor]
  have t4 : τ 4 [0] = -τ 3 [0] := hτ.neg 4 3 (Or.inr (.single i6)) (by decide) rfl [0] hin
  have t5 : τ 5 [0] = τ 1 [0] + τ 4 [0] := hτ.add 5 1 4 (Or.inl rfl) (by decide) rfl [0] hin
  have h4 : HasDerivAt (fun z => coord (dataOf (C76_witness z) 5) [0]) 1 0 := by
    have : (fun z => coord (dataOf (C76_witness z) 5) [0]) = fun z => z := by
      funext z
      have h0 : rowMajor [1] [0] = 0 := rfl
      simp only [coord, dataOf, C76_witness, Raw.elem?, reluFn]
      rcases lt_trichotomy z 0 with hz | rfl | hz
      · simp [hz, not_lt.2 (neg_nonneg.2 hz.le), h0]
      · simp [h0]
      · simp [hz, not_lt.2 hz.le, h0]
    rw [this]
    exact hasDerivAt_id' 0
  have h5 := hs C76_witness 5 0 _ [0] [0] 0 1 h' g hF hin h4 e h1
  rw [h3, t5, t4, t3, t2, t1, t0] at h5
  simp [coord, gradOf, C76_witness, leafNode] at h5

end

end RL
