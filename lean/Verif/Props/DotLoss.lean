import Verif.Props.Gradient

/-!
# The gradient of a dot product of computed rows (C41)
-/

namespace RL

open Spec

/-- C41, for computed operands: if the operands of a final `dot` are leaves or matrices with one row (`RealLoss.rows`), `backward`
succeeds, and adds to the gradient of every tensor `x` they depend on the derivative of the dot product. `V Y` are the elements that all
tensors would have had if `x` had had the elements `Y`. Missing: larger matrices in `bmm` and `sum`s inside, as in `C29_partial`; computed
operands of other shapes and `dot` inside a larger loss, for which it is false (`C41_shapes`, `C41_false`). -/
theorem C41_rows_partial (h : Heap ℝ) (l a b : Nat) (hr : Reachable h) (hl : DiffLoss h l) (hd : historyOf h l = some (some ⟨[a, b], .dot⟩))
    (hfit : ∀ x v p, Ancestor h x l → dataOf h x = some v → gradOf h x = some p → WF p ∧ p.shape = v.shape) :
    ∃ h', backward h l = .ok h' ∧ ∀ x v, Ancestor h x l → SmallFor h l x → SumsOnTop h l x → dataOf h x = some v → ∀ X : List Nat → ℝ,
      (∀ idx, InRange v.shape idx → Raw.elem? v idx = some (X idx)) → ∀ V : (List Nat → ℝ) → Nat → List Nat → ℝ, (∀ Y, Reeval h l x Y (V Y)) →
      ∃ g, gradOf h' x = some g ∧ g.shape = v.shape ∧ WF g ∧ ∀ c, InRange v.shape c →
        ∃ D, HasDerivAt (fun y => ((allIndices (shapeOf h a)).map fun idx =>
            V (Function.update X c y) a idx * V (Function.update X c y) b idx).sum) D (X c) ∧
          Raw.elem? g c = some (coord (gradOf h x) c + D) := by
  obtain ⟨h', e⟩ := C29_success h l hr hl.toRealLoss fun x v p hx hv hp => ⟨(hfit x v p hx hv hp).1, Or.inl (hfit x v p hx hv hp).2⟩
  refine ⟨h', e, fun x v hx hsm htop hv X hX V hV => ?_⟩
  obtain ⟨g, h1, h2, h3, h4⟩ := C29_partial h h' l x v hr hl hsm htop e hx hv (fun p hp => (hfit x v p hx hv hp).symm) X hX V hV
  refine ⟨g, h1, h2, h3, fun c hc => ?_⟩
  have hs : shapeOf h l = [1] := by
    cases nodeForm hr.good hl.toRealLoss (Or.inl rfl : Feeds h l l) with
    | dot _ hh _ _ hv _ _ _ _ _ hsh => exact (shapeOf_data hv).trans hsh
    | leaf hh => rw [hd] at hh; cases hh
    | add hh => rw [hd] at hh; cases hh
    | unary hk hh => rw [hd] at hh; cases hh
    | bmm _ hh => rw [hd] at hh; cases hh
    | sum hh => rw [hd] at hh; cases hh
  obtain ⟨D, h5, h6⟩ := h4 c hc [0] (by rw [hs]; exact .cons (by simp) .nil)
  refine ⟨D, ?_, h6⟩
  have hxl : l ≠ x := fun h0 => absurd (ancestor_lt hr.good hx) (by rw [h0]; exact lt_irrefl _)
  have : (fun y => V (Function.update X c y) l [0]) = fun y => ((allIndices (shapeOf h a)).map fun idx =>
      V (Function.update X c y) a idx * V (Function.update X c y) b idx).sum := by
    funext y
    exact (hV _).dot l a b (Or.inl rfl) hxl hd
  rwa [this] at h5

noncomputable section

/-- C41, test: the heap of `dot (-A) B`. -/
def C41_example : Heap ℝ :=
  [leafNode ⟨[1, 2], [1, 2]⟩, leafNode ⟨[3, 4], [1, 2]⟩, ⟨⟨[-1, -2], [1, 2]⟩, none, some ⟨[0], .neg⟩⟩,
   ⟨⟨[0 + -1 * 3 + -2 * 4], [1]⟩, none, some ⟨[2, 1], .dot⟩⟩]

/-- C41, test: the hypotheses of `C41_rows_partial` are satisfied. -/
example : Reachable C41_example ∧ DiffLoss C41_example 3 ∧ historyOf C41_example 3 = some (some ⟨[2, 1], .dot⟩) ∧
    (∀ x v p, Ancestor C41_example x 3 → dataOf C41_example x = some v → gradOf C41_example x = some p → WF p ∧ p.shape = v.shape) ∧
    Ancestor C41_example 0 3 ∧ SmallFor C41_example 3 0 ∧ SumsOnTop C41_example 3 0 := by
  have hr : Reachable C41_example := ⟨[.new [1, 2] [1, 2], .new [3, 4] [1, 2], .neg 0, .dot 2 1], rfl⟩
  have hc : ∀ i, i < 4 ∨ C41_example[i]? = none := fun i => by
    rcases Nat.lt_or_ge i 4 with h | h
    · exact Or.inl h
    · exact Or.inr (List.getElem?_eq_none h)
  have i0 : IsInput C41_example 0 2 := ⟨_, _, rfl, rfl, by simp⟩
  have i2 : IsInput C41_example 2 3 := ⟨_, _, rfl, rfl, by simp⟩
  refine ⟨hr, ⟨⟨⟨_, rfl, by simp⟩, rfl, ?_, ?_, ?_, ?_⟩, ?_⟩, rfl, ?_, .head i0 (.single i2), ?_, ?_⟩
  · intro i v _ hv
    rcases hc i with hi | hi
    · interval_cases i <;> cases hv <;> simp [WF, Pos, leafNode]
    · simp [dataOf, hi] at hv
  · intro i d ha hd
    have hi := ancestor_lt hr.good ha
    interval_cases i <;> cases hd
    simp
  · intro i a b _ hh
    rcases hc i with hi | hi
    · interval_cases i <;> cases hh
    · simp [historyOf, hi] at hh
  · intro a b hh i hi
    cases hh
    rcases hi with rfl | rfl
    · exact Or.inr ⟨2, rfl⟩
    · exact Or.inl rfl
  · intro i a k v _ hh hk hv
    rcases hc i with hi | hi
    · interval_cases i <;> cases hh
      simp at hk
    · simp [historyOf, hi] at hh
  · intro x v p hx hv hp
    have hi := ancestor_lt hr.good hx
    interval_cases x <;> cases hp
  · intro i a b _ hh
    rcases hc i with hi | hi
    · interval_cases i <;> cases hh
    · simp [historyOf, hi] at hh
  · refine C59_last _ _ _ hr fun i d ha hd => ?_
    have hi := ancestor_lt hr.good ha
    interval_cases i <;> cases hd
    simp

end

end RL
