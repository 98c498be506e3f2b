import Verif.Lemmas.Tangent

/-! Helper lemmas: re-evaluation exists, is unique, and is what a second run computes -/

namespace RL

open Spec

theorem coord_some (v : Raw ℝ) (idx : List Nat) : coord (some v) idx = cell v idx := by
  simp [coord, cell, Raw.elem?, List.getD_eq_getElem?_getD]

theorem reeval_unique {h : Heap ℝ} {l x : Nat} (hg : h.Good) (hl : RealLoss h l) {X : List Nat → ℝ} {V V' : Nat → List Nat → ℝ}
    (hV : Reeval h l x X V) (hV' : Reeval h l x X V') :
    ∀ i, Feeds h i l → ∀ idx, InRange (shapeOf h i) idx → V i idx = V' i idx := by
  intro i
  induction i using Nat.strong_induction_on with
  | _ i ih =>
  intro hi idx hidx
  by_cases hx : i = x
  · subst hx
    rw [hV.self idx hidx, hV'.self idx hidx]
  cases nodeForm hg hl hi with
  | leaf hh =>
    have hh' := hh
    simp only [historyOf, Option.map_eq_some_iff] at hh'
    obtain ⟨n, hn, _⟩ := hh'
    have h1 := hV.leaf i _ hi hx (dataOf_node hn) hh idx (shapeOf_eq hn ▸ hidx)
    rw [hV'.leaf i _ hi hx (dataOf_node hn) hh idx (shapeOf_eq hn ▸ hidx)] at h1
    exact (Option.some.inj h1).symm
  | @add a b t u v hh ht hu hv hai hbi fa fb hc hsh _ =>
    obtain ⟨_, pt⟩ := hl.data a t (Or.inr fa) ht
    obtain ⟨_, pu⟩ := hl.data b u (Or.inr fb) hu
    have hidx' := hidx
    rw [shapeOf_data hv, hsh] at hidx'
    obtain ⟨h1, h2⟩ := bproj_mem pt pu hc hidx'
    rw [← shapeOf_data ht] at h1
    rw [← shapeOf_data hu] at h2
    rw [hV.add i a b hi hx hh idx hidx, hV'.add i a b hi hx hh idx hidx, ih a hai (Or.inr fa) _ h1, ih b hbi (Or.inr fb) _ h2]
  | @unary a k t v hk hh ht hv hai fa _ hsh _ =>
    have h1 : InRange (shapeOf h a) idx := by rw [shapeOf_data ht, ← hsh, ← shapeOf_data hv]; exact hidx
    rw [hV.unary hk hi hx hh hidx, hV'.unary hk hi hx hh hidx, ih a hai (Or.inr fa) idx h1]
  | @bmm a b m k n t u v _ hh ht hu hv hai hbi fa fb hts hus hsh _ =>
    rw [shapeOf_data hv, hsh] at hidx
    obtain ⟨r, c, rfl⟩ : ∃ r c, idx = [r, c] := List.length_eq_two.1 hidx.length_eq.symm
    obtain ⟨hr, hc⟩ := inRange2.1 hidx
    have sa := (shapeOf_data ht).trans hts
    have sb := (shapeOf_data hu).trans hus
    rw [hV.bmm i a b hi hx hh m k n sa sb r hr c hc, hV'.bmm i a b hi hx hh m k n sa sb r hr c hc]
    refine Finset.sum_congr rfl fun j hj => ?_
    rw [Finset.mem_range] at hj
    rw [ih a hai (Or.inr fa) _ (by rw [sa]; exact inRange2.2 ⟨hr, hj⟩), ih b hbi (Or.inr fb) _ (by rw [sb]; exact inRange2.2 ⟨hj, hc⟩)]
  | @sum a t v hh ht hv hai fa hsh _ =>
    rw [shapeOf_data hv, hsh] at hidx
    obtain rfl : idx = [] := List.length_eq_zero_iff.1 hidx.length_eq.symm
    rw [hV.sum i a hi hx hh, hV'.sum i a hi hx hh]
    exact allIndices_sum_congr fun idx hidx => ih a hai (Or.inr fa) idx hidx
  | @dot a b t u v _ hh ht hu hv hai hbi fa fb hts hsh _ =>
    rw [shapeOf_data hv, hsh] at hidx
    obtain rfl := inRange_one hidx
    rw [hV.dot i a b hi hx hh, hV'.dot i a b hi hx hh]
    refine allIndices_sum_congr fun idx hidx => ?_
    rw [ih a hai (Or.inr fa) idx hidx, ih b hbi (Or.inr fb) idx (by rw [shapeOf_data hu, ← hts, ← shapeOf_data ht]; exact hidx)]

/-- the elements of a second run -/
theorem replay_reeval {h h2 : Heap ℝ} {l x : Nat} (hg : h.Good) (hg2 : h2.Good) (hl : RealLoss h l) (hr : Replay h h2 l x) :
    Reeval h l x (coord (dataOf h2 x)) (fun i => coord (dataOf h2 i)) := by
  have inp : ∀ {i : Nat} {d : Deriv}, Feeds h i l → historyOf h i = some (some d) → ∀ a ∈ d.inputs, Feeds h a l := by
    intro i d hi hh a ha
    simp only [historyOf, Option.map_eq_some_iff] at hh
    obtain ⟨nd, hnd, hd⟩ := hh
    exact Or.inr (hi.input hnd hd ha)
  have shp : ∀ {i : Nat} {n : Node ℝ}, Feeds h i l → h2[i]? = some n → shapeOf h i = n.val.shape := by
    intro i n hi hn
    rw [← hr.shape i hi, shapeOf_eq hn]
  have wf : ∀ {i : Nat} {n : Node ℝ}, Feeds h i l → h2[i]? = some n → WF n.val := fun hi hn => hr.data _ _ hi (dataOf_node hn)
  have pos : ∀ {i : Nat}, Feeds h i l → Pos (shapeOf h i) := by
    intro i hi
    cases hd : dataOf h i with
    | none => simp [shapeOf, hd, Pos]
    | some v => rw [shapeOf_data hd]; exact (hl.data i v hi hd).2
  have bin : ∀ {i : Nat} {a b : Nat} {k : JvpKind}, Feeds h i l → i ≠ x → historyOf h i = some (some ⟨[a, b], k⟩) →
      ∃ n na nb, h2[i]? = some n ∧ h2[a]? = some na ∧ h2[b]? = some nb ∧ fwd k [na.val, nb.val] = .ok n.val := by
    intro i a b k hi hx hh
    rw [← hr.history i hi hx] at hh
    obtain ⟨n, hn, _, ⟨a', b', na, nb, hab, _, _, _, ha, hb, e⟩ | ⟨a', na, hab, _⟩⟩ := fwd_inputs hg2 hh
    · simp only [List.cons.injEq, and_true] at hab
      obtain ⟨rfl, rfl⟩ := hab
      exact ⟨n, na, nb, hn, ha, hb, e⟩
    · simp at hab
  have un : ∀ {i : Nat} {a : Nat} {k : JvpKind}, Feeds h i l → i ≠ x → historyOf h i = some (some ⟨[a], k⟩) →
      ∃ n na, h2[i]? = some n ∧ h2[a]? = some na ∧ fwd k [na.val] = .ok n.val := by
    intro i a k hi hx hh
    rw [← hr.history i hi hx] at hh
    obtain ⟨n, hn, _, ⟨a', b', na, nb, hab, _⟩ | ⟨a', na, hab, _, _, ha, e⟩⟩ := fwd_inputs hg2 hh
    · simp at hab
    · simp only [List.cons.injEq, and_true] at hab
      subst hab
      exact ⟨n, na, hn, ha, e⟩
  have unary : ∀ {i : Nat} {a : Nat} {k : JvpKind}, isUnary k → Feeds h i l → i ≠ x → historyOf h i = some (some ⟨[a], k⟩) →
      ∀ idx, InRange (shapeOf h i) idx → coord (dataOf h2 i) idx = uval k (coord (dataOf h2 a) idx) := by
    intro i a k hk hi hx hh idx hidx
    obtain ⟨n, na, hn, ha, e⟩ := un hi hx hh
    obtain ⟨_, h1⟩ := fwd_unary_cells hk (wf (inp hi hh a (by simp)) ha) e
    rw [dataOf_node hn, dataOf_node ha, coord_some, coord_some, h1 idx (shp hi hn ▸ hidx)]
  refine ⟨fun _ _ => rfl, ?_, ?_, ?_, ?_, ?_, ?_, ?_, ?_, ?_⟩
  · intro i v hi hx hv hh idx hidx
    have hv2 := (hr.leaf i hi hx hh).trans hv
    rw [hv2, coord_some]
    exact elem_cell (hl.data i v hi hv).1 hidx
  · intro i a b hi hx hh idx hidx
    obtain ⟨n, na, nb, hn, ha, hb, e⟩ := bin hi hx hh
    have fa := inp hi hh a (by simp)
    have fb := inp hi hh b (by simp)
    obtain ⟨_, _, h1⟩ := fwd_add_cells (wf fa ha) (wf fb hb) (shp fa ha ▸ pos fa) (shp fb hb ▸ pos fb) e
    rw [dataOf_node hn, dataOf_node ha, dataOf_node hb, coord_some, coord_some, coord_some, h1 idx (shp hi hn ▸ hidx), shp fa ha, shp fb hb]
  · exact fun i a hi hx hh idx hidx => unary (k := .neg) trivial hi hx hh idx hidx
  · exact fun i a hi hx hh idx hidx => unary (k := .relu) trivial hi hx hh idx hidx
  · exact fun i a hi hx hh idx hidx => unary (k := .abs) trivial hi hx hh idx hidx
  · exact fun i a hi hx hh idx hidx => unary (k := .tanh) trivial hi hx hh idx hidx
  · intro i a b hi hx hh m k n' sa sb r hr' c hc
    obtain ⟨n, na, nb, hn, ha, hb, e⟩ := bin hi hx hh
    have fa := inp hi hh a (by simp)
    have fb := inp hi hh b (by simp)
    obtain ⟨_, h1⟩ := fwd_bmm_cells (wf fa ha) (wf fb hb) ((shp fa ha).symm.trans sa) ((shp fb hb).symm.trans sb) e
    rw [dataOf_node hn, dataOf_node ha, dataOf_node hb]
    simp only [coord_some]
    exact h1 r hr' c hc
  · intro i a hi hx hh
    obtain ⟨n, na, hn, ha, e⟩ := un hi hx hh
    have fa := inp hi hh a (by simp)
    obtain ⟨_, h1⟩ := fwd_sum_cells (wf fa ha) e
    rw [dataOf_node hn, dataOf_node ha, coord_some, h1, shp fa ha]
    exact allIndices_sum_congr fun idx _ => (coord_some _ _).symm
  · intro i a b hi hx hh
    obtain ⟨n, na, nb, hn, ha, hb, e⟩ := bin hi hx hh
    have fa := inp hi hh a (by simp)
    have fb := inp hi hh b (by simp)
    obtain ⟨_, _, h1⟩ := fwd_dot_cells (wf fa ha) (wf fb hb) e
    rw [dataOf_node hn, dataOf_node ha, dataOf_node hb, coord_some, h1, shp fa ha]
    simp only [coord_some]

/-- evaluate the recorded operations -/
noncomputable def reval (h : Heap ℝ) (x : Nat) (X : List Nat → ℝ) : Nat → Nat → List Nat → ℝ
  | 0, _, _ => 0
  | fuel + 1, i, idx =>
    if i = x then X idx else
    match historyOf h i with
    | some (some ⟨[a, b], .add⟩) => reval h x X fuel a (bproj (shapeOf h a) idx) + reval h x X fuel b (bproj (shapeOf h b) idx)
    | some (some ⟨[a], .neg⟩) => -reval h x X fuel a idx
    | some (some ⟨[a], .relu⟩) => max (reval h x X fuel a idx) 0
    | some (some ⟨[a], .abs⟩) => |reval h x X fuel a idx|
    | some (some ⟨[a], .tanh⟩) => Real.tanh (reval h x X fuel a idx)
    | some (some ⟨[a, b], .bmm⟩) => ∑ j ∈ Finset.range ((shapeOf h a).getD 1 0),
        reval h x X fuel a [idx.getD 0 0, j] * reval h x X fuel b [j, idx.getD 1 0]
    | some (some ⟨[a], .sum⟩) => ((allIndices (shapeOf h a)).map (reval h x X fuel a)).sum
    | some (some ⟨[a, b], .dot⟩) => ((allIndices (shapeOf h a)).map fun idx => reval h x X fuel a idx * reval h x X fuel b idx).sum
    | _ => coord (dataOf h i) idx

theorem reval_fuel {h : Heap ℝ} (hg : h.Good) (x : Nat) (X : List Nat → ℝ) : ∀ (f f' i : Nat), i < f → i < f' →
    reval h x X f i = reval h x X f' i := by
  intro f
  induction f with
  | zero => intro f' i hi; omega
  | succ f ih =>
    intro f' i hi hi'
    obtain ⟨f', rfl⟩ : ∃ k, f' = k + 1 := ⟨f' - 1, by omega⟩
    funext idx
    have old : ∀ {d : Deriv}, historyOf h i = some (some d) → ∀ a ∈ d.inputs, reval h x X f a = reval h x X f' a := by
      intro d hh a ha
      simp only [historyOf, Option.map_eq_some_iff] at hh
      obtain ⟨nd, hnd, hd⟩ := hh
      have := (hg i nd hnd).older d hd a ha
      exact ih f' a (by omega) (by omega)
    unfold reval
    by_cases hx : i = x
    · simp [hx]
    · simp only [hx, if_false]
      split
      · next hh => rw [old hh _ (by simp), old hh _ (by simp)]
      · next hh => rw [old hh _ (by simp)]
      · next hh => rw [old hh _ (by simp)]
      · next hh => rw [old hh _ (by simp)]
      · next hh => rw [old hh _ (by simp)]
      · next a b hh => rw [old hh a (by simp), old hh b (by simp)]
      · next hh => rw [old hh _ (by simp)]
      · next a b hh => rw [old hh a (by simp), old hh b (by simp)]
      · rfl

theorem reeval_exists {h : Heap ℝ} {l x : Nat} (hg : h.Good) (hl : RealLoss h l) (X : List Nat → ℝ) : ∃ V, Reeval h l x X V := by
  refine ⟨fun i => reval h x X (i + 1) i, ?_⟩
  have old : ∀ {i : Nat} {d : Deriv}, historyOf h i = some (some d) → ∀ a ∈ d.inputs, reval h x X i a = reval h x X (a + 1) a := by
    intro i d hh a ha
    simp only [historyOf, Option.map_eq_some_iff] at hh
    obtain ⟨nd, hnd, hd⟩ := hh
    exact reval_fuel hg x X _ _ _ ((hg i nd hnd).older d hd a ha) (by omega)
  refine ⟨?_, ?_, ?_, ?_, ?_, ?_, ?_, ?_, ?_, ?_⟩
  · intro idx _
    simp [reval]
  · intro i v hi hx hv hh idx hidx
    simp only [reval, hx, if_false, hh, hv, coord_some]
    exact elem_cell (hl.data i v hi hv).1 hidx
  · intro i a b _ hx hh idx _
    rw [reval]
    simp only [hx, if_false, hh]
    rw [old hh a (by simp), old hh b (by simp)]
  · intro i a _ hx hh idx _
    rw [reval]
    simp only [hx, if_false, hh]
    rw [old hh a (by simp)]
  · intro i a _ hx hh idx _
    rw [reval]
    simp only [hx, if_false, hh]
    rw [old hh a (by simp)]
  · intro i a _ hx hh idx _
    rw [reval]
    simp only [hx, if_false, hh]
    rw [old hh a (by simp)]
  · intro i a _ hx hh idx _
    rw [reval]
    simp only [hx, if_false, hh]
    rw [old hh a (by simp)]
  · intro i a b _ hx hh m k n sa _ r _ c _
    rw [reval]
    simp only [hx, if_false, hh, sa]
    rw [old hh a (by simp), old hh b (by simp)]
    rfl
  · intro i a _ hx hh
    rw [reval]
    simp only [hx, if_false, hh]
    rw [old hh a (by simp)]
  · intro i a b _ hx hh
    rw [reval]
    simp only [hx, if_false, hh]
    rw [old hh a (by simp), old hh b (by simp)]

end RL
