import Verif.SpecKink
import Verif.Props.Gradient
import Mathlib.Topology.Order.LeftRightNhds
import Mathlib.Analysis.Calculus.Deriv.Inverse
import Mathlib.Analysis.Calculus.FDeriv.Measurable
import Mathlib.MeasureTheory.Constructions.Pi
import Mathlib.MeasureTheory.Measure.Lebesgue.Basic

/-!
# Gradients where `relu` and `abs` have no derivative: lemmas
-/

namespace RL

open Spec MeasureTheory

/-- zeros at which a function has a derivative other than zero are isolated, so there are countably many -/
theorem countable_simple_zeros (f : ℝ → ℝ) : {y | f y = 0 ∧ ∃ D, HasDerivAt f D y ∧ D ≠ 0}.Countable := by
  refine (countable_setOfPred_isolated_right_within (s := {y | f y = 0})).mono ?_
  rintro y ⟨h0, D, hD, hne⟩
  refine ⟨h0, ?_⟩
  have h1 : ∀ᶠ z in nhdsWithin y {y}ᶜ, f z ≠ 0 := hD.eventually_ne hne
  rw [← Filter.empty_mem_iff_bot, mem_nhdsWithin]
  rw [eventually_nhdsWithin_iff, eventually_nhds_iff] at h1
  obtain ⟨U, hU, ho, hy⟩ := h1
  refine ⟨U, ho, hy, ?_⟩
  rintro z ⟨hz, hz0, hzy⟩
  exact hU z hz (ne_of_gt hzy) hz0

/-- a measurable set that meets every line parallel to one of the axes in countably many points has measure zero -/
theorem null_of_lines {n : Nat} (j : Fin n) {B : Set (Fin n → ℝ)} (hB : MeasurableSet B)
    (hc : ∀ u, {z | Function.update u j z ∈ B}.Countable) : volume B = 0 := by
  obtain ⟨m, rfl⟩ : ∃ m, n = m + 1 := ⟨n - 1, by have := j.isLt; omega⟩
  have hp := volume_preserving_piFinSuccAbove (fun _ : Fin (m + 1) => ℝ) j
  rw [← (hp.symm _).measure_preimage hB.nullMeasurableSet]
  have hm : MeasurableSet ((MeasurableEquiv.piFinSuccAbove (fun _ => ℝ) j).symm ⁻¹' B) := (MeasurableEquiv.measurable _) hB
  rw [show (volume : Measure (ℝ × (Fin m → ℝ))) = (volume : Measure ℝ).prod volume from rfl, Measure.prod_apply_symm hm]
  refine (lintegral_congr fun y => ?_).trans lintegral_zero
  refine Set.Countable.measure_zero ((hc (j.insertNth (0 : ℝ) y)).mono ?_) _
  intro z hz
  simpa [MeasurableEquiv.piFinSuccAbove, Fin.insertNthEquiv] using hz

/-- a continuous function of several variables has, along every axis, almost everywhere no zero with a derivative other than zero -/
theorem null_simple_zeros {n : Nat} (j : Fin n) {w : (Fin n → ℝ) → ℝ} (hw : Continuous w) :
    volume {u | w u = 0 ∧ deriv (fun z => w (Function.update u j z)) (u j) ≠ 0} = 0 := by
  have hf : Continuous (Function.uncurry fun (u : Fin n → ℝ) z => w (Function.update u j z)) :=
    hw.comp (continuous_fst.update j continuous_snd)
  refine null_of_lines j (MeasurableSet.inter (measurableSet_eq_fun hw.measurable measurable_const) ?_) fun u => ?_
  · have h1 := (measurable_deriv_with_param hf).comp (measurable_id.prodMk (measurable_pi_apply j))
    exact (measurableSet_eq_fun h1 measurable_const).compl
  · refine (countable_simple_zeros fun z => w (Function.update u j z)).mono ?_
    rintro z ⟨h0, h1⟩
    simp only [Function.update_idem, Function.update_self] at h0 h1
    exact ⟨h0, _, (differentiableAt_of_deriv_ne_zero h1).hasDerivAt, h1⟩

theorem continuous_uval (k : JvpKind) : Continuous (uval k) := by
  cases k <;> simp only [uval] <;> first | exact continuous_neg | exact continuous_id.max continuous_const | exact continuous_abs | exact continuous_iff_continuousAt.2 fun z => (hasDerivAt_tanh z).continuousAt

/-- elements are continuous functions of the elements of `x` -/
theorem reeval_continuous {α : Type} [TopologicalSpace α] {h : Heap ℝ} {l x : Nat} (hg : h.Good) (hl : RealLoss h l) {Y : α → List Nat → ℝ}
    (hY : ∀ idx, InRange (shapeOf h x) idx → Continuous fun u => Y u idx) {W : α → Nat → List Nat → ℝ} (hW : ∀ u, Reeval h l x (Y u) (W u)) :
    ∀ i, Feeds h i l → ∀ idx, InRange (shapeOf h i) idx → Continuous fun u => W u i idx := by
  intro i
  induction i using Nat.strong_induction_on with
  | _ i ih =>
  intro hi idx hidx
  by_cases hx : i = x
  · subst hx
    exact (hY idx hidx).congr fun u => ((hW u).self idx hidx).symm
  cases nodeForm hg hl hi with
  | leaf hh =>
    have hn : ∃ v, dataOf h i = some v := by
      simp only [historyOf, Option.map_eq_some_iff] at hh
      obtain ⟨n, hn, _⟩ := hh
      exact ⟨_, dataOf_node hn⟩
    obtain ⟨v, hv⟩ := hn
    exact (continuous_const (y := cell v idx)).congr fun u => cell_elem ((hW u).leaf i v hi hx hv hh idx (shapeOf_data hv ▸ hidx))
  | @add a b t u v' hh ht hu hv' hai hbi fa fb hc hsh _ =>
    obtain ⟨_, pt⟩ := hl.data a t (Or.inr fa) ht
    obtain ⟨_, pu⟩ := hl.data b u (Or.inr fb) hu
    have hidx' := hidx
    rw [shapeOf_data hv', hsh] at hidx'
    obtain ⟨h1, h2⟩ := bproj_mem pt pu hc hidx'
    exact ((ih a hai (Or.inr fa) _ (shapeOf_data ht ▸ h1)).add (ih b hbi (Or.inr fb) _ (shapeOf_data hu ▸ h2))).congr fun y => by
      rw [(hW y).add i a b hi hx hh idx hidx, shapeOf_data ht, shapeOf_data hu, Pi.add_apply]
  | @unary a k t v' hk hh ht hv' hai fa _ hsh _ =>
    have hsh' := (shapeOf_data hv').trans hsh
    exact ((continuous_uval k).comp (ih a hai (Or.inr fa) idx (by rw [shapeOf_data ht, ← hsh']; exact hidx))).congr fun y =>
      ((hW y).unary hk hi hx hh hidx).symm
  | @bmm a b m k n t u v' _ hh ht hu hv' hai hbi fa fb hts hus hsh _ =>
    rw [shapeOf_data hv', hsh] at hidx
    obtain ⟨r, c, rfl⟩ : ∃ r c, idx = [r, c] := List.length_eq_two.1 hidx.length_eq.symm
    obtain ⟨hr, hc⟩ := inRange2.1 hidx
    refine (continuous_finsetSum (Finset.range k) fun j hj => ?_).congr fun y =>
      ((hW y).bmm i a b hi hx hh m k n ((shapeOf_data ht).trans hts) ((shapeOf_data hu).trans hus) r hr c hc).symm
    rw [Finset.mem_range] at hj
    exact (ih a hai (Or.inr fa) _ (by rw [shapeOf_data ht, hts]; exact inRange2.2 ⟨hr, hj⟩)).mul
      (ih b hbi (Or.inr fb) _ (by rw [shapeOf_data hu, hus]; exact inRange2.2 ⟨hj, hc⟩))
  | @dot a b t u v' _ hh ht hu hv' hai hbi fa fb hts hsh _ =>
    rw [shapeOf_data hv', hsh] at hidx
    obtain rfl := inRange_one hidx
    refine (continuous_list_sum (allIndices (shapeOf h a)) fun idx hidx => (ih a hai (Or.inr fa) idx (mem_allIndices.1 hidx)).mul
      (ih b hbi (Or.inr fb) idx (by rw [shapeOf_data hu, ← hts, ← shapeOf_data ht]; exact mem_allIndices.1 hidx))).congr fun y =>
      ((hW y).dot i a b hi hx hh).symm
  | @sum a t v' hh ht hv' hai fa hsh _ =>
    rw [shapeOf_data hv', hsh] at hidx
    obtain rfl : idx = [] := List.length_eq_zero_iff.1 hidx.length_eq.symm
    refine (continuous_list_sum (allIndices (shapeOf h a)) fun idx hidx => ih a hai (Or.inr fa) idx (mem_allIndices.1 hidx)).congr fun y =>
      ((hW y).sum i a hi hx hh).symm

theorem intoKink_ancestor {h : Heap ℝ} {l a : Nat} {idx : List Nat} (ha : IntoKink h l a idx) : Ancestor h a l := by
  obtain ⟨i, k, hi, hh, _⟩ := ha
  simp only [historyOf, Option.map_eq_some_iff] at hh
  obtain ⟨nd, hnd, hd⟩ := hh
  exact hi.input hnd hd (by simp)

theorem inRange1 {n i : Nat} : InRange [n] [i] ↔ i < n := by
  simp [InRange]

end RL
