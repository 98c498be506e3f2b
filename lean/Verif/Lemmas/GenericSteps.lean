import Mathlib.Analysis.Calculus.InverseFunctionTheorem.ContDiff
import Mathlib.Analysis.Calculus.FDeriv.Measurable
import Mathlib.LinearAlgebra.Eigenspace.Minpoly
import Mathlib.MeasureTheory.Function.Jacobian
import Mathlib.MeasureTheory.Measure.Lebesgue.EqHaar

/-!
# Steps `u - lr • G u` that avoid a set of measure zero: lemmas
-/

namespace RL

open MeasureTheory

/-- a linear map `1 - lr • A` is invertible for all but finitely many `lr` -/
theorem finite_singular {E : Type} [NormedAddCommGroup E] [NormedSpace ℝ E] [FiniteDimensional ℝ E] (A : E →L[ℝ] E) :
    {lr : ℝ | (1 - lr • A).det = 0}.Finite := by
  have h1 := Module.End.finite_hasEigenvalue (R := ℝ) (A : E →ₗ[ℝ] E)
  refine (h1.image (·⁻¹)).subset ?_
  intro lr hlr
  have h2 : LinearMap.det ((1 - lr • A : E →L[ℝ] E) : E →ₗ[ℝ] E) = 0 := hlr
  have h3 := LinearMap.bot_lt_ker_of_det_eq_zero h2
  obtain ⟨v, hv, hv0⟩ := (Submodule.ne_bot_iff _).1 h3.ne'
  have h4 : v - lr • A v = 0 := by simpa using hv
  have hlr0 : lr ≠ 0 := by
    rintro rfl
    simp at h4
    exact hv0 h4
  refine ⟨lr⁻¹, ?_, inv_inv lr⟩
  refine Module.End.hasEigenvalue_of_hasEigenvector (x := v) ⟨?_, hv0⟩
  rw [Module.End.mem_eigenspace_iff]
  change A v = lr⁻¹ • v
  rw [sub_eq_zero] at h4
  rw [eq_inv_smul_iff₀ hlr0, ← h4]

/-- what a continuously differentiable map with invertible derivatives maps into a set of measure zero has measure zero -/
theorem null_preimage {E : Type} [NormedAddCommGroup E] [NormedSpace ℝ E] [FiniteDimensional ℝ E] [MeasurableSpace E] [BorelSpace E] (μ : Measure E)
    [μ.IsAddHaarMeasure] {F : E → E} {s N : Set E} (hF : ∀ x ∈ s, ContDiffAt ℝ 1 F x) (hd : ∀ x ∈ s, (fderiv ℝ F x).det ≠ 0) (hN : μ N = 0) :
    μ (s ∩ F ⁻¹' N) = 0 := by
  haveI : CompleteSpace E := FiniteDimensional.complete ℝ E
  refine measure_null_of_locally_null _ fun x hx => ?_
  have h1 := hF x hx.1
  let e : E ≃L[ℝ] E := (fderiv ℝ F x).toContinuousLinearEquivOfDetNeZero (hd x hx.1)
  have h2 : HasFDerivAt F (e : E →L[ℝ] E) x := (h1.differentiableAt one_ne_zero).hasFDerivAt
  have h3 := h1.to_localInverse h2 one_ne_zero
  have h4 : ∀ᶠ x' in nhds x, h1.localInverse h2 one_ne_zero (F x') = x' := (h1.hasStrictFDerivAt' h2 one_ne_zero).eventually_left_inverse
  have h5 : ∀ᶠ z in nhds (F x), DifferentiableAt ℝ (h1.localInverse h2 one_ne_zero) z := by
    filter_upwards [h3.eventually (by simp)] with z hz
    exact hz.differentiableAt one_ne_zero
  have h6 := h1.continuousAt.eventually h5
  refine ⟨{x' | h1.localInverse h2 one_ne_zero (F x') = x' ∧ DifferentiableAt ℝ (h1.localInverse h2 one_ne_zero) (F x')} ∩ (s ∩ F ⁻¹' N), ?_, ?_⟩
  · exact Filter.inter_mem (mem_nhdsWithin_of_mem_nhds (h4.and h6)) self_mem_nhdsWithin
  · refine measure_mono_null ?_ (addHaar_image_eq_zero_of_differentiableOn_of_addHaar_eq_zero μ
      (f := h1.localInverse h2 one_ne_zero) (s := {z | DifferentiableAt ℝ (h1.localInverse h2 one_ne_zero) z} ∩ N)
      (fun z hz => hz.1.differentiableWithinAt) (measure_mono_null Set.inter_subset_right hN))
    rintro x' ⟨⟨e1, e2⟩, _, e3⟩
    exact ⟨F x', ⟨e2, e3⟩, e1⟩

/-- a learning rate for which almost all steps are regular: almost all sequences of steps stay in a set whose complement has measure zero -/
theorem iterates_mem {E : Type} [NormedAddCommGroup E] [NormedSpace ℝ E] [FiniteDimensional ℝ E] [MeasurableSpace E] [BorelSpace E] (μ : Measure E)
    [μ.IsAddHaarMeasure] {G : E → E} {O : Set E} (hO : μ Oᶜ = 0) (hG : ∀ x ∈ O, ContDiffAt ℝ 1 G x) {lr : ℝ}
    (hlr : μ {u | u ∈ O ∧ (1 - lr • fderiv ℝ G u).det = 0} = 0) : ∀ᵐ u ∂μ, ∀ n, (fun u => u - lr • G u)^[n] u ∈ O := by
  rw [ae_all_iff]
  intro n
  induction n with
  | zero => exact hO
  | succ n ih =>
    rw [ae_iff] at ih ⊢
    have hF : ∀ x ∈ O, HasFDerivAt (fun u => u - lr • G u) (1 - lr • fderiv ℝ G x) x := by
      intro x hx
      exact (hasFDerivAt_id x).sub (((hG x hx).differentiableAt one_ne_zero).hasFDerivAt.const_smul lr)
    have h1 := null_preimage μ (F := fun u => u - lr • G u) (s := {u | u ∈ O ∧ (1 - lr • fderiv ℝ G u).det ≠ 0})
      (fun x hx => contDiffAt_id.sub (contDiffAt_const.smul (hG x hx.1))) (fun x hx => by rw [(hF x hx.1).fderiv]; exact hx.2) ih
    refine measure_mono_null ?_ (measure_union_null hO (measure_union_null hlr h1))
    intro u hu
    by_cases h2 : u ∈ O
    · by_cases h3 : (1 - lr • fderiv ℝ G u).det = 0
      · exact Or.inr (Or.inl ⟨h2, h3⟩)
      · exact Or.inr (Or.inr ⟨⟨h2, h3⟩, hu⟩)
    · exact Or.inl h2

/-- almost all learning rates are of this kind -/
theorem ae_regular {E : Type} [NormedAddCommGroup E] [NormedSpace ℝ E] [FiniteDimensional ℝ E] [MeasurableSpace E] [BorelSpace E] (μ : Measure E)
    [μ.IsAddHaarMeasure] (G : E → E) (O : Set E) : ∀ᵐ lr : ℝ, μ {u | u ∈ O ∧ (1 - lr • fderiv ℝ G u).det = 0} = 0 := by
  haveI : CompleteSpace E := FiniteDimensional.complete ℝ E
  have hm : MeasurableSet {p : E × ℝ | (1 - p.2 • fderiv ℝ G p.1).det = 0} := by
    refine measurableSet_eq_fun (ContinuousLinearMap.continuous_det.measurable.comp ?_) measurable_const
    exact measurable_const.sub (measurable_snd.smul ((measurable_fderiv ℝ G).comp measurable_fst))
  have h1 : (μ.prod volume) {p : E × ℝ | (1 - p.2 • fderiv ℝ G p.1).det = 0} = 0 := by
    rw [Measure.measure_prod_null hm]
    refine Filter.Eventually.of_forall fun u => ?_
    exact (finite_singular (fderiv ℝ G u)).measure_zero _
  have h2 : (volume.prod μ) (Prod.swap ⁻¹' {p : E × ℝ | (1 - p.2 • fderiv ℝ G p.1).det = 0}) = 0 := by
    rw [← Measure.prod_swap, Measure.map_apply measurable_swap hm] at h1
    exact h1
  have h3 := Measure.measure_ae_null_of_prod_null h2
  filter_upwards [h3] with lr h4
  exact measure_mono_null (fun u hu => hu.2) h4

end RL
