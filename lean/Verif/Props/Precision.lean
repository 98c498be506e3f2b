import Verif.Lemmas.PrecisionRun
import Verif.Lemmas.BinaryNumbers
import Verif.Lemmas.TestPrecision

/-!
# Rounding errors of whole programs and of training are proportional to the precision (C108)

C63-C65 bound the error of single operations and of the forward pass. Here: all operations of a program, gradients, and training. The
constants depend on the program and its inputs, not on the arithmetic.
-/

namespace RL

open Spec

/-- The property without a condition on the program. -/
def C108_statement : Prop := ∀ (ops : List (Op ℝ)) (r : Heap ℝ), runOps [] ops = .ok r → (∀ o ∈ ops, ∀ f x, o ≠ .rawUnary f x) → ∀ B : ℝ, 0 ≤ B →
  ∃ C > (0 : ℝ), ∃ δ > (0 : ℝ),
    ∀ (T : Type) [Zero T] [One T] [Add T] [Mul T] [Sub T] [Neg T] [LT T] [DecidableLT T] [LE T] [DecidableLE T] [RealFn T]
      (ρ : Numbers T) (t : ℝ), ρ.Precise t → t ≤ δ →
      ∀ ops' : List (Op T), List.Forall₂ (OpRel (fun _ => True) (ρ.Near (B * t))) ops' ops →
        ∃ h, runOps [] ops' = .ok h ∧ (ρ.Finite h → HeapRel (fun _ => True) (ρ.Near (C * t)) h r)

/-- **C108**, refuted: where exact arithmetic meets a kink (an element 0 under `relu`), an input that is a little smaller changes the
gradient from 1 to 0. -/
theorem C108_false : ¬ C108_statement := by
  intro hs
  obtain ⟨r, hr, gr⟩ := kink_run 0
  obtain ⟨C, hC, δ, hδ, h⟩ := hs _ _ hr (by simp) 1 zero_le_one
  set t := min δ (1 / (2 * C)) with ht
  have ht0 : 0 < t := lt_min hδ (by positivity)
  have htC : C * t ≤ 1 / 2 := by
    have h1 : t ≤ 1 / (2 * C) := min_le_right _ _
    have h2 := mul_le_mul_of_nonneg_left h1 hC.le
    rw [show C * (1 / (2 * C)) = 1 / 2 by field_simp] at h2
    exact h2
  obtain ⟨r', hr', gr'⟩ := kink_run (-t)
  obtain ⟨g, hg, hn⟩ := h ℝ exactNumbers t ⟨ht0.le, ht0.le, ht0.le⟩ (min_le_left _ _) [.new [-t] [1], .relu 0, .sum 1, .backward 3]
    (.cons (.new _ (.cons (by simp [Numbers.Near, exactNumbers, abs_of_pos ht0]) .nil))
      (.cons (.relu 0 trivial) (.cons (.sum 1 trivial) (.cons (.backward 3 trivial) .nil))))
  rw [hr'] at hg
  cases hg
  obtain ⟨b, hb, hab⟩ := heapRel_gradOf (hn fun _ _ _ _ => trivial) gr'
  rw [gr] at hb
  cases hb
  obtain ⟨hab, -⟩ := hab
  cases hab with
  | cons h1 _ =>
    simp only [Numbers.Near, exactNumbers, reluDeriv, id] at h1
    rw [if_pos (by linarith), if_neg (lt_irrefl 0)] at h1
    norm_num at h1
    linarith

/-- **C108** for programs in which exact arithmetic meets no kink: there are constants `C` and `δ` such that the same program with any
arithmetic whose errors are at most `t ≤ δ`, from inputs with errors of at most `B * t`, has the same outcome and, unless something
overflows, the same graph, and all data and all gradients are at most `C * t` away from the exact ones. -/
theorem C108_partial (ops : List (Op ℝ)) (r : Heap ℝ) (hr : runOps [] ops = .ok r) (hk : NoKinks r) (hu : ∀ o ∈ ops, ∀ f x, o ≠ .rawUnary f x)
    (B : ℝ) (hB : 0 ≤ B) : ∃ C > (0 : ℝ), ∃ δ > (0 : ℝ),
    ∀ (T : Type) [Zero T] [One T] [Add T] [Mul T] [Sub T] [Neg T] [LT T] [DecidableLT T] [LE T] [DecidableLE T] [RealFn T]
      (ρ : Numbers T) (t : ℝ), ρ.Precise t → t ≤ δ →
      ∀ ops' : List (Op T), List.Forall₂ (OpRel (fun _ => True) (ρ.Near (B * t))) ops' ops →
        ∃ h, runOps [] ops' = .ok h ∧ (ρ.Finite h → HeapRel (fun _ => True) (ρ.Near (C * t)) h r) := by
  obtain ⟨b, hb, hbr⟩ := Tracked.runOps_mid (B := B) hu hr
  obtain ⟨C, hC, δ, hδ, h⟩ := Tracked.exists_constants hbr hk
  refine ⟨C, hC, δ, hδ, ?_⟩
  intro T _ _ _ _ _ _ _ _ _ _ _ ρ t hp ht ops' ho
  obtain ⟨g, hg, hl⟩ := Tracked.runOps_leads ρ hB hu ho hb
  exact ⟨g, hg, h T ρ t hp ht g hl⟩

/-- The same for training: a program that creates the parameters and the data, followed by `n` steps. The network is given by the tensors
and the activations of its layers. -/
theorem C108_train (ops : List (Op ℝ)) (ls : List (Nat × Nat × Act)) (x y : Nat) (lr : ℝ) (n : Nat) (r : Heap ℝ) (a : Mlp ℝ)
    (hr : (do let h ← runOps [] ops; train (netOf Act.run ls) h x y lr n) = .ok (r, a)) (hk : NoKinks r)
    (hu : ∀ o ∈ ops, ∀ f x, o ≠ .rawUnary f x) (B : ℝ) (hB : 0 ≤ B) : ∃ C > (0 : ℝ), ∃ δ > (0 : ℝ),
    ∀ (T : Type) [Zero T] [One T] [Add T] [Mul T] [Sub T] [Neg T] [LT T] [DecidableLT T] [LE T] [DecidableLE T] [RealFn T]
      (ρ : Numbers T) (t : ℝ), ρ.Precise t → t ≤ δ →
      ∀ (ops' : List (Op T)) (lr' : T), List.Forall₂ (OpRel (fun _ => True) (ρ.Near (B * t))) ops' ops → ρ.Near (B * t) lr' lr →
        ∃ h a', (do let h ← runOps [] ops'; train (netOf Act.run ls) h x y lr' n) = .ok (h, a') ∧ a'.params = a.params ∧
          (ρ.Finite h → HeapRel (fun _ => True) (ρ.Near (C * t)) h r) := by
  rw [R.bind_eq_ok] at hr
  obtain ⟨r0, hr0, hr⟩ := hr
  obtain ⟨b0, hb0, hbr0⟩ := Tracked.runOps_mid (B := B) hu hr0
  obtain ⟨b, c, hb, hp, hbr⟩ : ∃ b c, train (netOf Act.run ls) b0 x y ⟨lr, B⟩ n = .ok (b, c) ∧ c.params = a.params ∧ HeapAll Tracked.IsMid b r := by
    have h1 := train_leads (rel := Tracked.IsMid) (heapAll_any hbr0) (sameNet_netOf ls) x y (lr := (⟨lr, B⟩ : Tracked)) (lr' := lr) rfl n
    rw [hr] at h1
    obtain ⟨⟨b, c⟩, e, k1, k2, o, o', k3, k4, k5⟩ := SameOutcome.of_ok_right h1
    have h2 := runOps_rel Tracked.mid_arith Tracked.mid_functions hbr0 k3
    rw [k4, k5] at h2
    exact ⟨b, c, e, k2.params, h2⟩
  obtain ⟨C, hC, δ, hδ, h⟩ := Tracked.exists_constants hbr hk
  refine ⟨C, hC, δ, hδ, ?_⟩
  intro T _ _ _ _ _ _ _ _ _ _ _ ρ t hpt ht ops' lr' ho hl
  obtain ⟨g0, hg0, hl0⟩ := Tracked.runOps_leads ρ hB hu ho hb0
  have h1 := train_leads (rel := Tracked.Holds ρ t) hl0.sameGraph (sameNet_netOf ls) x y (lr := lr') (lr' := (⟨lr, B⟩ : Tracked)) ⟨hB, fun _ => hl⟩ n
  rw [hb] at h1
  obtain ⟨⟨g, d⟩, e, k1, k2, k3⟩ := SameOutcome.of_ok_right h1
  refine ⟨g, d, ?_, k2.params.trans hp, h T ρ t hpt ht g (hl0.trans k3)⟩
  rw [R.bind_eq_ok]
  exact ⟨g0, hg0, e⟩

/-- Binary formats are such an arithmetic; the precision is that of the last place. -/
theorem C108_formats (F : Format) (h1 : F.emin ≤ 0) (hb : 1 ≤ F.big) : (F.numbers h1 hb).Precise (2 ^ (-(F.prec : ℤ)) + 2 ^ F.emin / 2) := by
  have h2 : (0 : ℝ) ≤ 2 ^ (-(F.prec : ℤ)) := by positivity
  have h3 : (0 : ℝ) ≤ 2 ^ F.emin / 2 := by positivity
  refine ⟨?_, ?_, le_refl _⟩
  · change (2 : ℝ) ^ (-(F.prec : ℤ)) ≤ _
    linarith
  · change (2 : ℝ) ^ F.emin / 2 ≤ _
    linarith

/-- `f64` and `f32` have precision `2 ^ -52` and `2 ^ -23`. -/
theorem C108_floats : Format.f64.Precise (2 ^ (-52 : ℤ)) ∧ Format.f32.Precise (2 ^ (-23 : ℤ)) := by
  constructor
  · have h := C108_formats Format.binary64 (by decide) Format.big64
    have key : ∀ x y : ℝ, 0 < x → y ≤ x → x + y / 2 ≤ x * 2 := fun x y _ _ => by linarith
    have h2 : (2 : ℝ) ^ (-53 : ℤ) + 2 ^ (-1074 : ℤ) / 2 ≤ 2 ^ (-52 : ℤ) :=
      (key _ _ (by positivity) (zpow_le_zpow_right₀ (by norm_num) (by norm_num))).trans (by norm_num)
    exact ⟨h.1.trans h2, h.2.1.trans h2, h.2.2.trans h2⟩
  · have h := C108_formats Format.binary32 (by decide) Format.big32
    have key : ∀ x y : ℝ, 0 < x → y ≤ x → x + y / 2 ≤ x * 2 := fun x y _ _ => by linarith
    have h2 : (2 : ℝ) ^ (-24 : ℤ) + 2 ^ (-149 : ℤ) / 2 ≤ 2 ^ (-23 : ℤ) :=
      (key _ _ (by positivity) (zpow_le_zpow_right₀ (by norm_num) (by norm_num))).trans (by norm_num)
    exact ⟨h.1.trans h2, h.2.1.trans h2, h.2.2.trans h2⟩

/-- Two steps of training of a network with `relu` meet the hypotheses of `C108_train`. -/
example : ∃ r a, (do let h ← runOps [] (testOps fun z : Int => (z : ℝ)); train (netOf Act.run testLayers) h 4 5 (1 : ℝ) 2) = .ok (r, a) ∧
    NoKinks r ∧ ∀ o ∈ testOps fun z : Int => (z : ℝ), ∀ f x, o ≠ .rawUnary f x := by
  obtain ⟨r, a, h1, h2⟩ := test_train
  refine ⟨r, a, h1, h2, ?_⟩
  simp [testOps]

/-- A program with `relu` and `backward` at 3 meets those of `C108_partial`; at 0 it does not (`C108_false`). -/
example : ∃ r, runOps [] [.new [(3 : ℝ)] [1], .relu 0, .sum 1, .backward 3] = .ok r ∧ NoKinks r := test_small

end RL
