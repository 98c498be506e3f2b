import Verif.SpecPrecision
import Verif.Lemmas.ParamIfRun
import Verif.Lemmas.RealSums
import Mathlib.Analysis.Calculus.MeanValue

/-!
# Real numbers with a bound for their error (C108)
-/

namespace RL

open Spec

/-- A real number, and how far a computed value may be away from it, in units of the precision. -/
structure Tracked where
  mid : ℝ
  rad : ℝ

namespace Tracked

noncomputable section

/-- Error of a product before it is rounded. -/
def spread (x y : Tracked) : ℝ := |x.mid| * y.rad + |y.mid| * x.rad + x.rad * y.rad

instance : Zero Tracked := ⟨⟨0, 0⟩⟩
instance : One Tracked := ⟨⟨1, 0⟩⟩
instance : Add Tracked := ⟨fun x y => ⟨x.mid + y.mid, |x.mid + y.mid| + 2 * (x.rad + y.rad)⟩⟩
instance : Sub Tracked := ⟨fun x y => ⟨x.mid - y.mid, |x.mid - y.mid| + 2 * (x.rad + y.rad)⟩⟩
instance : Neg Tracked := ⟨fun x => ⟨-x.mid, x.rad⟩⟩
instance : Mul Tracked := ⟨fun x y => ⟨x.mid * y.mid, |x.mid * y.mid| + 2 * spread x y + 1⟩⟩
instance : LT Tracked := ⟨fun x y => x.mid < y.mid⟩
instance : LE Tracked := ⟨fun x y => x.mid ≤ y.mid⟩
instance : DecidableLT Tracked := fun x y => inferInstanceAs (Decidable (x.mid < y.mid))
instance : DecidableLE Tracked := fun x y => inferInstanceAs (Decidable (x.mid ≤ y.mid))
instance : RealFn Tracked where
  tanh x := ⟨Real.tanh x.mid, x.rad + 1⟩
  abs x := ⟨|x.mid|, x.rad⟩
  powi2 x := ⟨x.mid ^ 2, |x.mid * x.mid| + 2 * spread x x + 1⟩

end

/-- The number without its bound. -/
def IsMid (x : Tracked) (y : ℝ) : Prop := x.mid = y

theorem mid_arith : Arith (fun _ => True) IsMid where
  zero := rfl
  one := rfl
  add h1 h2 := congrArg₂ (· + ·) h1 h2
  mul h1 h2 := congrArg₂ (· * ·) h1 h2
  neg _ _ _ h := congrArg (- ·) h

theorem lt_zero_iff (x : Tracked) : x < 0 ↔ x.mid < 0 := Iff.rfl

theorem zero_le_iff (x : Tracked) : x ≥ 0 ↔ x.mid ≥ 0 := Iff.rfl

theorem mid_functions : Functions (fun _ => True) IsMid where
  relu _ a x h := by
    cases h
    by_cases h : a.mid < 0
    · rw [if_pos ((lt_zero_iff a).2 h), if_pos h, if_pos ((lt_zero_iff a).2 h), if_pos h]
      exact ⟨rfl, rfl⟩
    · rw [if_neg fun h' => h ((lt_zero_iff a).1 h'), if_neg h, if_neg fun h' => h ((lt_zero_iff a).1 h'), if_neg h]
      exact ⟨rfl, rfl⟩
  abs _ a x h := by
    cases h
    refine ⟨rfl, ?_⟩
    by_cases h : a.mid ≥ 0
    · rw [if_pos ((zero_le_iff a).2 h), if_pos h]
      exact rfl
    · rw [if_neg fun h' => h ((zero_le_iff a).1 h'), if_neg h]
      exact rfl
  tanh _ a x h := by
    cases h
    exact ⟨rfl, rfl⟩

variable {T : Type} [Zero T] [One T] [Add T] [Mul T] [Sub T] [Neg T] [LT T] [DecidableLT T] [LE T] [DecidableLE T] [RealFn T]

/-- `a`, if finite, is within the bound. -/
def Holds (ρ : Numbers T) (t : ℝ) (a : T) (x : Tracked) : Prop := 0 ≤ x.rad ∧ (ρ.fin a → |ρ.val a - x.mid| ≤ x.rad * t)

/-- What is needed where elements are compared: `a` is finite and the bound excludes that it is on the other side of 0. -/
def Sure (ρ : Numbers T) (t : ℝ) : JvpKind → T → Tracked → Prop
  | .relu, a, x => ρ.fin a ∧ (x.rad * t < |x.mid|)
  | .abs, a, x => ρ.fin a ∧ (x.rad * t < |x.mid|)
  | .tanh, a, _ => ρ.fin a
  | _, _, _ => True

theorem spread_nonneg {x y : Tracked} (hx : 0 ≤ x.rad) (hy : 0 ≤ y.rad) : 0 ≤ spread x y := by
  unfold spread
  positivity

/-- Error of a sum of two numbers that are a bit off, rounded. -/
theorem sum_off {t u a b c x y r s : ℝ} (h0 : 0 ≤ t) (h1 : t ≤ 1) (hu0 : 0 ≤ u) (hu : u ≤ t) (hr : 0 ≤ r) (hs : 0 ≤ s) (ha : |a - x| ≤ r * t)
    (hb : |b - y| ≤ s * t) (hc : |c - (a + b)| ≤ u * |a + b|) : |c - (x + y)| ≤ (|x + y| + 2 * (r + s)) * t := by
  have e1 : |a + b - (x + y)| ≤ (r + s) * t := by
    rw [show a + b - (x + y) = (a - x) + (b - y) by ring]
    exact (abs_add_le _ _).trans (by linarith)
  have e2 : |a + b| ≤ |x + y| + (r + s) * t := by
    have := abs_add_le (x + y) (a + b - (x + y))
    rw [add_sub_cancel] at this
    linarith
  have e3 : |c - (x + y)| ≤ |c - (a + b)| + |a + b - (x + y)| := abs_sub_le _ _ _
  have e4 : u * |a + b| ≤ t * (|x + y| + (r + s) * t) := mul_le_mul hu e2 (abs_nonneg _) h0
  have e5 : t * ((r + s) * t) ≤ t * (r + s) := mul_le_mul_of_nonneg_left (mul_le_of_le_one_right (by linarith) h1) h0
  nlinarith

/-- Error of a product of two numbers that are a bit off, rounded. -/
theorem product_off {t u η a b c x y r s : ℝ} (h0 : 0 ≤ t) (h1 : t ≤ 1) (hu : u ≤ t) (hη : η ≤ t) (hr : 0 ≤ r) (hs : 0 ≤ s) (ha : |a - x| ≤ r * t)
    (hb : |b - y| ≤ s * t) (hc : |c - a * b| ≤ u * |a * b| + η) :
    |c - x * y| ≤ (|x * y| + 2 * (|x| * s + |y| * r + r * s) + 1) * t := by
  set E := |x| * s + |y| * r + r * s with hE
  have hE0 : 0 ≤ E := by positivity
  have e1 : |a * b - x * y| ≤ E * t := by
    rw [show a * b - x * y = x * (b - y) + y * (a - x) + (a - x) * (b - y) by ring]
    have k1 : |x * (b - y)| ≤ |x| * (s * t) := by rw [abs_mul]; exact mul_le_mul_of_nonneg_left hb (abs_nonneg _)
    have k2 : |y * (a - x)| ≤ |y| * (r * t) := by rw [abs_mul]; exact mul_le_mul_of_nonneg_left ha (abs_nonneg _)
    have k3 : |(a - x) * (b - y)| ≤ r * t * (s * t) := by rw [abs_mul]; exact mul_le_mul ha hb (abs_nonneg _) (by positivity)
    have k4 : r * t * (s * t) ≤ r * s * t := by
      have : r * s * t * t ≤ r * s * t * 1 := mul_le_mul_of_nonneg_left h1 (by positivity)
      linarith [show r * t * (s * t) = r * s * t * t by ring]
    have k5 := abs_add_le (x * (b - y) + y * (a - x)) ((a - x) * (b - y))
    have k6 := abs_add_le (x * (b - y)) (y * (a - x))
    rw [hE]
    linarith
  have e2 : |a * b| ≤ |x * y| + E * t := by
    have := abs_add_le (x * y) (a * b - x * y)
    rw [add_sub_cancel] at this
    linarith
  have e3 : |c - x * y| ≤ |c - a * b| + |a * b - x * y| := abs_sub_le _ _ _
  have e4 : u * |a * b| ≤ t * (|x * y| + E * t) := mul_le_mul hu e2 (abs_nonneg _) h0
  have e5 : t * (E * t) ≤ t * E := mul_le_mul_of_nonneg_left (mul_le_of_le_one_right hE0 h1) h0
  linarith

theorem holds_arith (ρ : Numbers T) {t : ℝ} (h0 : 0 ≤ t) (h1 : t ≤ 1) (hp : ρ.Precise t) : Arith (fun _ => True) (Holds ρ t) where
  zero := ⟨le_refl _, fun _ => by change |ρ.val 0 - 0| ≤ 0 * t; rw [ρ.val_zero]; simp⟩
  one := ⟨le_refl _, fun _ => by change |ρ.val 1 - 1| ≤ 0 * t; rw [ρ.val_one]; simp⟩
  add {a b x y} ha hb := by
    refine ⟨?_, fun hf => ?_⟩
    · change 0 ≤ |x.mid + y.mid| + 2 * (x.rad + y.rad)
      have := ha.1
      have := hb.1
      positivity
    · obtain ⟨f1, f2, e⟩ := ρ.add a b hf
      exact sum_off h0 h1 ρ.u_nonneg hp.1 ha.1 hb.1 (ha.2 f1) (hb.2 f2) e
  mul {a b x y} ha hb := by
    refine ⟨?_, fun hf => ?_⟩
    · change 0 ≤ |x.mid * y.mid| + 2 * spread x y + 1
      have := spread_nonneg ha.1 hb.1
      positivity
    · obtain ⟨f1, f2, e⟩ := ρ.mul a b hf
      exact product_off h0 h1 hp.1 hp.2.1 ha.1 hb.1 (ha.2 f1) (hb.2 f2) e
  neg _ {a x} ha := by
    refine ⟨ha.1, fun hf => ?_⟩
    obtain ⟨f1, e⟩ := ρ.neg a hf
    change |ρ.val (-a) - -x.mid| ≤ x.rad * t
    rw [e, show -ρ.val a - -x.mid = -(ρ.val a - x.mid) by ring, abs_neg]
    exact ha.2 f1

theorem tanh_lipschitz (x y : ℝ) : |Real.tanh x - Real.tanh y| ≤ |x - y| := by
  have := Convex.norm_image_sub_le_of_norm_hasDerivWithin_le (f := Real.tanh) (C := 1) (s := Set.univ) (x := y) (y := x)
    (fun z _ => (hasDerivAt_tanh z).hasDerivWithinAt) (fun z _ => ?_) convex_univ (Set.mem_univ _) (Set.mem_univ _)
  · simpa using this
  · have := Real.tanh_sq_lt_one z
    rw [Real.norm_eq_abs, abs_of_nonneg (by linarith)]
    nlinarith [sq_nonneg (Real.tanh z)]

theorem holds_functions (ρ : Numbers T) {t : ℝ} (h0 : 0 ≤ t) (h1 : t ≤ 1) (hp : ρ.Precise t) : FunctionsIf (Sure ρ t) (Holds ρ t) := by
  have H := holds_arith ρ h0 h1 hp
  have side : ∀ {a : T} {x : Tracked}, Holds ρ t a x → ρ.fin a → x.rad * t < |x.mid| → (ρ.val a < 0 ↔ x.mid < 0) := by
    intro a x h f hs
    have h2 := abs_le.1 (h.2 f)
    rcases abs_cases x.mid with ⟨e, hx⟩ | ⟨e, hx⟩
    · rw [e] at hs
      exact ⟨fun _ => by linarith, fun _ => by linarith⟩
    · rw [e] at hs
      exact ⟨fun _ => hx, fun _ => by linarith⟩
  have sub : ∀ {a b : T} {x y : Tracked}, Holds ρ t a x → Holds ρ t b y → Holds ρ t (a - b) (x - y) := by
    intro a b x y ha hb
    refine ⟨?_, fun hf => ?_⟩
    · change 0 ≤ |x.mid - y.mid| + 2 * (x.rad + y.rad)
      have := ha.1
      have := hb.1
      positivity
    · obtain ⟨f1, f2, e⟩ := ρ.sub a b hf
      have hb' : |-ρ.val b - -y.mid| ≤ y.rad * t := by
        rw [show -ρ.val b - -y.mid = -(ρ.val b - y.mid) by ring, abs_neg]
        exact hb.2 f2
      have := sum_off h0 h1 ρ.u_nonneg hp.1 ha.1 hb.1 (ha.2 f1) hb' (c := ρ.val (a - b)) e
      exact this
  refine ⟨?_, ?_, ?_, ?_⟩
  · rintro a x h ⟨f, hs⟩
    have hiff := side h f hs
    by_cases hx : x.mid < 0
    · have ha : a < 0 := (ρ.lt_zero a f).2 (hiff.2 hx)
      rw [if_pos ha, if_pos ((lt_zero_iff x).2 hx), if_pos ha, if_pos ((lt_zero_iff x).2 hx)]
      exact ⟨H.zero, H.zero⟩
    · have ha : ¬ a < 0 := fun h' => hx (hiff.1 ((ρ.lt_zero a f).1 h'))
      rw [if_neg ha, if_neg fun h' => hx ((lt_zero_iff x).1 h'), if_neg ha, if_neg fun h' => hx ((lt_zero_iff x).1 h')]
      exact ⟨h, H.one⟩
  · rintro a x h ⟨f, hs⟩
    have hiff := side h f hs
    refine ⟨⟨h.1, fun _ => ?_⟩, ?_⟩
    · change |ρ.val (RealFn.abs a) - (|x.mid| : ℝ)| ≤ x.rad * t
      rw [ρ.abs a f]
      exact (abs_abs_sub_abs_le_abs_sub _ _).trans (h.2 f)
    · by_cases hx : x.mid < 0
      · have ha : ¬ a ≥ 0 := fun h' => absurd ((ρ.zero_le a f).1 h') (not_le.2 (hiff.2 hx))
        have hx' : ¬ x ≥ 0 := fun h' => absurd ((zero_le_iff x).1 h') (not_le.2 hx)
        rw [if_neg ha, if_neg hx']
        exact sub H.zero H.one
      · have ha : a ≥ 0 := (ρ.zero_le a f).2 (not_lt.1 fun h' => hx (hiff.1 h'))
        rw [if_pos ha, if_pos ((zero_le_iff x).2 (not_lt.1 hx))]
        exact H.one
  · intro a x h f
    have f0 : ρ.fin a := f
    have ht : Holds ρ t (RealFn.tanh a) (RealFn.tanh x) := by
      refine ⟨?_, fun f1 => ?_⟩
      · change 0 ≤ x.rad + 1
        linarith [h.1]
      · change |ρ.val (RealFn.tanh a) - Real.tanh x.mid| ≤ (x.rad + 1) * t
        have e1 := ρ.tanh a f0 f1
        have e2 := (tanh_lipschitz (ρ.val a) x.mid).trans (h.2 f0)
        have e3 := abs_sub_le (ρ.val (RealFn.tanh a)) (Real.tanh (ρ.val a)) (Real.tanh x.mid)
        linarith [hp.2.2]
    refine ⟨ht, sub H.one ⟨?_, fun f1 => ?_⟩⟩
    · change 0 ≤ |(RealFn.tanh x).mid * (RealFn.tanh x).mid| + 2 * spread (RealFn.tanh x) (RealFn.tanh x) + 1
      have := spread_nonneg ht.1 ht.1
      positivity
    · obtain ⟨f2, e⟩ := ρ.powi2 _ f1
      change |ρ.val (RealFn.powi2 (RealFn.tanh a)) - (RealFn.tanh x).mid ^ 2| ≤ _
      rw [pow_two]
      exact product_off h0 h1 hp.1 hp.2.1 ht.1 ht.1 (ht.2 f2) (ht.2 f2) e
  · intro k a x k1 k2 k3
    cases k <;> first | exact trivial | contradiction

end Tracked

end RL
