import Verif.Lemmas.Binary
import Verif.SpecPrecision

/-!
# Binary floating point formats satisfy `Numbers`

Comparisons with infinities and NaN are false here, `tanh` is the number of the format that is nearest to its value, and `powi(2)` is the
product.
-/

namespace RL.Spec.Format

open RL

variable (F : Format)

noncomputable instance : One F.Num := ⟨F.result 1⟩

noncomputable instance : Sub F.Num := ⟨fun a b => match a, b with
  | some a, some b => F.result (a - b)
  | _, _ => none⟩

noncomputable instance : LT F.Num := ⟨fun a b => a.isSome ∧ b.isSome ∧ F.num a < F.num b⟩

noncomputable instance : LE F.Num := ⟨fun a b => a.isSome ∧ b.isSome ∧ F.num a ≤ F.num b⟩

noncomputable instance : DecidableLT F.Num := fun _ _ => Classical.propDecidable _

noncomputable instance : DecidableLE F.Num := fun _ _ => Classical.propDecidable _

theorem Rep.abs {F : Format} {x : ℝ} (h : F.Rep x) : F.Rep |x| := by
  rcases abs_choice x with e | e <;> rw [e]
  · exact h
  · exact h.neg

noncomputable instance : RealFn F.Num where
  tanh a := a.bind fun a => F.result (Real.tanh a)
  abs a := a.map fun a => ⟨|a.1|, a.2.1.abs, by simpa using a.2.2⟩
  powi2 a := a * a

theorem rep_one (h : F.emin ≤ 0) : F.Rep 1 := ⟨1, 0, by simpa using one_le_pow₀ (n := F.prec) (by norm_num : (1 : ℤ) ≤ 2), h, by simp⟩

theorem fl_error (x : ℝ) : |F.fl x - x| ≤ 2 ^ (-(F.prec : ℤ)) * |x| + 2 ^ F.emin / 2 := by
  by_cases hn : F.emin ≤ Int.log 2 |x| + 1 - F.prec
  · have := F.fl_error_normal hn
    have : (0 : ℝ) ≤ 2 ^ F.emin / 2 := by positivity
    linarith
  · have := F.fl_error_half x
    rw [F.lastPlace_sub hn] at this
    have : (0 : ℝ) ≤ 2 ^ (-(F.prec : ℤ)) * |x| := by positivity
    linarith

/-- Binary formats that contain 1. -/
noncomputable def numbers (h1 : F.emin ≤ 0) (hb : 1 ≤ F.big) : Numbers F.Num where
  toRounding := F.rounding
  tau := 2 ^ (-(F.prec : ℤ)) + 2 ^ F.emin / 2
  val_one := by
    have e : F.fl 1 = 1 := F.fl_of_rep (F.rep_one h1)
    change F.num (F.result 1) = 1
    rw [result, dif_pos (by rw [e]; simpa using hb)]
    exact e
  sub := by
    rintro (_ | ⟨a, ha⟩) (_ | ⟨b, hb⟩) h
    · exact absurd h (by simp [rounding, HSub.hSub, Sub.sub])
    · exact absurd h (by simp [rounding, HSub.hSub, Sub.sub])
    · exact absurd h (by simp [rounding, HSub.hSub, Sub.sub])
    · refine ⟨rfl, rfl, ?_⟩
      obtain ⟨h', e⟩ := F.result_some (x := a - b) h
      have e' : (some ⟨a, ha⟩ - some ⟨b, hb⟩ : F.Num) = some ⟨F.fl (a - b), h'⟩ := e
      rw [e']
      change |F.fl (a - b) - (a - b)| ≤ 2 ^ (-(F.prec : ℤ)) * |a - b|
      by_cases hn : F.emin ≤ Int.log 2 |a - b| + 1 - F.prec
      · exact F.fl_error_normal hn
      · obtain ⟨x, hx⟩ := ha.1.multiple
        obtain ⟨y, hy⟩ := hb.1.multiple
        rw [F.fl_exact (n := x - y) (by rw [F.lastPlace_sub hn]; push_cast; rw [sub_mul, ← hx, ← hy])]
        simp only [sub_self, abs_zero]
        positivity
  lt_zero := by
    intro a h
    exact ⟨fun k => k.2.2, fun k => ⟨h, rfl, k⟩⟩
  zero_le := by
    intro a h
    exact ⟨fun k => k.2.2, fun k => ⟨rfl, h, k⟩⟩
  abs := by
    rintro (_ | ⟨a, ha⟩) h
    · exact absurd h (by simp [rounding])
    · rfl
  tanh := by
    rintro (_ | ⟨a, ha⟩) h hf
    · exact absurd h (by simp [rounding])
    · obtain ⟨h', e⟩ := F.result_some (x := Real.tanh a) hf
      have e' : RealFn.tanh (some ⟨a, ha⟩ : F.Num) = some ⟨F.fl (Real.tanh a), h'⟩ := e
      rw [e']
      change |F.fl (Real.tanh a) - Real.tanh a| ≤ _
      have h2 := F.fl_error (Real.tanh a)
      have h3 : |Real.tanh a| ≤ 1 := (Real.abs_tanh_lt_one a).le
      have : (2 : ℝ) ^ (-(F.prec : ℤ)) * |Real.tanh a| ≤ 2 ^ (-(F.prec : ℤ)) * 1 := mul_le_mul_of_nonneg_left h3 (by positivity)
      linarith
  powi2 := by
    intro a h
    have := F.rounding.mul a a h
    exact ⟨this.1, this.2.2⟩

theorem big64 : 1 ≤ binary64.big := by
  have h : (1 : ℝ) ≤ 2 ^ 971 := one_le_pow₀ (by norm_num)
  change (1 : ℝ) ≤ (2 ^ 53 - 1) * 2 ^ 971
  have h2 : (1 : ℝ) ≤ 2 ^ 53 - 1 := by norm_num
  exact one_le_mul_of_one_le_of_one_le h2 h

theorem big32 : 1 ≤ binary32.big := by
  have h : (1 : ℝ) ≤ 2 ^ 104 := one_le_pow₀ (by norm_num)
  change (1 : ℝ) ≤ (2 ^ 24 - 1) * 2 ^ 104
  have h2 : (1 : ℝ) ≤ 2 ^ 24 - 1 := by norm_num
  exact one_le_mul_of_one_le_of_one_le h2 h

/-- `f64` with its other operations. -/
noncomputable def f64 : Numbers binary64.Num := binary64.numbers (by decide) big64

/-- `f32` with its other operations. -/
noncomputable def f32 : Numbers binary32.Num := binary32.numbers (by decide) big32

end RL.Spec.Format
