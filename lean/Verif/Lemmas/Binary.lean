import Verif.SpecRound
import Mathlib.Data.Int.Log
import Mathlib.Data.Real.Archimedean
import Mathlib.Algebra.Order.Round
import Mathlib.Algebra.Order.Field.Power
import Mathlib.Tactic.Linarith
import Mathlib.Tactic.Ring
import Mathlib.Tactic.Positivity
import Mathlib.Tactic.FieldSimp

/-!
# Binary floating point formats satisfy `Rounding`

Numbers `m * 2^e` with `|m| ≤ 2^prec` and `e ≥ emin`, of size at most `big`; every operation computes the exact result, rounds it to
the nearest number of the format (`rnd` decides ties) and overflows if that is larger than `big`. For `f64`: `prec = 53`, `emin = -1074`,
`big = (2^53 - 1) * 2^971`; for `f32`: `24`, `-149`, `(2^24 - 1) * 2^104`. Infinities and NaN are one value here, and so are the two
zeros.
-/

namespace RL.Spec

/-- A binary format. -/
structure Format where
  prec : Nat
  emin : ℤ
  big : ℝ
  /-- rounding to an integer -/
  rnd : ℝ → ℤ
  prec_pos : 0 < prec
  big_nonneg : 0 ≤ big
  /-- to the nearest one -/
  rnd_near (x : ℝ) : |(rnd x : ℝ) - x| ≤ 1 / 2

namespace Format

variable (F : Format)

/-- Numbers of the format, if exponents were not bounded above. -/
def Rep (x : ℝ) : Prop := ∃ m e : ℤ, |m| ≤ 2 ^ F.prec ∧ F.emin ≤ e ∧ x = m * (2 : ℝ) ^ e

/-- Exponent of the last place. -/
noncomputable def lastPlace (x : ℝ) : ℤ := max (Int.log 2 |x| + 1 - F.prec) F.emin

/-- Rounding to the format. -/
noncomputable def fl (x : ℝ) : ℝ := F.rnd (x / 2 ^ F.lastPlace x) * 2 ^ F.lastPlace x

/-- A value of the format: a number, or infinity or NaN (`none`). -/
abbrev Num : Type := Option { x : ℝ // F.Rep x ∧ |x| ≤ F.big }

theorem two_zpow_pos (e : ℤ) : (0 : ℝ) < 2 ^ e := by positivity

theorem rnd_int (n : ℤ) : F.rnd n = n := by
  have h := F.rnd_near n
  have : |((F.rnd n - n : ℤ) : ℝ)| < 1 := by push_cast; linarith
  have : |F.rnd n - n| < 1 := by exact_mod_cast this
  have := Int.abs_lt_one_iff.1 this
  omega

theorem fl_error_half (x : ℝ) : |F.fl x - x| ≤ 2 ^ F.lastPlace x / 2 := by
  have hp := two_zpow_pos (F.lastPlace x)
  have e : F.fl x - x = (F.rnd (x / 2 ^ F.lastPlace x) - x / 2 ^ F.lastPlace x) * 2 ^ F.lastPlace x := by
    rw [fl, sub_mul, div_mul_cancel₀ _ hp.ne']
  rw [e, abs_mul, abs_of_pos hp]
  have := F.rnd_near (x / 2 ^ F.lastPlace x)
  nlinarith

/-- If `x` is a multiple of the last place, rounding does nothing. -/
theorem fl_exact {x : ℝ} {n : ℤ} (h : x = n * 2 ^ F.lastPlace x) : F.fl x = x := by
  have hp := two_zpow_pos (F.lastPlace x)
  have : x / 2 ^ F.lastPlace x = n := by rw [div_eq_iff hp.ne']; exact h
  rw [fl, this, rnd_int]; exact h.symm

theorem lt_two_zpow_log (x : ℝ) : |x| < 2 ^ (Int.log 2 |x| + 1) := by
  simpa using Int.lt_zpow_succ_log_self (b := 2) (by norm_num) |x|

theorem two_zpow_log_le {x : ℝ} (hx : x ≠ 0) : (2 : ℝ) ^ Int.log 2 |x| ≤ |x| := by
  simpa using Int.zpow_log_le_self (b := 2) (by norm_num) (abs_pos.2 hx)

theorem fl_zero : F.fl 0 = 0 := F.fl_exact (n := 0) (by simp)

/-- Relative error in the normal range. -/
theorem fl_error_normal {x : ℝ} (h : F.emin ≤ Int.log 2 |x| + 1 - F.prec) : |F.fl x - x| ≤ 2 ^ (-(F.prec : ℤ)) * |x| := by
  by_cases hx : x = 0
  · subst hx; simp [fl_zero]
  · have e : F.lastPlace x = Int.log 2 |x| + 1 - F.prec := max_eq_left h
    have h1 := F.fl_error_half x
    rw [e] at h1
    have h2 : (2 : ℝ) ^ (Int.log 2 |x| + 1 - F.prec) / 2 = 2 ^ (-(F.prec : ℤ)) * 2 ^ Int.log 2 |x| := by
      rw [← zpow_add₀ (by norm_num), div_eq_iff (by norm_num), ← zpow_add_one₀ (by norm_num)]
      congr 1; ring
    rw [h2] at h1
    exact h1.trans (mul_le_mul_of_nonneg_left (two_zpow_log_le hx) (by positivity))

/-- Where results underflow, the last place is fixed. -/
theorem lastPlace_sub {x : ℝ} (h : ¬ F.emin ≤ Int.log 2 |x| + 1 - F.prec) : F.lastPlace x = F.emin := max_eq_right (by omega)

theorem Rep.multiple {F : Format} {x : ℝ} (h : F.Rep x) : ∃ n : ℤ, x = n * 2 ^ F.emin := by
  obtain ⟨m, e, _, he, rfl⟩ := h
  refine ⟨m * 2 ^ (e - F.emin).toNat, ?_⟩
  push_cast
  rw [mul_assoc, ← zpow_natCast, Int.toNat_of_nonneg (by omega), ← zpow_add₀ (by norm_num)]
  congr 2; ring

theorem Rep.neg {F : Format} {x : ℝ} (h : F.Rep x) : F.Rep (-x) := by
  obtain ⟨m, e, hm, he, rfl⟩ := h
  exact ⟨-m, e, by simpa using hm, he, by push_cast; ring⟩

theorem rep_zero : F.Rep 0 := ⟨0, F.emin, by simp, le_refl _, by simp⟩

/-- The result of rounding is a number of the format. -/
theorem fl_rep (x : ℝ) : F.Rep (F.fl x) := by
  refine ⟨_, F.lastPlace x, ?_, le_max_right _ _, rfl⟩
  have hp := two_zpow_pos (F.lastPlace x)
  have h1 : |x / 2 ^ F.lastPlace x| < 2 ^ F.prec := by
    rw [abs_div, abs_of_pos hp, div_lt_iff₀ hp]
    refine (lt_two_zpow_log x).trans_le ?_
    rw [← zpow_natCast, ← zpow_add₀ (by norm_num)]
    refine zpow_le_zpow_right₀ (by norm_num) ?_
    have : Int.log 2 |x| + 1 - F.prec ≤ F.lastPlace x := le_max_left _ _
    omega
  have h2 := F.rnd_near (x / 2 ^ F.lastPlace x)
  set r := F.rnd (x / 2 ^ F.lastPlace x)
  have h3 : (|r| : ℝ) < 2 ^ F.prec + 1 := by
    have := abs_add_le ((r : ℝ) - x / 2 ^ F.lastPlace x) (x / 2 ^ F.lastPlace x)
    simp only [sub_add_cancel] at this
    linarith
  have h4 : |r| < 2 ^ F.prec + 1 := by exact_mod_cast h3
  omega

/-- Numbers of the format are not changed by rounding. -/
theorem fl_of_rep {x : ℝ} (h : F.Rep x) : F.fl x = x := by
  by_cases hx : x = 0
  · subst hx; exact F.fl_zero
  obtain ⟨m, e, hm, he, rfl⟩ := h
  set x : ℝ := m * 2 ^ e with hxe
  by_cases hle : F.lastPlace x ≤ e
  · refine F.fl_exact (n := m * 2 ^ (e - F.lastPlace x).toNat) ?_
    push_cast
    rw [mul_assoc, ← zpow_natCast, Int.toNat_of_nonneg (by omega), ← zpow_add₀ (by norm_num), hxe]
    congr 2; ring
  · have hl : F.lastPlace x = Int.log 2 |x| + 1 - F.prec := by
      rcases max_choice (Int.log 2 |x| + 1 - F.prec) F.emin with h | h
      · exact h
      · exact absurd (show F.lastPlace x ≤ e by rw [lastPlace, h]; exact he) hle
    have hm' : (|m| : ℝ) ≤ 2 ^ F.prec := by exact_mod_cast hm
    have hpe := two_zpow_pos e
    have habs : |x| = |(m : ℝ)| * 2 ^ e := by rw [hxe, abs_mul, abs_of_pos hpe]
    have h1 : |x| ≤ 2 ^ ((F.prec : ℤ) + e) := by
      rw [habs, zpow_add₀ (by norm_num), zpow_natCast]
      exact mul_le_mul_of_nonneg_right hm' hpe.le
    have h2 : Int.log 2 |x| ≤ F.prec + e := by
      by_contra hc
      have := (zpow_le_zpow_iff_right₀ (by norm_num : (1 : ℝ) < 2)).1 ((two_zpow_log_le hx).trans h1)
      exact hc this
    have h3 : Int.log 2 |x| = F.prec + e := by omega
    have h4 : (2 : ℝ) ^ ((F.prec : ℤ) + e) ≤ |x| := by rw [← h3]; exact two_zpow_log_le hx
    have h5 : (|m| : ℝ) = 2 ^ F.prec := by
      have : (2 : ℝ) ^ F.prec * 2 ^ e ≤ |(m : ℝ)| * 2 ^ e := by
        rw [← habs, ← zpow_natCast, ← zpow_add₀ (by norm_num)]; exact h4
      exact le_antisymm hm' (le_of_mul_le_mul_right this hpe)
    have h6 : |m| = 2 ^ F.prec := by exact_mod_cast h5
    have hs : F.lastPlace x = e + 1 := by omega
    have hpp : F.prec = F.prec - 1 + 1 := (Nat.sub_add_cancel F.prec_pos).symm
    have key : ∃ n : ℤ, m = n * 2 := by
      rcases abs_choice m with h | h
      · exact ⟨2 ^ (F.prec - 1), by rw [← h, h6, ← pow_succ, ← hpp]⟩
      · exact ⟨-2 ^ (F.prec - 1), by rw [neg_mul, ← pow_succ, ← hpp, ← h6, h, neg_neg]⟩
    obtain ⟨n, hn⟩ := key
    refine F.fl_exact (n := n) ?_
    rw [hs, zpow_add_one₀ (by norm_num), hxe, hn]
    push_cast; ring

open Classical in
/-- The value for a rounded result. -/
noncomputable def result (x : ℝ) : F.Num := if h : |F.fl x| ≤ F.big then some ⟨F.fl x, F.fl_rep x, h⟩ else none

noncomputable instance : Zero F.Num := ⟨some ⟨0, F.rep_zero, by simpa using F.big_nonneg⟩⟩

noncomputable instance : Add F.Num := ⟨fun a b => match a, b with
  | some a, some b => F.result (a + b)
  | _, _ => none⟩

noncomputable instance : Mul F.Num := ⟨fun a b => match a, b with
  | some a, some b => F.result (a * b)
  | _, _ => none⟩

noncomputable instance : Neg F.Num := ⟨fun a => a.map fun a => ⟨-a.1, a.2.1.neg, by simpa using a.2.2⟩⟩

theorem result_some {x : ℝ} (h : (F.result x).isSome = true) : ∃ h', F.result x = some ⟨F.fl x, h'⟩ := by
  unfold result at *
  split at h
  · rename_i hb; exact ⟨⟨F.fl_rep x, hb⟩, by rw [dif_pos hb]⟩
  · simp at h

/-- Number of a value. -/
noncomputable def num (a : F.Num) : ℝ := match a with
  | some a => a.1
  | none => 0

/-- Binary formats satisfy the standard model of rounding errors. -/
noncomputable def rounding : Rounding F.Num where
  val := F.num
  fin := fun a => a.isSome = true
  u := 2 ^ (-(F.prec : ℤ))
  eta := 2 ^ F.emin / 2
  u_nonneg := by positivity
  eta_nonneg := by positivity
  val_zero := rfl
  add := by
    rintro (_ | ⟨a, ha⟩) (_ | ⟨b, hb⟩) h
    · exact absurd h (by simp [HAdd.hAdd, Add.add])
    · exact absurd h (by simp [HAdd.hAdd, Add.add])
    · exact absurd h (by simp [HAdd.hAdd, Add.add])
    · refine ⟨rfl, rfl, ?_⟩
      obtain ⟨h', e⟩ := F.result_some (x := a + b) h
      have e' : (some ⟨a, ha⟩ + some ⟨b, hb⟩ : F.Num) = some ⟨F.fl (a + b), h'⟩ := e
      rw [e']
      change |F.fl (a + b) - (a + b)| ≤ _ * |a + b|
      by_cases hn : F.emin ≤ Int.log 2 |a + b| + 1 - F.prec
      · exact F.fl_error_normal hn
      · obtain ⟨x, hx⟩ := ha.1.multiple
        obtain ⟨y, hy⟩ := hb.1.multiple
        rw [F.fl_exact (n := x + y) (by rw [F.lastPlace_sub hn]; push_cast; rw [add_mul, ← hx, ← hy])]
        simp only [sub_self, abs_zero]
        positivity
  zero_add := by
    rintro (_ | ⟨a, ha⟩) h
    · exact absurd h (by simp [HAdd.hAdd, Add.add])
    · obtain ⟨h', e⟩ := F.result_some (x := 0 + a) h
      have e' : (0 + some ⟨a, ha⟩ : F.Num) = some ⟨F.fl (0 + a), h'⟩ := e
      rw [e']
      change F.fl (0 + a) = a
      rw [zero_add, F.fl_of_rep ha.1]
  mul := by
    rintro (_ | ⟨a, ha⟩) (_ | ⟨b, hb⟩) h
    · exact absurd h (by simp [HMul.hMul, Mul.mul])
    · exact absurd h (by simp [HMul.hMul, Mul.mul])
    · exact absurd h (by simp [HMul.hMul, Mul.mul])
    · refine ⟨rfl, rfl, ?_⟩
      obtain ⟨h', e⟩ := F.result_some (x := a * b) h
      have e' : (some ⟨a, ha⟩ * some ⟨b, hb⟩ : F.Num) = some ⟨F.fl (a * b), h'⟩ := e
      rw [e']
      change |F.fl (a * b) - a * b| ≤ _ * |a * b| + _
      by_cases hn : F.emin ≤ Int.log 2 |a * b| + 1 - F.prec
      · have := F.fl_error_normal hn
        have : (0 : ℝ) ≤ 2 ^ F.emin / 2 := by positivity
        linarith
      · have := F.fl_error_half (a * b)
        rw [F.lastPlace_sub hn] at this
        have : (0 : ℝ) ≤ 2 ^ (-(F.prec : ℤ)) * |a * b| := by positivity
        linarith
  neg := by
    rintro (_ | ⟨a, ha⟩) h
    · exact absurd h (by simp [Neg.neg])
    · exact ⟨rfl, rfl⟩

open Classical in
/-- Rounding to the nearest integer, ties to even. -/
noncomputable def nearestEven (x : ℝ) : ℤ := if (round x : ℝ) - x = 1 / 2 ∧ Odd (round x) then round x - 1 else round x

theorem nearestEven_near (x : ℝ) : |(nearestEven x : ℝ) - x| ≤ 1 / 2 := by
  unfold nearestEven
  split
  · rename_i h
    push_cast
    rw [show (round x : ℝ) - 1 - x = -(1 / 2) by linarith [h.1]]
    rw [abs_neg, abs_of_nonneg (by norm_num)]
  · rw [abs_sub_comm]; exact abs_sub_round x

/-- `f64`. -/
noncomputable def binary64 : Format where
  prec := 53
  emin := -1074
  big := (2 ^ 53 - 1) * 2 ^ 971
  rnd := nearestEven
  prec_pos := by norm_num
  big_nonneg := by norm_num
  rnd_near := nearestEven_near

/-- `f32`. -/
noncomputable def binary32 : Format where
  prec := 24
  emin := -149
  big := (2 ^ 24 - 1) * 2 ^ 104
  rnd := nearestEven
  prec_pos := by norm_num
  big_nonneg := by norm_num
  rnd_near := nearestEven_near

end Format

end RL.Spec
