import Verif.SpecNan

/-!
# Integers with a NaN as an element type for tests and counterexamples

As in IEEE 754 arithmetic with `nan` gives `nan` and comparisons with it are false; `tanh` is a placeholder.
-/

namespace RL.Test

inductive NanInt where
  | nan
  | num (i : Int)
deriving DecidableEq, Repr

namespace NanInt

def lift2 (f : Int → Int → Int) : NanInt → NanInt → NanInt
  | num a, num b => num (f a b)
  | _, _ => nan

def lift (f : Int → Int) : NanInt → NanInt
  | num a => num (f a)
  | nan => nan

def cmp (f : Int → Int → Bool) : NanInt → NanInt → Bool
  | num a, num b => f a b
  | _, _ => false

instance : Zero NanInt := ⟨num 0⟩
instance : One NanInt := ⟨num 1⟩
instance : Add NanInt := ⟨lift2 (· + ·)⟩
instance : Mul NanInt := ⟨lift2 (· * ·)⟩
instance : Sub NanInt := ⟨lift2 (· - ·)⟩
instance : Neg NanInt := ⟨lift (- ·)⟩
instance : LT NanInt := ⟨fun a b => cmp (fun a b => a < b) a b = true⟩
instance : LE NanInt := ⟨fun a b => cmp (fun a b => a ≤ b) a b = true⟩
instance : DecidableLT NanInt := fun a b => inferInstanceAs (Decidable (cmp (fun a b => a < b) a b = true))
instance : DecidableLE NanInt := fun a b => inferInstanceAs (Decidable (cmp (fun a b => a ≤ b) a b = true))
instance : RealFn NanInt := ⟨id, lift (fun a => if a < 0 then -a else a), lift (fun a => a * a)⟩

def isNan (x : NanInt) : Prop := x = nan

instance : DecidablePred isNan := fun x => inferInstanceAs (Decidable (x = nan))

open Spec in
theorem absorbing : Absorbing isNan where
  add_left x y h := by rw [h]; rfl
  add_right x y h := by rw [h]; cases x <;> rfl
  mul_left x y h := by rw [h]; rfl
  mul_right x y h := by rw [h]; cases x <;> rfl
  neg x h := by rw [h]; rfl
  abs x h := by rw [h]; rfl
  tanh x h := h
  not_neg x h := by rw [h]; intro h'; cases h'

end NanInt

end RL.Test
