import Verif.SpecGrad
import Verif.SpecNn

/-!
# Specification of elements that no operation removes (C79)

IEEE 754: the result of arithmetic with a NaN is a NaN, and comparisons with a NaN are false.
-/

namespace RL.Spec

variable {T : Type}

/-- `Bad` behaves as "is a NaN": it is inherited by the results of `+`, `*`, `-x`, `abs` and `tanh`, and no such element is negative. -/
structure Absorbing [Zero T] [Add T] [Mul T] [Neg T] [LT T] [RealFn T] (Bad : T → Prop) : Prop where
  add_left : ∀ x y, Bad x → Bad (x + y)
  add_right : ∀ x y, Bad y → Bad (x + y)
  mul_left : ∀ x y, Bad x → Bad (x * y)
  mul_right : ∀ x y, Bad y → Bad (x * y)
  neg : ∀ x, Bad x → Bad (-x)
  abs : ∀ x, Bad x → Bad (RealFn.abs x)
  tanh : ∀ x, Bad x → Bad (RealFn.tanh x)
  not_neg : ∀ x, Bad x → ¬ x < 0

/-- Some element of the tensor is bad. -/
def Poisoned (Bad : T → Prop) (v : Raw T) : Prop := ∃ x ∈ v.array, Bad x

/-- As many elements as the shape says, no empty dimension, at most three dimensions. -/
def Plain (v : Raw T) : Prop := WF v ∧ Pos v.shape ∧ v.shape.length ≤ 3

/-- All tensors are plain. -/
def AllPlain (h : Heap T) : Prop := ∀ i v, dataOf h i = some v → Plain v

end RL.Spec
