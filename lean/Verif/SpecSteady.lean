import Verif.SpecDetach

/-!
# Tensors of the same shapes (C98)
-/

namespace RL.Spec

open RL

variable {T : Type}

/-- The tensors have as many elements as their shapes say, and no dimension of length 0. -/
def Proper (h : Heap T) (ts : List Nat) : Prop :=
  ∀ t ∈ ts, ∃ v, dataOf h t = some v ∧ v.array.length = v.shape.prod ∧ ∀ d ∈ v.shape, 0 < d

/-- Tensors of the same shapes. -/
def SameShapes (g : Heap T) (ts : List Nat) (h : Heap T) (us : List Nat) : Prop :=
  List.Forall₂ (fun t u => ∃ v w, dataOf g t = some v ∧ dataOf h u = some w ∧ v.shape = w.shape) ts us

/-- The training loop with a learning rate for every step. -/
def trainRates [Zero T] [One T] [Add T] [Mul T] [Sub T] [Neg T] [LT T] [DecidableLT T] [LE T] [DecidableLE T] [RealFn T]
    (mlp : Mlp T) (h : Heap T) (input expected : Nat) : List T → R (Heap T × Mlp T)
  | [] => return (h, mlp)
  | lr :: lrs => do
    let (h, mlp) ← trainStep mlp h input expected lr
    trainRates mlp h input expected lrs

end RL.Spec
