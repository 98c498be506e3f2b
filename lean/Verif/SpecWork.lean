import Verif.SpecTrainable
import Verif.SpecMain
import Verif.SpecMachine

/-!
# The shapes of the tensors that training makes, and training with 64-bit numbers (C102)
-/

namespace RL.Spec

open RL

/-- The shape of the product of a matrix, or of a tensor of higher rank, with a matrix. -/
def prodShape : List Nat → List Nat → List Nat
  | [m, _], [_, n] => [m, n]
  | a :: b :: _, [_, n] => [a, b, n]
  | _, _ => []

/-- The shapes of an input, of the weights, the bias, the product and the output of every layer, of the target and of its difference from the
output. -/
def workShapes : List Nat → List (List Nat × List Nat) → List Nat → List (List Nat)
  | x, [], y => [x, y, bshape x y]
  | x, (w, b) :: rest, y => x :: w :: b :: prodShape x w :: workShapes (bshape (prodShape x w) b) rest y

variable {T : Type}

/-- Gradients have the shapes of their tensors, except gradients of scalars. -/
def GradsFit (h : Heap T) : Prop := ∀ (t : Nat) (v g : Raw T), dataOf h t = some v → gradOf h t = some g → g.shape = v.shape ∨ v.shape = []

/-- A shape with fewer than 2^32 elements, also after each dimension of length 0 has been replaced with 1. -/
def Small (s : List Nat) : Prop := (s.map (max 1)).prod < 2 ^ 32

/-- Training on a sequence of batches with 64-bit numbers. -/
def trainEachU [Zero T] [One T] [Add T] [Mul T] [Sub T] [Neg T] [LT T] [DecidableLT T] [LE T] [DecidableLE T] [RealFn T]
    (p : Profile) (mlp : Mlp T) (h : Heap T) : List (Nat × Nat × T) → R (Heap T × Mlp T)
  | [] => return (h, mlp)
  | (input, expected, lr) :: batches => do
    let (h, mlp) ← trainStepU p mlp h input expected lr
    trainEachU p mlp h batches

end RL.Spec
