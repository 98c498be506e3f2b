import Verif.SpecDetach
import Verif.SpecGrad

/-!
# Which shapes can be trained (C99, C100)
-/

namespace RL.Spec

open RL

variable {T : Type}

/-- The shapes of a batch, of the weights and the bias of every layer, and of the target, that fit together: every layer multiplies a matrix,
or a tensor all of whose dimensions are 1, with its weights, and adds a bias that can be broadcast against the product; the target can be
broadcast against the output of the last layer. -/
inductive Trainable : List Nat → List (List Nat × List Nat) → List Nat → Prop where
  | target {x y : List Nat} : Compatible x y → Trainable x [] y
  | matrix {m k n : Nat} {b y : List Nat} {rest : List (List Nat × List Nat)} :
      Compatible [m, n] b → Trainable (bshape [m, n] b) rest y → Trainable [m, k] (([k, n], b) :: rest) y
  | ones {x : List Nat} {n : Nat} {b y : List Nat} {rest : List (List Nat × List Nat)} :
      3 ≤ x.length → (∀ d ∈ x, d = 1) → Compatible [1, 1, n] b → Trainable (bshape [1, 1, n] b) rest y → Trainable x (([1, n], b) :: rest) y

/-- The tensor has this shape. -/
def HasShape (h : Heap T) (t : Nat) (s : List Nat) : Prop := ∃ v, dataOf h t = some v ∧ v.shape = s

/-- The weights and the biases of the layers have these shapes. -/
def LayerShapes (h : Heap T) (mlp : Mlp T) (ss : List (List Nat × List Nat)) : Prop :=
  List.Forall₂ (fun l s => HasShape h l.weights s.1 ∧ HasShape h l.bias s.2) mlp.layers ss

/-- The layers of a dense network: the widths follow each other, and the biases are rows. -/
inductive Dense : Nat → List (List Nat × List Nat) → Nat → Prop where
  | nil (k : Nat) : Dense k [] k
  | cons {k n o : Nat} {b : List Nat} {ss : List (List Nat × List Nat)} : b = [n] ∨ b = [1, n] → Dense n ss o → Dense k (([k, n], b) :: ss) o

/-- Tensors without history, with as many elements as their shapes say and no dimension of length 0; a gradient they may have already has the
shape of the tensor. -/
def Loaded (h : Heap T) (ts : List Nat) : Prop :=
  ∀ t ∈ ts, historyOf h t = some none ∧ ∃ v, dataOf h t = some v ∧ v.array.length = v.shape.prod ∧ (∀ d ∈ v.shape, 0 < d) ∧
    ∀ g, gradOf h t = some g → g.shape = v.shape ∧ g.array.length = g.shape.prod

/-- The training loop with an input, a target and a learning rate for every step. -/
def trainEach [Zero T] [One T] [Add T] [Mul T] [Sub T] [Neg T] [LT T] [DecidableLT T] [LE T] [DecidableLE T] [RealFn T]
    (mlp : Mlp T) (h : Heap T) : List (Nat × Nat × T) → R (Heap T × Mlp T)
  | [] => return (h, mlp)
  | (input, expected, lr) :: batches => do
    let (h, mlp) ← trainStep mlp h input expected lr
    trainEach mlp h batches

end RL.Spec
