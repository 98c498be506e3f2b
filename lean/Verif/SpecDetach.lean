import Verif.SpecNn
import Verif.Model.Train

/-!
# Training that forgets the histories of the parameters (C97)
-/

namespace RL.Spec

open RL

variable {T : Type}

/-- Different tensors without gradients, none of them computed from another one. -/
structure Loose (h : Heap T) (ts : List Nat) : Prop where
  nodup : ts.Nodup
  exist : ∀ t ∈ ts, t < h.length
  noGrad : ∀ t ∈ ts, gradOf h t = none
  apart : ∀ s ∈ ts, ∀ t ∈ ts, ¬ Ancestor h s t

/-- Different tensors without gradients and without histories. -/
structure Fresh (h : Heap T) (ts : List Nat) : Prop where
  nodup : ts.Nodup
  noHistory : ∀ t ∈ ts, historyOf h t = some none
  noGrad : ∀ t ∈ ts, gradOf h t = none

/-- Tensors with the same data. -/
def SameData (g : Heap T) (ts : List Nat) (h : Heap T) (us : List Nat) : Prop := List.Forall₂ (fun t u => dataOf g t = dataOf h u) ts us

/-- The activations of the library, and none. -/
def Usual [Zero T] [LT T] [DecidableLT T] [RealFn T] (f : Activation T) : Prop := f = Activation.identity ∨ f = reluT ∨ f = tanhT

/-- The network with a `deep_clone` of each parameter. -/
def detach (mlp : Mlp T) (h : Heap T) : R (Heap T × Mlp T) := do
  let (h, new) ← mlp.params.foldlM (init := (h, ([] : List Nat))) (fun (h, new) p => do
    let (h, q) ← deepCloneT h p
    return (h, new ++ [q]))
  let mlp ← mlp.updateParams new
  return (h, mlp)

/-- The training loop, where `detach` is called after every step. -/
def trainDetached [Zero T] [One T] [Add T] [Mul T] [Sub T] [Neg T] [LT T] [DecidableLT T] [LE T] [DecidableLE T] [RealFn T]
    (mlp : Mlp T) (h : Heap T) (input expected : Nat) (lr : T) : Nat → R (Heap T × Mlp T)
  | 0 => return (h, mlp)
  | n + 1 => do
    let (h, mlp) ← trainStep mlp h input expected lr
    let (h, mlp) ← detach mlp h
    trainDetached mlp h input expected lr n

end RL.Spec
