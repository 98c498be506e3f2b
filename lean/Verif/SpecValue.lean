import Verif.SpecGraph

/-!
# Results of operations on tensors with history, in terms of data alone (C66)

The functions on data (`addRaw`, `bmmRaw`, ...) are those of the model; what they compute is the subject of C10-C20.
-/

namespace RL.Spec

open RL

variable {T : Type}

/-- Data of a tensor; a program has no other tensors than existing ones. -/
def look (h : Heap T) (t : Nat) : R (Raw T) := match dataOf h t with
  | some v => .ok v
  | none => .error (.panic .index)

/-- A view in terms of data. -/
def lookView (h : Heap T) : VExpr → R (View T)
  | .view t ranges => do View.new (← look h t) ranges
  | .reshape v shape => do (← lookView h v).reshape shape
  | .slice v ranges => do (← lookView h v).slice ranges

/-- An operand in terms of data. -/
def lookOpnd (h : Heap T) : Opnd → R (TL T)
  | .tensor t => do return .raw (← look h t)
  | .view v => do return .view (← lookView h v)

variable [Zero T] [One T] [Add T] [Mul T] [Sub T] [Neg T] [LT T] [DecidableLT T] [LE T] [DecidableLE T] [RealFn T]

/-- Data of the result of an operation, computed from the data of its operands without a graph; `none` for the operations that return
no tensor. -/
def resultOf (h : Heap T) : Op T → Option (R (Raw T))
  | .new array shape => some (Raw.new array shape)
  | .filler shape v => some (.ok (Raw.newWithFiller shape v))
  | .scalar v => some (.ok ⟨[v], []⟩)
  | .default => some (.ok ⟨[], []⟩)
  | .add l r => some do addRaw (.raw (← look h l)) (.raw (← look h r))
  | .sub l r => some do
    let n ← negRaw (.raw (← look h r))
    addRaw (.raw (← look h l)) (.raw n)
  | .neg t => some do negRaw (.raw (← look h t))
  | .mul l r => some do mulRaw (← look h l) (.raw (← look h r))
  | .relu t => some do reluRaw (.raw (← look h t))
  | .tanh t => some do tanhRaw (.raw (← look h t))
  | .abs t => some do absRaw (.raw (← look h t))
  | .sum t => some do (TL.raw (← look h t)).sum
  | .bmm l r => some do bmmRaw (.raw (← look h l)) (.raw (← look h r))
  | .dot l r => some do dotRaw (.raw (← look h l)) (.raw (← look h r))
  | .viewToTensor v => some do (TL.view (← lookView h v)).toTensor
  | .viewSum v => some do (TL.view (← lookView h v)).sum
  | .bmmView l v => some do
    let a ← look h l
    let v := TL.view (← lookView h v)
    let val ← bmmRaw (.raw a) v
    let _ ← v.toTensor
    return val
  | .viewBmm v r => some do bmmRaw (.view (← lookView h v)) (.raw (← look h r))
  | .viewBmmView v w => some do bmmRaw (.view (← lookView h v)) (.view (← lookView h w))
  | .mulView l v => some do mulRaw (← look h l) (.view (← lookView h v))
  | .rawBin .add l r => some do addRaw (← lookOpnd h l) (← lookOpnd h r)
  | .rawBin .mul l r => some do elementWiseMul (← lookOpnd h l) (← lookOpnd h r)
  | .rawBin .dot l r => some do dotRaw (← lookOpnd h l) (← lookOpnd h r)
  | .rawBin .bmm l r => some do bmmRaw (← lookOpnd h l) (← lookOpnd h r)
  | .rawSub l r => some do addRaw (.raw (← look h l)) (.raw (← negRaw (.raw (← look h r))))
  | .rawUnary f x => some do genericUnaryOp (← lookOpnd h x) f
  | .leftMul s x => some do return (← lookOpnd h x).leftScalarMul s
  | .rightMul x s => some do return (← lookOpnd h x).rightScalarMul s
  | .rawSum t => some do (TL.raw (← look h t)).sum
  | .deepClone t => some (look h t)
  | .rawClone t => some (look h t)
  | .updateGrad _ _ | .zeroGrad _ | .backward _ => none

/-- The gradient with which the result of an operation starts. -/
def firstGrad (h : Heap T) : Op T → Option (Raw T)
  | .sum t | .rawSum t => (dataOf h t).map fun v => Raw.newWithFiller v.shape 1
  | .rawClone t => gradOf h t
  | _ => none

end RL.Spec
