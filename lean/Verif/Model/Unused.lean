import Verif.Model.Graph

/-!
# Model of the functions that nothing calls

`functional::add` and `tanh_derivative` without the full Jacobian, both private to the crate.
-/

namespace RL

variable {T : Type}

/-- `to_tensor` of an operand: for an `RcTensor` the tensor itself (`/repo/src/tensor/rc_tensor.rs` 195-197), for a view a fresh copy
(`tensor_view.rs` 112-118). The operand `tensor` is an `RcTensor` here, not the `RawTensor` behind it. -/
def Opnd.toTensorT (h : Heap T) : Opnd → R (Heap T × Nat)
  | .tensor t => do
    let _ ← h.node t
    return (h, t)
  | .view v => viewToTensorT h v

/-- `functional::add`: `/repo/src/tensor/functional/element_wise_ops.rs` 112-129. The operands exist before the call. -/
def functionalAddT [Zero T] [Add T] (h : Heap T) (left right : Opnd) : R (Heap T × Nat) := do
  let lv ← left.eval h
  let rv ← right.eval h
  let (h, leftRes) ← left.toTensorT h
  let (h, rightRes) ← right.toTensorT h
  let val ← addRaw lv rv
  return h.alloc { val, grad := none, gradFn := some { inputs := [leftRes, rightRes], kind := .add } }

/-- `tanh_derivative(tensor, false)`: `/repo/src/tensor/functional/element_wise_ops.rs` 84-95. -/
def tanhDiagonal [One T] [Sub T] [RealFn T] (tensor : Raw T) : R (Raw T) := do
  let array ← forElems (.raw tensor) [] (fun array elem => return array ++ [tanhDerivFn elem])
  Raw.new array tensor.shape

end RL
