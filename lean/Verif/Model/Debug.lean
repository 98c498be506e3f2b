import Verif.Model.Memory
import Verif.Model.Nn

/-!
# Model of `{:?}`

`RcTensor` and `RawTensor` derive `Debug` (`/repo/src/tensor/rc_tensor.rs` 27-28, `raw_tensor.rs` 39-49), `Arc`, `RwLock`, `Option` and
`Vec` pass it on to what they contain, and so does the derived `Debug` of `Derivative` (`autograd/jvp.rs` 5-12). So a tensor is printed
with its gradient and with all inputs in its history, each of these again in full. Modelled is which tensors are printed in which order
and at which depth; not modelled are the punctuation, the names of the fields, the address of the function and the text in `debug_info`.
(No lock is held for writing meanwhile, so the gradient is not shown as `<locked>`. That `RwLock` counts at most about 2^30 readers is not
modelled either: the stack overflows long before.)
-/

namespace RL

variable {T : Type}

/-- One printed tensor: how deep it is nested, which tensor it is (not printed), and its `array` and `shape`. -/
structure Shown (T : Type) where
  depth : Nat
  id : Nat
  val : Raw T
  deriving DecidableEq

/-- `{:?}` of an `RcTensor`: `array`, `shape`, `grad`, `grad_fn` (`raw_tensor.rs` 39-49). Every nested tensor is printed by a nested
call, and `stack` is the number of nested calls the stack has room for; with less room the process is aborted. -/
def debugFmt (h : Heap T) : Nat → Nat → Nat → R (List (Shown T))
  | 0, _, _ => R.panic .diverge
  | stack + 1, depth, t => do
    let n ← h.node t
    let inner ← n.refs.mapM (debugFmt h stack (depth + 1))
    return ⟨depth, t, n.val⟩ :: inner.flatten

/-- `{:?}` of an `Mlp`: the derived `Debug` of `Mlp` and `Linear` (`nn/feed_foward.rs` 7-13, `nn/linear.rs` 6-14) print the weights and the
bias of each layer. -/
def Mlp.debugFmt (h : Heap T) (stack : Nat) (mlp : Mlp T) : R (List (Shown T)) := do
  let inner ← mlp.params.mapM (RL.debugFmt h stack 0)
  return inner.flatten

end RL
