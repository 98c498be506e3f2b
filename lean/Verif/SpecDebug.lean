import Verif.SpecMemory
import Verif.Model.Debug

/-!
# What `{:?}` prints (C87)
-/

namespace RL.Spec

open RL

variable {T : Type}

/-- `p` leads from tensor `t` to tensor `i` by references that tensors own: 0 is a step to the gradient, `k + 1` a step to input `k` in the
history. -/
inductive OwnPath (h : Heap T) : Nat → Nat → List Nat → Prop where
  | here {t : Nat} {n : Node T} : h[t]? = some n → OwnPath h t t []
  | grad {t g i : Nat} {n : Node T} {p : List Nat} : h[t]? = some n → n.grad = some g → OwnPath h g i p → OwnPath h t i (0 :: p)
  | input {t j k i : Nat} {n : Node T} {d : Deriv} {p : List Nat} : h[t]? = some n → n.gradFn = some d → d.inputs[k]? = some j →
      OwnPath h j i p → OwnPath h t i ((k + 1) :: p)

end RL.Spec
