import Verif.SpecParam
import Verif.Spec

/-!
# Which elements of integer tensors matter for `relu`
-/

namespace RL

namespace Spec

/-- The elements that went into `relu`, in two runs of the same program, have `E`. -/
def AtRelu {T S : Type} (E : T → S → Prop) (h : Heap T) (h' : Heap S) : Prop :=
  ∀ i d p v v', historyOf h i = some (some d) → d.kind = .relu → p ∈ d.inputs → dataOf h p = some v → dataOf h' p = some v' →
    ∀ (k : Nat) (a : T) (x : S), v.array[k]? = some a → v'.array[k]? = some x → E a x

/-- No element has overflown. -/
def NoOverflow {lo hi : Int} (h : Heap (Checked lo hi)) : Prop := ∀ n ∈ h, ∀ x ∈ n.val.array, x.val ≠ none

end Spec

end RL
