import Verif.SpecMemory
import Verif.SpecParam

/-!
# What an operation depends on (C109)
-/

namespace RL.Spec

open RL

variable {T : Type}

/-- The operands of `o` lead to tensor `i`: it is an operand, or a gradient or an input in the history of a tensor they lead to. -/
def LeadsTo (h : Heap T) (o : Op T) (i : Nat) : Prop := ∃ x ∈ o.ids, Relation.ReflTransGen (Refers h) x i

/-- `h'` and `g'` are the same where `U` says, and have kept what `h` and `g` contained elsewhere. -/
structure SameWhere (U : Nat → Prop) (h g h' g' : Heap T) : Prop where
  length : h'.length = g'.length
  same : ∀ i, U i → h'[i]? = g'[i]?
  kept : ∀ i, ¬ U i → h'[i]? = h[i]? ∧ g'[i]? = g[i]?

end RL.Spec
