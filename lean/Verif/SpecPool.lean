import Verif.Model.PoolMany
import Mathlib.Logic.Relation

/-!
# What a call of `bmm_jvp` may do on its own

Used for C62: every task and every receiver has its own thread (`AnyStep`), and there are no other calls.
-/

namespace RL.Spec

open RL SplitWriter

variable {T : Type}

/-- On its own, the call may end with these tensors. -/
def MayReturn [Zero T] [Add T] [Mul T] (c : Call T) (r : List (Raw T)) : Prop :=
  ∃ sh progs s, IsScope c.left c.right c.jac sh progs ∧ Relation.ReflTransGen AnyStep (St.init progs (lens sh)) s ∧ s.Complete ∧
    Sender.failed ∉ s.senders ∧ r = [⟨s.arr false, sh.leftOutput⟩, ⟨s.arr true, sh.rightOutput⟩]

/-- On its own, the call may panic. -/
def MayPanic [Zero T] [Add T] [Mul T] (c : Call T) : Prop :=
  (∃ e, bmmJvpShapes c.left c.right c.jac = .error e) ∨
    ∃ sh progs s, IsScope c.left c.right c.jac sh progs ∧ Relation.ReflTransGen AnyStep (St.init progs (lens sh)) s ∧ s.Complete ∧
      Sender.failed ∈ s.senders

/-- The sequential run of a call. -/
def runCall [Zero T] [Add T] [Mul T] (c : Call T) : R (List (Raw T)) := bmmJvp [c.left, c.right] [c.jac]

end RL.Spec
