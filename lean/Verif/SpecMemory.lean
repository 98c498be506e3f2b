import Verif.SpecGraph
import Verif.Model.Memory

/-!
# Which tensors are in memory (C67-C70)
-/

namespace RL.Spec

open RL

variable {T : Type}

/-- Tensor `a` owns a reference to `b`: `b` is its gradient or an input in its history. -/
def Refers (h : Heap T) (a b : Nat) : Prop := (∃ n, h[a]? = some n ∧ n.grad = some b) ∨ IsInput h b a

/-- The program can get at `i` from the tensors it owns. -/
def InUse (m : Mem T) (i : Nat) : Prop := ∃ x ∈ m.held, Relation.ReflTransGen (Refers m.heap) x i

/-- Tensor `i` is in memory. -/
def Live (m : Mem T) (i : Nat) : Prop := m.count i ≠ 0

/-- Number of references tensor `j` owns to `i`. -/
def refCount (h : Heap T) (j i : Nat) : Nat := match h[j]? with
  | none => 0
  | some n => (if n.grad = some i then 1 else 0) + (match n.gradFn with
    | none => 0
    | some d => d.inputs.count i)

/-- No tensor refers to itself, directly or through others. -/
def Acyclic (h : Heap T) : Prop := ∀ i, ¬ Relation.TransGen (Refers h) i i

/-- The operations of a program, without clones and drops. -/
def graphOps (os : List (MemOp T)) : List (Op T) := os.filterMap fun
  | .op x => some x
  | _ => none

variable [Zero T] [One T] [Add T] [Mul T] [Sub T] [Neg T] [LT T] [DecidableLT T] [LE T] [DecidableLE T] [RealFn T]

/-- The program never calls `t.update_grad(g)` with a `g` that refers to `t`. -/
inductive Tame : List (MemOp T) → Mem T → Prop
  | nil (m : Mem T) : Tame [] m
  | cons {o : MemOp T} {os : List (MemOp T)} {m : Mem T} :
      (∀ t g, o = .op (.updateGrad t g) → ¬ Relation.ReflTransGen (Refers m.heap) g t) →
      (∀ m', o.run m = .ok m' → Tame os m') → Tame (o :: os) m

/-- From `h` to `h'` the gradient of `t` is not cleared, and `backward` adds to it `n` times (once for every path from the loss to `t`). -/
inductive Accumulates (t : Nat) : Nat → Heap T → Heap T → Prop
  | start {h : Heap T} : Accumulates t 0 h h
  | other {n : Nat} {h h1 h2 : Heap T} {o : Op T} : Accumulates t n h h1 → o ≠ .zeroGrad t → o.run h1 = .ok h2 → Accumulates t n h h2
  | back {n l : Nat} {h h1 h2 : Heap T} {ps : List (List Nat)} : Accumulates t n h h1 → ps.Nodup → (∀ p, p ∈ ps ↔ Path h1 l t p) →
      backward h1 l = .ok h2 → Accumulates t (n + ps.length) h h2

end RL.Spec
