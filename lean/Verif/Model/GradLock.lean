import Verif.Model.Graph
import Mathlib.Logic.Function.Basic

/-!
# Gradient updates by several threads

`/repo/src/tensor/raw_tensor.rs` 307-313: `update_grad` reads the gradient under the read lock (held until the end of the `let`
statement, so during the addition), and stores the new one under the write lock, which it takes afterwards.

`compute_jvp` (`/repo/src/tensor/autograd/jvp.rs` 30-51) reads data and history of tensors only, which never change, so the updates a
thread performs in `backward` do not depend on what other threads do. A thread is its list of updates here. Only the values of
gradients are kept, not the tensors that hold them.
-/

namespace RL

variable {T : Type}

/-- The data of the tensors `ids`. -/
def Heap.vals (h : Heap T) (ids : List Nat) : R (List (Raw T)) :=
  ids.mapM (fun i => do return (← h.node i).val)

section
variable [Zero T] [One T] [Add T] [Mul T] [Sub T] [Neg T] [LT T] [DecidableLT T] [LE T] [DecidableLE T] [RealFn T]

/-- `/repo/src/tensor/autograd/jvp.rs` 30-51: the gradient updates of `compute_jvp`, in order, read off the data and the history only. -/
def jvpUpdates : Nat → Heap T → Deriv → List (Raw T) → R (List (Nat × Raw T))
  | 0, _, _, _ => R.panic .diverge
  | fuel + 1, h, d, outerGrads => do
    let inputs ← h.vals d.inputs
    let selfGrads ← applyJvp d.kind inputs outerGrads
    let us ← (selfGrads.zip d.inputs).mapM (fun (grad, input) => do
      let n ← h.node input
      assertR (grad.array.length == n.val.array.length)
      let shapedGrad ← Raw.new grad.array n.val.shape
      let rest ← match n.gradFn with
        | some d' => jvpUpdates fuel h d' [grad]
        | none => pure []
      return (input, shapedGrad) :: rest)
    return us.flatten

/-- `/repo/src/tensor/rc_tensor.rs` 50-60: the gradient updates of `backward`, in order. -/
def backwardUpdates (h : Heap T) (l : Nat) : R (List (Nat × Raw T)) := do
  let n ← h.node l
  assertR (n.val.array.length == 1)
  let d ← unwrapO n.gradFn
  jvpUpdates (h.length + 1) h d [Raw.scalar 1]

end

namespace GradLock

/-- A thread, with the updates (tensor and contribution) it has still to perform. -/
inductive Thread (T : Type) where
  /-- between two updates -/
  | run (rest : List (Nat × Raw T))
  /-- holds the read lock of `t`, in lines 308-311 -/
  | reading (t : Nat) (g : Raw T) (rest : List (Nat × Raw T))
  /-- between line 311 and line 312: has computed `v` from the gradient it has read and from `g`, holds no lock -/
  | computed (t : Nat) (g v : Raw T) (rest : List (Nat × Raw T))
  | panicked

/-- holds the read lock of `t` -/
def Thread.Reads (t : Nat) : Thread T → Prop
  | .reading t' _ _ => t' = t
  | _ => False

/-- is inside of `update_grad` of `t` -/
def Thread.Updates (t : Nat) : Thread T → Prop
  | .reading t' _ _ => t' = t
  | .computed t' _ _ _ => t' = t
  | _ => False

structure LSt (T : Type) where
  /-- the value of the gradient of each tensor -/
  cell : Nat → Option (Raw T)
  threads : List (Thread T)

/-- The threads start. -/
def LSt.init (cell : Nat → Option (Raw T)) (ups : List (List (Nat × Raw T))) : LSt T := ⟨cell, ups.map .run⟩

/-- Every thread has performed all of its updates. -/
def LSt.Done (s : LSt T) : Prop := ∀ x ∈ s.threads, x = .run []

/-- Lines 308-311. -/
def newGrad [Zero T] [Add T] : Option (Raw T) → Raw T → R (Raw T)
  | none, g => .ok g
  | some o, g => addRaw (.raw o) (.raw g)

/-- One step of one thread. -/
inductive LStep [Zero T] [Add T] : LSt T → LSt T → Prop where
  /-- line 308: take the read lock -/
  | lock {s : LSt T} {i t : Nat} {g : Raw T} {rest : List (Nat × Raw T)} : s.threads[i]? = some (.run ((t, g) :: rest)) →
      LStep s { s with threads := s.threads.set i (.reading t g rest) }
  /-- lines 309-311: compute the new gradient, release the read lock -/
  | compute {s : LSt T} {i t : Nat} {g v : Raw T} {rest : List (Nat × Raw T)} : s.threads[i]? = some (.reading t g rest) →
      newGrad (s.cell t) g = .ok v → LStep s { s with threads := s.threads.set i (.computed t g v rest) }
  /-- line 310: the addition panics -/
  | panic {s : LSt T} {i t : Nat} {g : Raw T} {rest : List (Nat × Raw T)} {e : Fail} : s.threads[i]? = some (.reading t g rest) →
      newGrad (s.cell t) g = .error e → LStep s { s with threads := s.threads.set i .panicked }
  /-- line 312: the write lock is free of readers; store the new gradient -/
  | write {s : LSt T} {i t : Nat} {g v : Raw T} {rest : List (Nat × Raw T)} : s.threads[i]? = some (.computed t g v rest) →
      (∀ x ∈ s.threads, ¬ x.Reads t) →
      LStep s { cell := Function.update s.cell t (some v), threads := s.threads.set i (.run rest) }

/-- No two threads are inside of `update_grad` of the same tensor. -/
def LSt.Exclusive (s : LSt T) : Prop :=
  ∀ (i j t : Nat) (x y : Thread T), s.threads[i]? = some x → s.threads[j]? = some y → x.Updates t → y.Updates t → i = j

/-- A step after which no two threads are inside of `update_grad` of the same tensor, as if a single lock were held from line 308 to
line 312. -/
def XStep [Zero T] [Add T] (s s' : LSt T) : Prop := LStep s s' ∧ s'.Exclusive

end GradLock

end RL
