import Verif.Model.Functional

/-!
# The tasks of `bmm_raw` with explicit interleavings

`/repo/src/tensor/functional/misc.rs` 69-123. For every output row the main thread cuts the row off
`result_array`, cuts the row into one-element slots, and spawns one task per slot; the scope waits for all tasks
of the row before the next row starts. A task runs a loop over `k` with a local accumulator `val` and finally
stores `val` in its slot.

A state holds the whole result array and the local states of the tasks of the current row. A step is one action
of one thread. The scheduler is unrestricted: any enabled step may happen next, so every real schedule (any number
of threads, work stealing, the inline run of line 117 when the inner dimension is 0) is a run of this machine.
One loop iteration is one step: the operands are only read and `val` is local, so finer steps would not be
distinguishable. A panic in a task (`unwrap` in lines 106-107) marks it failed; rayon re-raises it when the scope
ends.
-/

namespace RL.BmmPar

open RL

/-- Local state of the closure in lines 97-111. -/
inductive Task (T : Type) where
  /-- about to run iteration `k` (or, with `k = rows`, to store `val`) -/
  | run (k : Nat) (val : T)
  /-- slot written -/
  | done
  /-- panicked -/
  | failed

/-- What the tasks read. -/
structure Job (T : Type) where
  /-- `(batch_idx, i)` of the output rows in loop order, lines 76-85 -/
  rows : List (Nat × Nat)
  /-- `new_shape[2]` -/
  ncol : Nat
  /-- `right_shape[0]` -/
  inner : Nat
  /-- the factors read in iteration `k` of task `j` of row `(batch_idx, i)`, lines 104-107 -/
  factors : (Nat × Nat) → (j k : Nat) → R (T × T)

/-- Global state. -/
structure St (T : Type) where
  /-- number of completed rows -/
  row : Nat
  /-- `result_array` -/
  arr : List T
  /-- tasks spawned so far for the current row -/
  tasks : List (Task T)
  /-- a panic left the scope -/
  panicked : Bool

variable {T : Type}

/-- `result_array` is all zeros, line 69. -/
def St.init [Zero T] (J : Job T) : St T :=
  { row := 0, arr := List.replicate (J.rows.length * J.ncol) 0, tasks := [], panicked := false }

def Task.isRun : Task T → Bool
  | .run _ _ => true
  | _ => false

def Task.isDone : Task T → Bool
  | .done => true
  | _ => false

/-- One action of one thread. `p` is the current row. -/
inductive Step [Zero T] [Add T] [Mul T] (J : Job T) : St T → St T → Prop
  /-- lines 90-113: the main thread spawns the next task -/
  | spawn (s : St T) : s.panicked = false → s.row < J.rows.length → s.tasks.length < J.ncol →
      Step J s { s with tasks := s.tasks ++ [.run 0 0] }
  /-- lines 102-107: task `j` runs one iteration -/
  | iter (s : St T) (p : Nat × Nat) (j k : Nat) (val a b : T) : s.panicked = false → J.rows[s.row]? = some p →
      s.tasks[j]? = some (.run k val) → k < J.inner → J.factors p j k = .ok (a, b) →
      Step J s { s with tasks := s.tasks.set j (.run (k + 1) (val + a * b)) }
  /-- lines 106-107: a read of task `j` fails -/
  | fail (s : St T) (p : Nat × Nat) (j k : Nat) (val : T) (e : Fail) : s.panicked = false →
      J.rows[s.row]? = some p → s.tasks[j]? = some (.run k val) → k < J.inner → J.factors p j k = .error e →
      Step J s { s with tasks := s.tasks.set j .failed }
  /-- line 110: task `j` stores its value in its slot -/
  | write (s : St T) (j : Nat) (val : T) : s.panicked = false → s.row < J.rows.length →
      s.tasks[j]? = some (.run J.inner val) →
      Step J s { s with arr := s.arr.set (s.row * J.ncol + j) val, tasks := s.tasks.set j .done }
  /-- line 120: the scope ends after all tasks of the row -/
  | join (s : St T) : s.panicked = false → s.row < J.rows.length → s.tasks.length = J.ncol →
      (∀ t ∈ s.tasks, t.isDone = true) → Step J s { s with row := s.row + 1, tasks := [] }
  /-- line 120: the scope ends and re-raises a panic -/
  | joinFail (s : St T) : s.panicked = false → s.row < J.rows.length → s.tasks.length = J.ncol →
      (∀ t ∈ s.tasks, t.isRun = false) → (∃ t ∈ s.tasks, t.isDone = false) →
      Step J s { s with panicked := true }

/-- All rows are complete. -/
def St.Finished (J : Job T) (s : St T) : Prop := s.row = J.rows.length ∧ s.panicked = false

/-- The job of `bmm_raw(left, right)` for the output dimensions `nb`, `nrow`, `ncol` (lines 62-66) and the inner
dimension `inner`. -/
def job (left right : TL T) (nb nrow ncol inner : Nat) : Job T where
  rows := (List.range nb).flatMap (fun b => (List.range nrow).map (fun i => (b, i)))
  ncol := ncol
  inner := inner
  factors := fun p j k => do
    let li := bmmLeftIndex left p.1 p.2
    let l ← unwrapR (left.get (li.set (li.length - 1) k))
    let r ← unwrapR (right.get ((right.shape.set 1 j).set 0 k))
    return (l, r)

end RL.BmmPar
