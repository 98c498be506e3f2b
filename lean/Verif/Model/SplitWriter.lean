import Verif.Model.Jvp
import Mathlib.Data.List.Forall2
import Mathlib.Logic.Function.Basic

/-!
# The threads of `bmm_jvp` with explicit interleavings

`/repo/src/tensor/functional/misc.rs` 141-202 (`SplitArrayWriter`) and 258-326 (the scope of `bmm_jvp`).

There are two machines. The first one (`Step`) has the sender tasks, the channels and the segment receivers, and lets any of them
act at any time: every task has its own thread. The second one (`PStep`) runs the same jobs on the workers of a rayon pool, with
the queues of the pool, so that a job only makes progress while a worker executes it; a worker that executes a receiver is blocked
while the channel of the receiver is empty and not closed. Every step of the second machine is a step of the first one or leaves its
state unchanged.

The channels are `crossbeam::channel::unbounded`: sending never blocks, messages arrive in order, and a receiver is told that the
channel is closed when it is empty and all senders are dropped.
One message sent, and one message received and added into the array, is one step: a receiver is the only one to access its segment
(the segments are the disjoint `&mut` slices of `rchunks_mut`), and the tasks only read shared data.
-/

namespace RL.SplitWriter

open RL

variable {T : Type}

/-- The code of one sender task (lines 272-318): the messages it sends, in order, and whether it panics afterwards. -/
structure Prog (T : Type) where
  msgs : List (Msg T)
  fails : Bool

/-- A sender task. -/
inductive Sender (T : Type) where
  /-- not finished, with what is still to be done -/
  | run (rest : Prog T)
  | done
  /-- panicked -/
  | failed

def Sender.Ended : Sender T → Prop
  | .run _ => False
  | _ => True

/-- State of tasks, channels and arrays; `false` stands for the left writer, `true` for the right one, as in `Msg`. -/
structure St (T : Type) where
  senders : List (Sender T)
  /-- the channel of each segment, oldest message first -/
  chan : Bool → Nat → List (Nat × T)
  /-- `left_array` and `right_array` -/
  arr : Bool → List T
  /-- the assertion of lines 193-194 failed -/
  crashed : Bool

/-- Number of segments of a side, line 155. -/
def St.nseg (s : St T) (side : Bool) : Nat := (rchunks (s.arr side).length).length

/-- Lines 244, 253, 259-260: arrays of zeros, empty channels. -/
def St.init [Zero T] (progs : List (Prog T)) (len : Bool → Nat) : St T where
  senders := progs.map .run
  chan := fun _ _ => []
  arr := fun side => List.replicate (len side) 0
  crashed := false

/-- Who acts: a sender task or the receiver of a segment. -/
inductive Actor where
  | sender (i : Nat)
  | receiver (side : Bool) (seg : Nat)
deriving DecidableEq

/-- One action. -/
inductive Step [Add T] : Actor → St T → St T → Prop where
  /-- lines 173-176, 301, 316: a task sends a message -/
  | send {s : St T} {i : Nat} {m : Msg T} {ms : List (Msg T)} {f : Bool} {seg : Nat} :
      s.senders[i]? = some (.run ⟨m :: ms, f⟩) → senderOf (s.arr m.right).length m.globalIdx = .ok seg →
      Step (.sender i) s { s with
        senders := s.senders.set i (.run ⟨ms, f⟩)
        chan := fun side sg => if side = m.right ∧ sg = seg then s.chan side sg ++ [(m.globalIdx, m.val)] else s.chan side sg }
  /-- line 175: `senders[sender_idx]` panics -/
  | sendFail {s : St T} {i : Nat} {m : Msg T} {ms : List (Msg T)} {f : Bool} {e : Fail} :
      s.senders[i]? = some (.run ⟨m :: ms, f⟩) → senderOf (s.arr m.right).length m.globalIdx = .error e →
      Step (.sender i) s { s with senders := s.senders.set i .failed }
  /-- line 318: a task ends and drops its senders -/
  | finish {s : St T} {i : Nat} : s.senders[i]? = some (.run ⟨[], false⟩) →
      Step (.sender i) s { s with senders := s.senders.set i .done }
  /-- a task panics and drops its senders -/
  | fail {s : St T} {i : Nat} : s.senders[i]? = some (.run ⟨[], true⟩) →
      Step (.sender i) s { s with senders := s.senders.set i .failed }
  /-- lines 191-195: a receiver adds a value into its segment -/
  | recv {s : St T} {side : Bool} {seg g : Nat} {v : T} {q : List (Nat × T)} {a : List T} :
      seg < s.nseg side → s.chan side seg = (g, v) :: q → segmentWrite (s.arr side) seg g v = .ok a →
      Step (.receiver side seg) s { s with
        chan := fun sd sg => if sd = side ∧ sg = seg then q else s.chan sd sg
        arr := fun sd => if sd = side then a else s.arr sd }
  /-- lines 192-195: the assertion (or the subtraction, or the index) panics -/
  | recvFail {s : St T} {side : Bool} {seg g : Nat} {v : T} {q : List (Nat × T)} {e : Fail} :
      seg < s.nseg side → s.chan side seg = (g, v) :: q → segmentWrite (s.arr side) seg g v = .error e →
      Step (.receiver side seg) s { s with
        chan := fun sd sg => if sd = side ∧ sg = seg then q else s.chan sd sg
        crashed := true }

/-- Any actor. -/
def AnyStep [Add T] (s s' : St T) : Prop := ∃ a, Step a s s'

/-- Nothing is left to do. -/
structure St.Complete (s : St T) : Prop where
  ended : ∀ t ∈ s.senders, t.Ended
  empty : ∀ side seg, s.chan side seg = []

/-! ## the pool -/

/-- The jobs of the scope: the sender tasks (line 272), the two jobs of line 184, and the receivers (line 190). -/
inductive Job where
  | sender (i : Nat)
  | start (side : Bool)
  | receiver (side : Bool) (seg : Nat)
deriving DecidableEq, Repr

/-- The job a worker executes; `start side n` is about to spawn the receiver of segment `n`. -/
inductive Running where
  | sender (i : Nat)
  | start (side : Bool) (next : Nat)
  | receiver (side : Bool) (seg : Nat)
deriving DecidableEq, Repr

/-- Begin to execute a job. -/
def Job.begin : Job → Running
  | .sender i => .sender i
  | .start side => .start side 0
  | .receiver side seg => .receiver side seg

/-- A worker thread: its deque, most recently pushed job first, and the job it executes. -/
structure Worker where
  deque : List Job
  cur : Option Running

/-- State of the pool, with the state of the first machine. -/
structure PSt (T : Type) where
  data : St T
  /-- jobs the calling thread has still to spawn, lines 263-325 -/
  main : List Job
  /-- the queue for jobs spawned from outside of the pool, oldest first -/
  injector : List Job
  worker : Nat → Worker

/-- What the calling thread spawns: the tasks in loop order, then the job of the right writer, then that of the left one. -/
def mainJobs (n : Nat) : List Job := (List.range n).map .sender ++ [.start true, .start false]

/-- The scope is entered. -/
def PSt.init [Zero T] (progs : List (Prog T)) (len : Bool → Nat) : PSt T where
  data := St.init progs len
  main := mainJobs progs.length
  injector := []
  worker := fun _ => ⟨[], none⟩

/-- The channels of a side are closed: all tasks have ended, and the calling thread has dropped the senders of the writer
(line 183, before it spawns the job of the writer). -/
def PSt.Closed (p : PSt T) (side : Bool) : Prop := (∀ t ∈ p.data.senders, t.Ended) ∧ Job.start side ∉ p.main

/-- A worker may take a job: it executes none, and is not busy with spawning. `caller` is the worker that called `bmm_jvp`, if it was
called from inside of the pool; this worker runs jobs of the pool when it waits for the scope to end. -/
def PSt.Free (caller : Option Nat) (p : PSt T) (w : Nat) : Prop := (p.worker w).cur = none ∧ (caller = some w → p.main = [])

/-- Replace the state of one worker. -/
def PSt.setWorker (p : PSt T) (w : Nat) (k : Worker) : PSt T := { p with worker := Function.update p.worker w k }

/-- One step of a pool with `n` workers. A free worker may take the job it pushed last, the oldest job of another worker, or the oldest
job spawned from outside; rayon tries them in this order, here any of them may be taken. -/
inductive PStep [Add T] (n : Nat) (caller : Option Nat) : PSt T → PSt T → Prop where
  /-- the calling thread is not a worker: `spawn` injects the job -/
  | inject {p : PSt T} {j : Job} {rest : List Job} : caller = none → p.main = j :: rest →
      PStep n caller p { p with main := rest, injector := p.injector ++ [j] }
  /-- the calling thread is a worker: `spawn` pushes the job on its deque -/
  | push {p : PSt T} {w : Nat} {j : Job} {rest : List Job} : w < n → caller = some w → p.main = j :: rest →
      PStep n caller p ({ p with main := rest }.setWorker w { p.worker w with deque := j :: (p.worker w).deque })
  /-- a worker takes the job it pushed last -/
  | pop {p : PSt T} {w : Nat} {j : Job} {rest : List Job} : w < n → p.Free caller w → (p.worker w).deque = j :: rest →
      PStep n caller p (p.setWorker w ⟨rest, some j.begin⟩)
  /-- a worker takes the oldest job of another one -/
  | steal {p : PSt T} {w v : Nat} {j : Job} {rest : List Job} : w < n → v < n → w ≠ v → p.Free caller w →
      (p.worker v).deque = rest ++ [j] →
      PStep n caller p ((p.setWorker v { p.worker v with deque := rest }).setWorker w { p.worker w with cur := some j.begin })
  /-- a worker takes the oldest injected job -/
  | take {p : PSt T} {w : Nat} {j : Job} {rest : List Job} : w < n → p.Free caller w → p.injector = j :: rest →
      PStep n caller p ({ p with injector := rest }.setWorker w { p.worker w with cur := some j.begin })
  /-- a worker executes a step of a task that goes on -/
  | sender {p : PSt T} {w i : Nat} {d : St T} {rest : Prog T} : w < n → (p.worker w).cur = some (.sender i) →
      Step (.sender i) p.data d → d.senders[i]? = some (.run rest) → PStep n caller p { p with data := d }
  /-- a worker executes the last step of a task -/
  | senderEnd {p : PSt T} {w i : Nat} {d : St T} : w < n → (p.worker w).cur = some (.sender i) →
      Step (.sender i) p.data d → (∀ t, d.senders[i]? = some t → t.Ended) →
      PStep n caller p ({ p with data := d }.setWorker w { p.worker w with cur := none })
  /-- line 190: a receiver is spawned -/
  | spawnReceiver {p : PSt T} {w next : Nat} {side : Bool} : w < n → (p.worker w).cur = some (.start side next) →
      next < p.data.nseg side →
      PStep n caller p (p.setWorker w ⟨.receiver side next :: (p.worker w).deque, some (.start side (next + 1))⟩)
  /-- line 199: all receivers are spawned -/
  | startEnd {p : PSt T} {w next : Nat} {side : Bool} : w < n → (p.worker w).cur = some (.start side next) →
      ¬ next < p.data.nseg side → PStep n caller p (p.setWorker w { p.worker w with cur := none })
  /-- a worker executes a receiver that has a message -/
  | receiver {p : PSt T} {w seg : Nat} {side : Bool} {d : St T} : w < n → (p.worker w).cur = some (.receiver side seg) →
      Step (.receiver side seg) p.data d → PStep n caller p { p with data := d }
  /-- lines 191-196: the channel is empty and closed, the receiver ends -/
  | receiverEnd {p : PSt T} {w seg : Nat} {side : Bool} : w < n → (p.worker w).cur = some (.receiver side seg) →
      p.data.chan side seg = [] → p.Closed side → PStep n caller p (p.setWorker w { p.worker w with cur := none })

/-- The scope is left: everything is spawned and every job has ended. -/
structure PSt.Complete (n : Nat) (p : PSt T) : Prop where
  main : p.main = []
  injector : p.injector = []
  deque : ∀ w < n, (p.worker w).deque = []
  cur : ∀ w < n, (p.worker w).cur = none

/-! ## the scope of `bmm_jvp` -/

/-- The code of the task of `bmm_jvp` for `(i, k, j)`: it sends the messages of `bmmJvpTask` and ends; where that function panics, the
task sends some messages and panics. Of these messages only this is used, that their indices are results of the calls of `global_index`
in lines 288-292 and 303-307. -/
def IsProg [Mul T] (a b jac : Raw T) (sh : BmmJvpShapes) (i k j : Nat) (p : Prog T) : Prop :=
  match bmmJvpTask a b jac sh i k j with
  | .ok msgs => p = ⟨msgs, false⟩
  | .error _ => p.fails = true ∧ ∀ m ∈ p.msgs, ∃ x y, globalIndex [x, y] (if m.right then sh.rightOutput else sh.leftOutput) none =
      .ok m.globalIdx

/-- The indices of the tasks in the order in which they are spawned, lines 263-265. -/
def taskIndices (m k n : Nat) : List (Nat × Nat × Nat) :=
  (List.range m).flatMap fun i => (List.range k).flatMap fun kk => (List.range n).map fun j => (i, kk, j)

/-- The tasks of `bmm_jvp(a, b; jac)`. -/
def AreProgs [Mul T] (a b jac : Raw T) (sh : BmmJvpShapes) (m k n : Nat) (progs : List (Prog T)) : Prop :=
  List.Forall₂ (fun x p => IsProg a b jac sh x.1 x.2.1 x.2.2 p) (taskIndices m k n) progs

/-- Lengths of the two arrays, lines 243 and 252. -/
def lens (sh : BmmJvpShapes) (side : Bool) : Nat := if side then sh.rightOutput.prod else sh.leftOutput.prod

/-- `bmm_jvp(a, b; jac)` has passed its checks (lines 211-257) and enters the scope with these tasks. -/
def IsScope [Mul T] (a b jac : Raw T) (sh : BmmJvpShapes) (progs : List (Prog T)) : Prop :=
  bmmJvpShapes a b jac = .ok sh ∧ ∃ m k n, a.shape[0]? = some m ∧ a.shape[1]? = some k ∧ b.shape[1]? = some n ∧
    AreProgs a b jac sh m k n progs

end RL.SplitWriter
