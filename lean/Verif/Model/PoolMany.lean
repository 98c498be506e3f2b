import Verif.Model.SplitWriter

/-!
# Several threads that call `bmm_jvp` on the same pool

`/repo/src/tensor/functional/misc.rs` 211-331 with `rayon::in_place_scope` in line 258: all calls use the global pool of rayon. Every
thread makes a sequence of calls (as `backward` does for a graph with several matrix products); it runs outside of the pool or is a job
executed by one of its workers. The jobs of a call carry the number of the thread; a thread is in at most one scope at a time.

A thread in the pool spawns on the deque of its worker; while it waits for the scope to end, its worker executes jobs of the pool, of
whatever thread. When a call panics, the thread unwinds and makes no further calls. What a thread does between two calls takes no steps
here (it is assumed to end).

Not modelled: a job of the pool that itself calls `bmm_jvp` and is taken by a worker that waits in a scope; here every thread in the
pool has its own worker from the beginning. The repository has no such jobs.
-/

namespace RL.SplitWriter

open RL

variable {T : Type}

/-- A call of `bmm_jvp`: the two matrices and the Jacobian. -/
structure Call (T : Type) where
  left : Raw T
  right : Raw T
  jac : Raw T

/-- A thread. -/
structure Thread (T : Type) where
  /-- tasks, channels and arrays of the present call -/
  data : St T
  /-- shapes computed by the present call -/
  shapes : BmmJvpShapes
  /-- jobs of the present call that are still to be spawned, lines 263-325 -/
  rest : List Job
  /-- in a scope -/
  active : Bool
  /-- calls to come -/
  todo : List (Call T)
  /-- what the calls have returned so far -/
  results : List (List (Raw T))
  /-- a call has panicked -/
  panicked : Bool

/-- A worker: its deque, most recently pushed job first, and the job it executes. -/
structure MWorker where
  deque : List (Nat × Job)
  cur : Option (Nat × Running)

/-- State of the pool and the threads. -/
structure MSt (T : Type) where
  thread : Nat → Thread T
  injector : List (Nat × Job)
  worker : Nat → MWorker

def MSt.setThread (p : MSt T) (t : Nat) (th : Thread T) : MSt T := { p with thread := Function.update p.thread t th }

def MSt.setWorker (p : MSt T) (w : Nat) (k : MWorker) : MSt T := { p with worker := Function.update p.worker w k }

/-- Nothing has happened yet. -/
def MSt.init [Zero T] (calls : Nat → List (Call T)) : MSt T where
  thread := fun t => ⟨St.init [] fun _ => 0, ⟨[], [], [], []⟩, [], false, calls t, [], false⟩
  injector := []
  worker := fun _ => ⟨[], none⟩

/-- A worker may take a job: it executes none, and a thread that it hosts waits for its scope or has ended. -/
def MSt.Free (K : Nat) (place : Nat → Option Nat) (p : MSt T) (w : Nat) : Prop :=
  (p.worker w).cur = none ∧
    ∀ t < K, place t = some w → (p.thread t).rest = [] ∧ ((p.thread t).active = true ∨ (p.thread t).todo = [])

/-- The channels of a side are closed, as in `PSt.Closed`. -/
def MSt.Closed (p : MSt T) (t : Nat) (side : Bool) : Prop :=
  (∀ s ∈ (p.thread t).data.senders, s.Ended) ∧ Job.start side ∉ (p.thread t).rest

/-- All jobs of a thread have ended. -/
structure MSt.Gone (n : Nat) (p : MSt T) (t : Nat) : Prop where
  injector : ∀ x ∈ p.injector, x.1 ≠ t
  deque : ∀ w < n, ∀ x ∈ (p.worker w).deque, x.1 ≠ t
  cur : ∀ w < n, ∀ x, (p.worker w).cur = some x → x.1 ≠ t

/-- One step of `K` threads and a pool with `n` workers; `place t` is the worker that executes thread `t`, if it runs in the pool. -/
inductive MStep [Zero T] [Add T] [Mul T] (n K : Nat) (place : Nat → Option Nat) : MSt T → MSt T → Prop where
  /-- lines 211-258: the next call passes its checks and enters its scope -/
  | enter {p : MSt T} {t : Nat} {c : Call T} {more : List (Call T)} {sh : BmmJvpShapes} {progs : List (Prog T)} : t < K →
      (p.thread t).active = false → (p.thread t).todo = c :: more → IsScope c.left c.right c.jac sh progs →
      MStep n K place p (p.setThread t { p.thread t with
        data := St.init progs (lens sh), shapes := sh, rest := mainJobs progs.length, active := true, todo := more })
  /-- lines 211-257: the next call panics before it enters its scope -/
  | refuse {p : MSt T} {t : Nat} {c : Call T} {more : List (Call T)} {e : Fail} : t < K →
      (p.thread t).active = false → (p.thread t).todo = c :: more → bmmJvpShapes c.left c.right c.jac = .error e →
      MStep n K place p (p.setThread t { p.thread t with todo := [], panicked := true })
  /-- a thread outside of the pool spawns a job -/
  | inject {p : MSt T} {t : Nat} {j : Job} {rest : List Job} : t < K → place t = none → (p.thread t).rest = j :: rest →
      MStep n K place p { p.setThread t { p.thread t with rest } with injector := p.injector ++ [(t, j)] }
  /-- a thread in the pool spawns a job -/
  | push {p : MSt T} {t w : Nat} {j : Job} {rest : List Job} : t < K → w < n → place t = some w → (p.thread t).rest = j :: rest →
      MStep n K place p ((p.setThread t { p.thread t with rest }).setWorker w
        { p.worker w with deque := (t, j) :: (p.worker w).deque })
  /-- a worker takes the job it pushed last -/
  | pop {p : MSt T} {w t : Nat} {j : Job} {rest : List (Nat × Job)} : w < n → p.Free K place w → (p.worker w).deque = (t, j) :: rest →
      MStep n K place p (p.setWorker w ⟨rest, some (t, j.begin)⟩)
  /-- a worker takes the oldest job of another one -/
  | steal {p : MSt T} {w v t : Nat} {j : Job} {rest : List (Nat × Job)} : w < n → v < n → w ≠ v → p.Free K place w →
      (p.worker v).deque = rest ++ [(t, j)] →
      MStep n K place p ((p.setWorker v { p.worker v with deque := rest }).setWorker w { p.worker w with cur := some (t, j.begin) })
  /-- a worker takes the oldest injected job -/
  | take {p : MSt T} {w t : Nat} {j : Job} {rest : List (Nat × Job)} : w < n → p.Free K place w → p.injector = (t, j) :: rest →
      MStep n K place p ({ p with injector := rest }.setWorker w { p.worker w with cur := some (t, j.begin) })
  /-- a worker executes a step of a task that goes on -/
  | sender {p : MSt T} {w t i : Nat} {d : St T} {rest : Prog T} : w < n → (p.worker w).cur = some (t, .sender i) →
      Step (.sender i) (p.thread t).data d → d.senders[i]? = some (.run rest) →
      MStep n K place p (p.setThread t { p.thread t with data := d })
  /-- a worker executes the last step of a task -/
  | senderEnd {p : MSt T} {w t i : Nat} {d : St T} : w < n → (p.worker w).cur = some (t, .sender i) →
      Step (.sender i) (p.thread t).data d → (∀ s, d.senders[i]? = some s → s.Ended) →
      MStep n K place p ((p.setThread t { p.thread t with data := d }).setWorker w { p.worker w with cur := none })
  /-- line 190: a receiver is spawned -/
  | spawnReceiver {p : MSt T} {w t next : Nat} {side : Bool} : w < n → (p.worker w).cur = some (t, .start side next) →
      next < (p.thread t).data.nseg side →
      MStep n K place p (p.setWorker w ⟨(t, .receiver side next) :: (p.worker w).deque, some (t, .start side (next + 1))⟩)
  /-- line 199: all receivers are spawned -/
  | startEnd {p : MSt T} {w t next : Nat} {side : Bool} : w < n → (p.worker w).cur = some (t, .start side next) →
      ¬ next < (p.thread t).data.nseg side → MStep n K place p (p.setWorker w { p.worker w with cur := none })
  /-- a worker executes a receiver that has a message -/
  | receiver {p : MSt T} {w t seg : Nat} {side : Bool} {d : St T} : w < n → (p.worker w).cur = some (t, .receiver side seg) →
      Step (.receiver side seg) (p.thread t).data d → MStep n K place p (p.setThread t { p.thread t with data := d })
  /-- lines 191-196: the channel is empty and closed, the receiver ends -/
  | receiverEnd {p : MSt T} {w t seg : Nat} {side : Bool} : w < n → (p.worker w).cur = some (t, .receiver side seg) →
      (p.thread t).data.chan side seg = [] → p.Closed t side →
      MStep n K place p (p.setWorker w { p.worker w with cur := none })
  /-- lines 326-330: everything is spawned and every job has ended, the call returns -/
  | leave {p : MSt T} {t : Nat} : t < K → (p.thread t).active = true → (p.thread t).rest = [] → p.Gone n t →
      (∀ w, place t = some w → (p.worker w).cur = none) →
      Sender.failed ∉ (p.thread t).data.senders → (p.thread t).data.crashed = false →
      MStep n K place p (p.setThread t { p.thread t with active := false, results := (p.thread t).results ++
        [[⟨(p.thread t).data.arr false, (p.thread t).shapes.leftOutput⟩, ⟨(p.thread t).data.arr true, (p.thread t).shapes.rightOutput⟩]] })
  /-- line 326: the same, but a job has panicked; the panic goes on in the thread -/
  | leaveFail {p : MSt T} {t : Nat} : t < K → (p.thread t).active = true → (p.thread t).rest = [] → p.Gone n t →
      (∀ w, place t = some w → (p.worker w).cur = none) →
      (Sender.failed ∈ (p.thread t).data.senders ∨ (p.thread t).data.crashed = true) →
      MStep n K place p (p.setThread t { p.thread t with active := false, todo := [], panicked := true })

/-- All threads have ended. -/
def MSt.Complete (K : Nat) (p : MSt T) : Prop := ∀ t < K, (p.thread t).active = false ∧ (p.thread t).todo = []

end RL.SplitWriter
