import Verif.Lemmas.PoolMany
import Verif.Props.Concurrent

/-!
# Several threads that call `bmm_jvp` on the same pool (C62)

`MStep n K place` is the machine of `K` threads and a pool with `n` workers, see `Verif.Model.PoolMany`.
-/

namespace RL

open Spec SplitWriter

variable {T : Type}

/-- C62, what the other threads cannot change: every call that has returned has returned what it may return on its own, and a panic is
one that the call may end with on its own. In particular no two calls mix their messages. Nothing is assumed about addition. -/
theorem C62_alone [Zero T] [Add T] [Mul T] (n K : Nat) (place : Nat → Option Nat) (hpl : ∀ t < K, ∀ c, place t = some c → c < n)
    (calls : Nat → List (Call T)) (p : MSt T) (hp : Relation.ReflTransGen (MStep n K place) (MSt.init calls) p) (t : Nat) :
    ∃ past more, calls t = past ++ more ∧ List.Forall₂ MayReturn past (p.thread t).results ∧
      ((p.thread t).panicked = true → ∃ c rest, more = c :: rest ∧ MayPanic c) ∧
      ((p.thread t).active = false → (p.thread t).panicked = false → more = (p.thread t).todo) := by
  rcases ((MInv.reach hpl hp).each t).hist with ⟨h1, h2, past, c, progs, h3, _, _, h6⟩ | ⟨h1, h2, past, h3, h4⟩ |
    ⟨h1, h2, _, past, c, more, h4, h5, h6⟩
  · exact ⟨past, c :: (p.thread t).todo, h3, h6, fun hx => absurd (h2.symm.trans hx) (by decide),
      fun hx => absurd (h1.symm.trans hx) (by decide)⟩
  · exact ⟨past, (p.thread t).todo, h3, h4, fun hx => absurd (h2.symm.trans hx) (by decide), fun _ _ => rfl⟩
  · exact ⟨past, c :: more, h4, h5, fun _ => ⟨c, more, rfl, h6⟩, fun _ hx => absurd (h2.symm.trans hx) (by decide)⟩

theorem Spec.MayReturn.run [AddCommMonoid T] [Mul T] {c : Call T} {r : List (Raw T)} (h : MayReturn c r) : runCall c = .ok r := by
  obtain ⟨sh, progs, s, h1, h2, h3, h4, rfl⟩ := h
  rcases (C33_schedule _ _ _ _ _ h1 s h2 h3).2 with ⟨_, e⟩ | ⟨h5, _⟩
  · exact e
  · exact absurd h5 h4

theorem Spec.MayPanic.run [AddCommMonoid T] [Mul T] {c : Call T} (h : MayPanic c) : ∃ e, runCall c = .error e := by
  rcases h with ⟨e, h⟩ | ⟨sh, progs, s, h1, h2, h3, h4⟩
  · refine ⟨e, ?_⟩
    have hA : assertR ([c.left, c.right].length == 2 && [c.jac].length == 1) = .ok () := rfl
    unfold runCall bmmJvp
    simp only [hA, R.bind_ok, idxR, List.getElem?_cons_zero, List.getElem?_cons_succ, h]
    rfl
  · rcases (C33_schedule _ _ _ _ _ h1 s h2 h3).2 with ⟨h5, _⟩ | ⟨_, h5⟩
    · exact absurd h4 h5
    · exact h5

theorem Spec.mapM_runCall [AddCommMonoid T] [Mul T] {cs : List (Call T)} {rs : List (List (Raw T))} (h : List.Forall₂ MayReturn cs rs) :
    cs.mapM runCall = .ok rs := by
  induction h with
  | nil => rfl
  | cons h1 _ ih =>
    rw [List.mapM_cons, h1.run, ih]
    rfl

/-- C62, results: when addition is commutative and associative, a thread that has ended has made its calls with the results of the
sequential runs, or has made them up to the first one that panics when run sequentially. -/
theorem C62_result [AddCommMonoid T] [Mul T] (n K : Nat) (place : Nat → Option Nat) (hpl : ∀ t < K, ∀ c, place t = some c → c < n)
    (calls : Nat → List (Call T)) (p : MSt T) (hp : Relation.ReflTransGen (MStep n K place) (MSt.init calls) p) (t : Nat)
    (ha : (p.thread t).active = false) (htd : (p.thread t).todo = []) :
    ((p.thread t).panicked = false ∧ (calls t).mapM runCall = .ok (p.thread t).results) ∨
    ((p.thread t).panicked = true ∧ ((calls t).take (p.thread t).results.length).mapM runCall = .ok (p.thread t).results ∧
      ∃ c e, (calls t)[(p.thread t).results.length]? = some c ∧ runCall c = .error e) := by
  obtain ⟨past, more, h1, h2, h3, h4⟩ := C62_alone n K place hpl calls p hp t
  cases hpk : (p.thread t).panicked with
  | false =>
    left
    rw [h4 ha hpk, htd, List.append_nil] at h1
    exact ⟨rfl, by rw [h1]; exact mapM_runCall h2⟩
  | true =>
    right
    obtain ⟨c, rest, rfl, hc⟩ := h3 hpk
    obtain ⟨e, he⟩ := hc.run
    rw [h1, ← h2.length_eq]
    exact ⟨rfl, by simpa using mapM_runCall h2, c, e, by simp, he⟩

/-- C62, no run is infinite. -/
theorem C62_finite [Zero T] [Add T] [Mul T] (n K : Nat) (place : Nat → Option Nat) (hpl : ∀ t < K, ∀ c, place t = some c → c < n)
    (calls : Nat → List (Call T)) (f : Nat → MSt T) (h0 : f 0 = MSt.init calls) : ¬ ∀ k, MStep n K place (f k) (f (k + 1)) := by
  intro hf
  have key : ∀ p, MInv n K place calls p → ∀ k, f k ≠ p := by
    intro p hp
    refine minduction hpl (motive := fun p => ∀ k, f k ≠ p) ?_ p hp
    intro p _ ih k e
    exact ih (f (k + 1)) (e ▸ hf k) (k + 1) rfl
  exact key _ (MInv.init n K place calls) 0 h0

/-- C62, progress: with at least two workers, and every thread in the pool on a worker of its own, some step is possible until all
threads have ended. -/
def C62_statement (T : Type) [Zero T] [Add T] [Mul T] : Prop :=
  ∀ (n K : Nat) (place : Nat → Option Nat), 2 ≤ n → (∀ t < K, ∀ c, place t = some c → c < n) →
    (∀ s < K, ∀ t < K, ∀ c, place s = some c → place t = some c → s = t) →
    ∀ (calls : Nat → List (Call T)) (p : MSt T), Relation.ReflTransGen (MStep n K place) (MSt.init calls) p →
      p.Complete K ∨ ∃ p', MStep n K place p p'

/-- C62, progress when some worker of the pool is not itself the thread of a caller: until all threads have ended, some step is possible.
Missing: pools in which every worker is the thread of a caller, where it is false (`C62_false`). -/
theorem C62_partial [Zero T] [Add T] [Mul T] (n K : Nat) (place : Nat → Option Nat) (hpl : ∀ t < K, ∀ c, place t = some c → c < n)
    (v : Nat) (hv : v < n) (hv2 : ∀ t < K, place t ≠ some v) (calls : Nat → List (Call T)) (p : MSt T)
    (hp : Relation.ReflTransGen (MStep n K place) (MSt.init calls) p) : p.Complete K ∨ ∃ p', MStep n K place p p' := by
  by_cases hc : p.Complete K
  · exact .inl hc
  · exact .inr ((MInv.reach hpl hp).progress hpl hv hv2 hc)

/-- C62, under the same condition every run can be continued until all threads have ended. -/
theorem C62_finishes_partial [Zero T] [Add T] [Mul T] (n K : Nat) (place : Nat → Option Nat) (hpl : ∀ t < K, ∀ c, place t = some c → c < n)
    (v : Nat) (hv : v < n) (hv2 : ∀ t < K, place t ≠ some v) (calls : Nat → List (Call T)) (p : MSt T)
    (hp : Relation.ReflTransGen (MStep n K place) (MSt.init calls) p) :
    ∃ p', Relation.ReflTransGen (MStep n K place) p p' ∧ p'.Complete K := by
  refine minduction (calls := calls) hpl (motive := fun p => ∃ p', Relation.ReflTransGen (MStep n K place) p p' ∧ p'.Complete K) ?_ p
    (MInv.reach hpl hp)
  intro p hI ih
  by_cases hc : p.Complete K
  · exact ⟨p, .refl, hc⟩
  · obtain ⟨p1, h1⟩ := hI.progress hpl hv hv2 hc
    obtain ⟨p2, h2, h3⟩ := ih p1 h1
    exact ⟨p2, .head h1 h2, h3⟩

/-- C62 for threads outside of the pool, for example the threads of a test runner: with at least one worker, all calls of all threads end,
whatever the schedule, and every thread gets the results of the sequential runs, up to its first call that panics. -/
theorem C62_outside [AddCommMonoid T] [Mul T] (n K : Nat) (hn : 1 ≤ n) (calls : Nat → List (Call T)) :
    (∃ p, Relation.ReflTransGen (MStep n K fun _ => none) (MSt.init calls) p ∧ p.Complete K) ∧
    ∀ p, Relation.ReflTransGen (MStep n K fun _ => none) (MSt.init calls) p → (¬ ∃ p', MStep n K (fun _ => none) p p') → p.Complete K ∧
      ∀ t < K, ((p.thread t).panicked = false ∧ (calls t).mapM runCall = .ok (p.thread t).results) ∨
        ((p.thread t).panicked = true ∧ ((calls t).take (p.thread t).results.length).mapM runCall = .ok (p.thread t).results ∧
          ∃ c e, (calls t)[(p.thread t).results.length]? = some c ∧ runCall c = .error e) := by
  have hpl : ∀ t < K, ∀ c, (fun _ : Nat => (none : Option Nat)) t = some c → c < n := by simp
  refine ⟨C62_finishes_partial n K _ hpl 0 hn (by simp) calls _ .refl, fun p hp hst => ?_⟩
  rcases C62_partial n K _ hpl 0 hn (by simp) calls p hp with hc | hx
  · exact ⟨hc, fun t ht => C62_result n K _ hpl calls p hp t (hc t ht).1 (hc t ht).2⟩
  · exact absurd hx hst

namespace ConcurrentManyTest

open ConcurrentTest

def call : Call Int := ⟨⟨[2], [1, 1]⟩, ⟨[3], [1, 1]⟩, ⟨[5], [1, 1]⟩⟩

def calls (t : Nat) : List (Call Int) := if t < 2 then [call] else []

/-- a state with two threads and two workers -/
def st (a b : Thread Int) (x y : MWorker) : MSt Int where
  thread := fun t => if t = 0 then a else if t = 1 then b else (MSt.init calls).thread t
  injector := []
  worker := fun w => if w = 0 then x else if w = 1 then y else ⟨[], none⟩

theorem st_thread0 (a b : Thread Int) (x y : MWorker) (c : Thread Int) : (st a b x y).setThread 0 c = st c b x y := by
  simp only [st, MSt.setThread, MSt.mk.injEq, and_true]
  funext t
  by_cases h : t = 0
  · subst h; rfl
  · simp [h]

theorem st_thread1 (a b : Thread Int) (x y : MWorker) (c : Thread Int) : (st a b x y).setThread 1 c = st a c x y := by
  simp only [st, MSt.setThread, MSt.mk.injEq, and_true]
  funext t
  by_cases h : t = 1
  · subst h; rfl
  · simp [h]

theorem st_worker0 (a b : Thread Int) (x y k : MWorker) : (st a b x y).setWorker 0 k = st a b k y := by
  simp only [st, MSt.setWorker, MSt.mk.injEq, true_and]
  funext t
  by_cases h : t = 0
  · subst h; rfl
  · simp [h]

theorem st_worker1 (a b : Thread Int) (x y k : MWorker) : (st a b x y).setWorker 1 k = st a b x k := by
  simp only [st, MSt.setWorker, MSt.mk.injEq, true_and]
  funext t
  by_cases h : t = 1
  · subst h; rfl
  · simp [h]

theorem go {p q r r' : MSt Int} (h : Relation.ReflTransGen (MStep 2 2 some) p q) (hs : MStep 2 2 some q r') (e : r' = r) :
    Relation.ReflTransGen (MStep 2 2 some) p r := e ▸ h.tail hs

def before : Thread Int := ⟨St.init [] fun _ => 0, ⟨[], [], [], []⟩, [], false, [call], [], false⟩

/-- in the scope, with these jobs to spawn -/
def inScope (rest : List Job) : Thread Int := ⟨St.init progs (lens shapes), shapes, rest, true, [], [], false⟩

/-- the worker of thread `t` executes the left receiver, the task waits in its deque -/
def blocked (t : Nat) : MWorker := ⟨[(t, .start true), (t, .sender 0)], some (t, .receiver false 0)⟩

/-- both workers execute the left receiver of their own call -/
def stuck : MSt Int := st (inScope []) (inScope []) (blocked 0) (blocked 1)

theorem free0 {a b : Thread Int} {x y : MWorker} (h : x.cur = none) (ha : a.rest = []) (ha' : a.active = true) :
    (st a b x y).Free 2 some 0 := by
  refine ⟨h, fun t _ e => ?_⟩
  cases e
  exact ⟨ha, .inl ha'⟩

theorem free1 {a b : Thread Int} {x y : MWorker} (h : y.cur = none) (ha : b.rest = []) (ha' : b.active = true) :
    (st a b x y).Free 2 some 1 := by
  refine ⟨h, fun t _ e => ?_⟩
  cases e
  exact ⟨ha, .inl ha'⟩

theorem nseg : (St.init progs (lens shapes)).nseg false = 1 := by decide +kernel

/-- thread 0 makes its call and its worker gets blocked -/
theorem block0 (b : Thread Int) (y : MWorker) :
    Relation.ReflTransGen (MStep 2 2 some) (st before b ⟨[], none⟩ y) (st (inScope []) b (blocked 0) y) := by
  have h0 := go (r := st (inScope [.sender 0, .start true, .start false]) b ⟨[], none⟩ y) .refl
    (.enter (p := st before b ⟨[], none⟩ y) (t := 0) (by decide) rfl rfl scope) (by rw [st_thread0]; rfl)
  have h1 := go (r := st (inScope [.start true, .start false]) b ⟨[(0, .sender 0)], none⟩ y) h0
    (.push (t := 0) (w := 0) (by decide) (by decide) rfl rfl)
    (by rw [st_thread0, st_worker0]; rfl)
  have h2 := go (r := st (inScope [.start false]) b ⟨[(0, .start true), (0, .sender 0)], none⟩ y) h1
    (.push (t := 0) (w := 0) (by decide) (by decide) rfl rfl) (by rw [st_thread0, st_worker0]; rfl)
  have h3 := go (r := st (inScope []) b ⟨[(0, .start false), (0, .start true), (0, .sender 0)], none⟩ y) h2
    (.push (t := 0) (w := 0) (by decide) (by decide) rfl rfl) (by rw [st_thread0, st_worker0]; rfl)
  have h4 := go (r := st (inScope []) b ⟨[(0, .start true), (0, .sender 0)], some (0, .start false 0)⟩ y) h3
    (.pop (w := 0) (by decide) (free0 rfl rfl rfl) rfl) (by rw [st_worker0]; rfl)
  have h5 := go (r := st (inScope []) b ⟨[(0, .receiver false 0), (0, .start true), (0, .sender 0)], some (0, .start false 1)⟩ y) h4
    (.spawnReceiver (w := 0) (by decide) rfl (show 0 < (St.init progs (lens shapes)).nseg false by rw [nseg]; decide))
    (by rw [st_worker0]; rfl)
  have h6 := go (r := st (inScope []) b ⟨[(0, .receiver false 0), (0, .start true), (0, .sender 0)], none⟩ y) h5
    (.startEnd (w := 0) (by decide) rfl (show ¬ 1 < (St.init progs (lens shapes)).nseg false by rw [nseg]; decide))
    (by rw [st_worker0]; rfl)
  exact go h6 (.pop (w := 0) (by decide) (free0 rfl rfl rfl) rfl) (by rw [st_worker0]; rfl)

/-- thread 1 makes its call and its worker gets blocked -/
theorem block1 (a : Thread Int) (x : MWorker) :
    Relation.ReflTransGen (MStep 2 2 some) (st a before x ⟨[], none⟩) (st a (inScope []) x (blocked 1)) := by
  have h0 := go (r := st a (inScope [.sender 0, .start true, .start false]) x ⟨[], none⟩) .refl
    (.enter (p := st a before x ⟨[], none⟩) (t := 1) (by decide) rfl rfl scope) (by rw [st_thread1]; rfl)
  have h1 := go (r := st a (inScope [.start true, .start false]) x ⟨[(1, .sender 0)], none⟩) h0
    (.push (t := 1) (w := 1) (by decide) (by decide) rfl rfl)
    (by rw [st_thread1, st_worker1]; rfl)
  have h2 := go (r := st a (inScope [.start false]) x ⟨[(1, .start true), (1, .sender 0)], none⟩) h1
    (.push (t := 1) (w := 1) (by decide) (by decide) rfl rfl) (by rw [st_thread1, st_worker1]; rfl)
  have h3 := go (r := st a (inScope []) x ⟨[(1, .start false), (1, .start true), (1, .sender 0)], none⟩) h2
    (.push (t := 1) (w := 1) (by decide) (by decide) rfl rfl) (by rw [st_thread1, st_worker1]; rfl)
  have h4 := go (r := st a (inScope []) x ⟨[(1, .start true), (1, .sender 0)], some (1, .start false 0)⟩) h3
    (.pop (w := 1) (by decide) (free1 rfl rfl rfl) rfl) (by rw [st_worker1]; rfl)
  have h5 := go (r := st a (inScope []) x ⟨[(1, .receiver false 0), (1, .start true), (1, .sender 0)], some (1, .start false 1)⟩) h4
    (.spawnReceiver (w := 1) (by decide) rfl (show 0 < (St.init progs (lens shapes)).nseg false by rw [nseg]; decide))
    (by rw [st_worker1]; rfl)
  have h6 := go (r := st a (inScope []) x ⟨[(1, .receiver false 0), (1, .start true), (1, .sender 0)], none⟩) h5
    (.startEnd (w := 1) (by decide) rfl (show ¬ 1 < (St.init progs (lens shapes)).nseg false by rw [nseg]; decide))
    (by rw [st_worker1]; rfl)
  exact go h6 (.pop (w := 1) (by decide) (free1 rfl rfl rfl) rfl) (by rw [st_worker1]; rfl)

theorem init_eq : MSt.init calls = st before before ⟨[], none⟩ ⟨[], none⟩ := by
  simp only [MSt.init, st, MSt.mk.injEq, true_and]
  refine ⟨?_, ?_⟩
  · funext t
    by_cases h0 : t = 0
    · subst h0; rfl
    · by_cases h1 : t = 1
      · subst h1; rfl
      · simp [h0, h1]
  · funext w
    simp

theorem reach : Relation.ReflTransGen (MStep 2 2 some) (MSt.init calls) stuck := by
  rw [init_eq]
  exact (block0 _ _).trans (block1 _ _)

theorem noStep : ¬ ∃ p', MStep 2 2 some stuck p' := by
  rintro ⟨p', h⟩
  have h2 : ∀ {w : Nat}, w < 2 → w = 0 ∨ w = 1 := by omega
  have hth : ∀ {t : Nat}, t < 2 → stuck.thread t = inScope [] := by
    intro t ht
    rcases h2 ht with rfl | rfl <;> rfl
  have hcur : ∀ {w : Nat}, w < 2 → (stuck.worker w).cur = some (w, .receiver false 0) := by
    intro t ht
    rcases h2 ht with rfl | rfl <;> rfl
  cases h with
  | enter ht ha _ _ => rw [hth ht] at ha; cases ha
  | refuse ht ha _ _ => rw [hth ht] at ha; cases ha
  | inject _ hp _ => cases hp
  | push ht _ _ hm => rw [hth ht] at hm; cases hm
  | pop hw hf _ => have := hf.1; rw [hcur hw] at this; cases this
  | steal hw _ _ hf _ => have := hf.1; rw [hcur hw] at this; cases this
  | take _ _ hi => cases hi
  | sender hw hc _ _ => rw [hcur hw] at hc; cases hc
  | senderEnd hw hc _ _ => rw [hcur hw] at hc; cases hc
  | spawnReceiver hw hc _ => rw [hcur hw] at hc; cases hc
  | startEnd hw hc _ => rw [hcur hw] at hc; cases hc
  | receiver hw hc hs =>
    rw [hcur hw] at hc
    cases hc
    rw [hth hw] at hs
    cases hs with
    | recv _ h _ => cases h
    | recvFail _ h _ => cases h
  | receiverEnd hw hc _ hcl =>
    rw [hcur hw] at hc
    cases hc
    have := hcl.1 (.run ⟨[⟨false, 0, 15⟩, ⟨true, 0, 10⟩], false⟩) (by rw [hth hw]; simp [inScope, St.init, progs])
    exact this.elim
  | leave ht _ _ hg _ _ _ => exact hg.cur _ ht _ (hcur ht) rfl
  | leaveFail ht _ _ hg _ _ => exact hg.cur _ ht _ (hcur ht) rfl

end ConcurrentManyTest

/-- C62 is false: two threads, each on one of the two workers of a pool, that call `bmm_jvp` of two 1 x 1 matrices may block each other
forever, although each of the calls alone would end (`C34_partial`). Both workers spawn the jobs of their own call, take the job they
pushed last, which spawns a receiver, and take this receiver; then both wait for tasks that wait in their deques. -/
theorem C62_false : ¬ C62_statement Int := by
  intro h
  rcases h 2 2 some (Nat.le_refl _) (by rintro t ht c ⟨⟩; exact ht) (by rintro s _ t _ c ⟨⟩ ⟨⟩; rfl) ConcurrentManyTest.calls _
    ConcurrentManyTest.reach with hc | hs
  · have := (hc 0 (by decide)).1
    cases this
  · exact ConcurrentManyTest.noStep hs

/-- C62, test: with two threads in a pool of three workers every run can be continued to its end. -/
example (p : MSt Int) (hp : Relation.ReflTransGen (MStep 3 2 some) (MSt.init ConcurrentManyTest.calls) p) :
    ∃ p', Relation.ReflTransGen (MStep 3 2 some) p p' ∧ p'.Complete 2 :=
  C62_finishes_partial 3 2 some (by rintro t ht c ⟨⟩; omega) 2 (by decide) (by rintro t ht ⟨⟩; omega) ConcurrentManyTest.calls p hp

/-- C62, test: two threads outside of a pool with one worker. All runs end with the same results; the second call of thread 1 panics. -/
example : ∀ p, Relation.ReflTransGen (MStep 1 2 fun _ => none) (MSt.init fun t =>
      if t = 0 then [ConcurrentManyTest.call, ConcurrentManyTest.call]
      else [ConcurrentManyTest.call, ⟨⟨[2], [1, 1]⟩, ⟨[3, 4], [2, 1]⟩, ⟨[5], [1, 1]⟩⟩]) p →
    (¬ ∃ p', MStep 1 2 (fun _ => none) p p') →
    (p.thread 0).results = [[⟨[15], [1, 1]⟩, ⟨[10], [1, 1]⟩], [⟨[15], [1, 1]⟩, ⟨[10], [1, 1]⟩]] ∧ (p.thread 0).panicked = false ∧
      (p.thread 1).results = [[⟨[15], [1, 1]⟩, ⟨[10], [1, 1]⟩]] ∧ (p.thread 1).panicked = true := by
  intro p hp hst
  obtain ⟨_, h⟩ := (C62_outside 1 2 (Nat.le_refl _) _).2 p hp hst
  have hb : runCall ConcurrentManyTest.call = .ok [⟨[15], [1, 1]⟩, ⟨[10], [1, 1]⟩] := by decide +kernel
  have hb' : (match runCall (⟨⟨[2], [1, 1]⟩, ⟨[3, 4], [2, 1]⟩, ⟨[5], [1, 1]⟩⟩ : Call Int) with
      | .ok _ => false
      | .error _ => true) = true := by decide +kernel
  have h0 := h 0 (by decide)
  have h1 := h 1 (by decide)
  simp only [if_true, Nat.one_ne_zero, if_false] at h0 h1
  have e0 : [ConcurrentManyTest.call, ConcurrentManyTest.call].mapM runCall =
      .ok [[⟨[15], [1, 1]⟩, ⟨[10], [1, 1]⟩], [⟨[15], [1, 1]⟩, ⟨[10], [1, 1]⟩]] := by
    simp only [List.mapM_cons, hb, List.mapM_nil]
    rfl
  have e1 : [ConcurrentManyTest.call].mapM runCall = .ok [[⟨[15], [1, 1]⟩, ⟨[10], [1, 1]⟩]] := by
    simp only [List.mapM_cons, hb, List.mapM_nil]
    rfl
  refine and_assoc.1 ⟨?_, ?_⟩
  · rcases h0 with ⟨h2, h3⟩ | ⟨_, _, c, e, h3, h4⟩
    · rw [e0] at h3
      exact ⟨(Except.ok.inj h3).symm, h2⟩
    · have : c = ConcurrentManyTest.call := by
        have := List.mem_of_getElem? h3
        simpa using this
      rw [this, hb] at h4
      cases h4
  · rcases h1 with ⟨_, h3⟩ | ⟨h2, h3, c, e, h4, h5⟩
    · simp only [List.mapM_cons, hb, List.mapM_nil] at h3
      revert hb'
      cases hx : runCall (⟨⟨[2], [1, 1]⟩, ⟨[3, 4], [2, 1]⟩, ⟨[5], [1, 1]⟩⟩ : Call Int) with
      | ok v => simp
      | error e =>
        rw [hx] at h3
        cases h3
    · have hk : (p.thread 1).results.length = 1 := by
        match hl : (p.thread 1).results.length, h4 with
        | 0, h4 =>
          cases h4
          rw [hb] at h5
          cases h5
        | 1, _ => rfl
        | k + 2, h4 => simp at h4
      rw [hk] at h3
      have h3' : [ConcurrentManyTest.call].mapM runCall = .ok (p.thread 1).results := h3
      rw [e1] at h3'
      exact ⟨(Except.ok.inj h3').symm, h2⟩

end RL
