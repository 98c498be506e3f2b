import Verif.Lemmas.Pool
import Verif.Spec

/-!
# The threads of `bmm_jvp` (C33, C34)

`Step` is the machine of tasks, channels and receivers in which anyone may act at any time, `PStep` the one in which the workers of a
pool execute them.
-/

namespace RL

open Spec SplitWriter

variable {T : Type}

/-! ## all schedules give the same result (C33) -/

/-- C33: when addition is commutative and associative, every run of the scope to its end gives the two arrays of the sequential run of
`bmm_jvp`; a task has panicked in this run exactly if the sequential run panics. -/
theorem C33_schedule [AddCommMonoid T] [Mul T] (a b jac : Raw T) (sh : BmmJvpShapes) (progs : List (Prog T))
    (h : IsScope a b jac sh progs) (s : St T) (hs : Relation.ReflTransGen AnyStep (St.init progs (lens sh)) s) (hc : s.Complete) :
    s.crashed = false ∧
      ((Sender.failed ∉ s.senders ∧ bmmJvp [a, b] [jac] = .ok [⟨s.arr false, sh.leftOutput⟩, ⟨s.arr true, sh.rightOutput⟩]) ∨
       (Sender.failed ∈ s.senders ∧ ∃ e, bmmJvp [a, b] [jac] = .error e)) := by
  obtain ⟨w, q, hi⟩ := h.inv hs
  obtain ⟨hsh, m, k, n, h0, h1, h2, hp⟩ := h
  obtain ⟨rfl, hf, hperm⟩ := hi.complete hc
  refine ⟨hi.crashed, ?_⟩
  rcases hp.bmmJvp hsh h0 h1 h2 with ⟨e, p, he, hm, hpf⟩ | ⟨he, hpf⟩
  · exact .inr ⟨hf.2 ⟨p, hm, hpf⟩, e, he⟩
  · have hnf : Sender.failed ∉ s.senders := by
      intro hm
      obtain ⟨p, hm, hx⟩ := hf.1 hm
      rw [hpf p hm] at hx
      cases hx
    refine .inl ⟨hnf, ?_⟩
    rw [he, hi.arr false, hi.arr true, accum_perm (contribs_perm (hperm hnf)), accum_perm (contribs_perm (hperm hnf))]

/-- C33, two runs give the same arrays. -/
theorem C33_deterministic [AddCommMonoid T] [Mul T] (a b jac : Raw T) (sh : BmmJvpShapes) (progs : List (Prog T))
    (h : IsScope a b jac sh progs) (s t : St T) (hs : Relation.ReflTransGen AnyStep (St.init progs (lens sh)) s)
    (ht : Relation.ReflTransGen AnyStep (St.init progs (lens sh)) t) (hcs : s.Complete) (hct : t.Complete)
    (hf : Sender.failed ∉ s.senders) : Sender.failed ∉ t.senders ∧ s.arr = t.arr := by
  rcases (C33_schedule a b jac sh progs h s hs hcs).2 with ⟨_, e1⟩ | ⟨hx, _⟩
  · rcases (C33_schedule a b jac sh progs h t ht hct).2 with ⟨h2, e2⟩ | ⟨_, e, e2⟩
    · refine ⟨h2, ?_⟩
      rw [e1] at e2
      simp at e2
      funext side
      cases side with
      | false => exact e2.1
      | true => exact e2.2
    · rw [e1] at e2
      cases e2
  · exact absurd hx hf

/-- C33 without laws of addition: in a run to the end in which no task panics, all messages of the tasks are written, each of them
once, in some order; the cell for flat position `p` is the sum from 0 of the messages for `p`, in this order. -/
theorem C33_order [Zero T] [Add T] [Mul T] (a b jac : Raw T) (sh : BmmJvpShapes) (progs : List (Prog T))
    (h : IsScope a b jac sh progs) (s : St T) (hs : Relation.ReflTransGen AnyStep (St.init progs (lens sh)) s) (hc : s.Complete)
    (hf : Sender.failed ∉ s.senders) :
    ∃ order : List (Msg T), order.Perm (progs.flatMap (·.msgs)) ∧ ∀ side, (s.arr side).length = lens sh side ∧
      ∀ p < lens sh side, (s.arr side)[lens sh side - min (32 * (p / 32 + 1)) (lens sh side) + p % 32]? =
        some (((order.filter fun m => m.right == side && m.globalIdx == p).map (·.val)).foldl (· + ·) 0) := by
  obtain ⟨w, q, hi⟩ := h.inv hs
  obtain ⟨hsh, m, k, n, h0, h1, h2, hp⟩ := h
  obtain ⟨rfl, _, hperm⟩ := hi.complete hc
  refine ⟨w, hperm hf, fun side => ⟨hi.len side, fun p hp' => ?_⟩⟩
  have hr : ∀ x ∈ w, x.globalIdx < lens sh x.right := by
    intro x hx
    obtain ⟨pr, hpr, hx⟩ := List.mem_flatMap.1 ((hperm hf).mem_iff.1 hx)
    exact hp.inRange hsh pr hpr x hx
  change (s.arr side)[segPos (lens sh side) p]? = _
  rw [hi.arr, accum_getElem?, List.getElem?_replicate, if_pos (segPos_lt hp'), contribs, List.filter_map, List.filter_filter]
  have hfe : w.filter (fun x => ((fun c : Nat × T => decide (c.1 = segPos (lens sh side) p)) ∘
        fun m : Msg T => (segPos (lens sh side) m.globalIdx, m.val)) x && (x.right == side)) =
      w.filter fun m => m.right == side && m.globalIdx == p := by
    refine List.filter_congr fun x hx => ?_
    by_cases hsd : x.right = side
    · have := hr x hx
      rw [hsd] at this
      by_cases hg : x.globalIdx = p
      · simp [hsd, hg]
      · have : segPos (lens sh side) x.globalIdx ≠ segPos (lens sh side) p := fun e => hg (segPos_inj this hp' e)
        simp [hsd, hg, this]
    · have : (x.right == side) = false := by simpa using hsd
      simp [this]
  rw [hfe]
  simp [List.foldl_map]

/-- C33 on a pool: the same for runs of the pool until the scope is left. -/
theorem C33_pool [AddCommMonoid T] [Mul T] (a b jac : Raw T) (sh : BmmJvpShapes) (progs : List (Prog T))
    (h : IsScope a b jac sh progs) (n : Nat) (caller : Option Nat) (hcl : ∀ c, caller = some c → c < n) (p : PSt T)
    (hs : Relation.ReflTransGen (PStep n caller) (PSt.init progs (lens sh)) p) (hc : p.Complete n) :
    p.data.crashed = false ∧
      ((Sender.failed ∉ p.data.senders ∧
        bmmJvp [a, b] [jac] = .ok [⟨p.data.arr false, sh.leftOutput⟩, ⟨p.data.arr true, sh.rightOutput⟩]) ∨
       (Sender.failed ∈ p.data.senders ∧ ∃ e, bmmJvp [a, b] [jac] = .error e)) := by
  have hd := PReach.data hs
  obtain ⟨w, q, hi⟩ := h.inv hd
  exact C33_schedule a b jac sh progs h p.data hd ((PReach.pinv hcl hs).complete hi hc)

/-! ## the scope is left (C34) -/

/-- The assertion of lines 193-194 never fails, nor does any other operation of a receiver. -/
theorem C34_no_assert [Zero T] [Add T] [Mul T] (a b jac : Raw T) (sh : BmmJvpShapes) (progs : List (Prog T))
    (h : IsScope a b jac sh progs) (n : Nat) (caller : Option Nat) (p : PSt T)
    (hs : Relation.ReflTransGen (PStep n caller) (PSt.init progs (lens sh)) p) : p.data.crashed = false := by
  obtain ⟨w, q, hi⟩ := h.inv (PReach.data hs)
  exact hi.crashed

/-- No schedule is infinite. -/
theorem C34_finite [Add T] (n : Nat) (caller : Option Nat) (f : Nat → PSt T) : ¬ ∀ k, PStep n caller (f k) (f (k + 1)) :=
  no_infinite (PSt.size n) (fun _ _ h => h.size_lt) f

/-- No schedule is infinite, also when every task and every receiver has its own thread. -/
theorem C34_finite_threads [Add T] (f : Nat → St T) : ¬ ∀ k, AnyStep (f k) (f (k + 1)) :=
  no_infinite St.size (fun _ _ ⟨_, h⟩ => h.size_lt) f

/-- With a thread for every task and every receiver, some step is possible until all messages are written. -/
theorem C34_progress_threads [Zero T] [Add T] [Mul T] (a b jac : Raw T) (sh : BmmJvpShapes) (progs : List (Prog T))
    (h : IsScope a b jac sh progs) (s : St T) (hs : Relation.ReflTransGen AnyStep (St.init progs (lens sh)) s) :
    s.Complete ∨ ∃ s', AnyStep s s' := by
  obtain ⟨w, q, hi⟩ := h.inv hs
  by_cases hc : s.Complete
  · exact .inl hc
  · exact .inr (hi.progress hc)

/-- C34, progress: some step of the pool is possible until the scope is left. -/
def C34_statement (T : Type) [Zero T] [Add T] [Mul T] : Prop :=
  ∀ (a b jac : Raw T) (sh : BmmJvpShapes) (progs : List (Prog T)), IsScope a b jac sh progs →
  ∀ (n : Nat) (caller : Option Nat), 1 ≤ n → (∀ c, caller = some c → c < n) → ∀ p : PSt T,
    Relation.ReflTransGen (PStep n caller) (PSt.init progs (lens sh)) p → p.Complete n ∨ ∃ p', PStep n caller p p'

/-- C34 when `bmm_jvp` is called from outside of the pool, or the pool has another worker than the calling one: some step is possible
until the scope is left, and then all tasks have ended and all messages are written.
Missing: a call from inside of a pool with a single worker, where it is false (`C34_false`). -/
theorem C34_partial [Zero T] [Add T] [Mul T] (a b jac : Raw T) (sh : BmmJvpShapes) (progs : List (Prog T))
    (h : IsScope a b jac sh progs) (n : Nat) (caller : Option Nat) (hn : 1 ≤ n) (hcl : ∀ c, caller = some c → c < n ∧ 2 ≤ n)
    (p : PSt T) (hs : Relation.ReflTransGen (PStep n caller) (PSt.init progs (lens sh)) p) :
    (p.Complete n → p.data.Complete) ∧ (p.Complete n ∨ ∃ p', PStep n caller p p') := by
  obtain ⟨w, q, hi⟩ := h.inv (PReach.data hs)
  have hp := PReach.pinv (fun c hc => (hcl c hc).1) hs
  refine ⟨hp.complete hi, ?_⟩
  by_cases hc : p.Complete n
  · exact .inl hc
  · exact .inr (hp.progress hi hn (fun c hc => (hcl c hc).2) hc)

/-- C34, under the same condition every run can be continued until the scope is left. -/
theorem C34_finishes_partial [Zero T] [Add T] [Mul T] (a b jac : Raw T) (sh : BmmJvpShapes) (progs : List (Prog T))
    (h : IsScope a b jac sh progs) (n : Nat) (caller : Option Nat) (hn : 1 ≤ n) (hcl : ∀ c, caller = some c → c < n ∧ 2 ≤ n)
    (p : PSt T) (hs : Relation.ReflTransGen (PStep n caller) (PSt.init progs (lens sh)) p) :
    ∃ p', Relation.ReflTransGen (PStep n caller) p p' ∧ p'.Complete n := by
  generalize hz : p.size n = z
  induction z using Nat.strong_induction_on generalizing p with
  | _ z ih =>
    rcases (C34_partial a b jac sh progs h n caller hn hcl p hs).2 with hc | ⟨p1, h1⟩
    · exact ⟨p, .refl, hc⟩
    · obtain ⟨p2, h2, h3⟩ := ih _ (by rw [← hz]; exact h1.size_lt) p1 (hs.tail h1) rfl
      exact ⟨p2, .head h1 h2, h3⟩

/-- C33 and C34 together: called from outside of a pool, `bmm_jvp` ends, and always with the result of the sequential run. -/
theorem C34_result [AddCommMonoid T] [Mul T] (a b jac : Raw T) (sh : BmmJvpShapes) (progs : List (Prog T))
    (h : IsScope a b jac sh progs) (n : Nat) (hn : 1 ≤ n) :
    (∃ p, Relation.ReflTransGen (PStep n none) (PSt.init progs (lens sh)) p ∧ p.Complete n) ∧
    ∀ p, Relation.ReflTransGen (PStep n none) (PSt.init progs (lens sh)) p → (¬ ∃ p', PStep n none p p') → p.Complete n ∧
      ((Sender.failed ∉ p.data.senders ∧
        bmmJvp [a, b] [jac] = .ok [⟨p.data.arr false, sh.leftOutput⟩, ⟨p.data.arr true, sh.rightOutput⟩]) ∨
       (Sender.failed ∈ p.data.senders ∧ ∃ e, bmmJvp [a, b] [jac] = .error e)) := by
  refine ⟨C34_finishes_partial a b jac sh progs h n none hn (by simp) _ .refl, fun p hp hst => ?_⟩
  rcases (C34_partial a b jac sh progs h n none hn (by simp) p hp).2 with hc | hx
  · exact ⟨hc, (C33_pool a b jac sh progs h n none (by simp) p hp hc).2⟩
  · exact absurd hx hst

namespace ConcurrentTest

/-- `bmm_jvp` of two 1 x 1 matrices -/
def progs : List (Prog Int) := [⟨[⟨false, 0, 15⟩, ⟨true, 0, 10⟩], false⟩]

def shapes : BmmJvpShapes := ⟨[1, 1], [1, 1], [1, 1], [1, 1]⟩

theorem scope : IsScope (⟨[2], [1, 1]⟩ : Raw Int) ⟨[3], [1, 1]⟩ ⟨[5], [1, 1]⟩ shapes progs := by
  refine ⟨rfl, 1, 1, 1, rfl, rfl, rfl, ?_⟩
  refine List.Forall₂.cons ?_ .nil
  exact rfl

/-- the only worker executes the left receiver, the task waits in its deque -/
def stuck : PSt Int where
  data := St.init progs (lens shapes)
  main := []
  injector := []
  worker := Function.update (fun _ => ⟨[], none⟩) 0 ⟨[.start true, .sender 0], some (.receiver false 0)⟩

theorem reach : Relation.ReflTransGen (PStep 1 (some 0)) (PSt.init progs (lens shapes)) stuck := by
  have h1 := PStep.push (T := Int) (n := 1) (caller := some 0) (p := PSt.init progs (lens shapes)) (w := 0) (by decide) rfl rfl
  have h2 := (Relation.ReflTransGen.single h1).tail (PStep.push (w := 0) (by decide) rfl rfl)
  have h3 := h2.tail (PStep.push (w := 0) (by decide) rfl rfl)
  have h4 := h3.tail (PStep.pop (w := 0) (by decide) ⟨rfl, fun _ => rfl⟩ rfl)
  have h5 := h4.tail (PStep.spawnReceiver (w := 0) (by decide) rfl
    (by change 0 < (St.init progs (lens shapes)).nseg false; decide +kernel))
  have h6 := h5.tail (PStep.startEnd (w := 0) (by decide) rfl
    (by change ¬ 1 < (St.init progs (lens shapes)).nseg false; decide +kernel))
  have h7 := h6.tail (PStep.pop (w := 0) (by decide) ⟨rfl, fun _ => rfl⟩ rfl)
  refine cast (congrArg _ ?_) h7
  simp [PSt.setWorker, stuck, PSt.init, Job.begin]

theorem noStep : ¬ ∃ p', PStep 1 (some 0) stuck p' := by
  rintro ⟨p', h⟩
  have hw : ∀ {w : Nat}, w < 1 → w = 0 := by omega
  cases h with
  | inject h _ => cases h
  | push _ _ h => cases h
  | pop h1 h2 _ => cases hw h1; exact absurd h2.1 (by simp [stuck])
  | steal h1 h2 h3 _ _ => exact h3 ((hw h1).trans (hw h2).symm)
  | take h1 h2 _ => cases hw h1; exact absurd h2.1 (by simp [stuck])
  | sender h1 h2 _ _ => cases hw h1; simp [stuck] at h2
  | senderEnd h1 h2 _ _ => cases hw h1; simp [stuck] at h2
  | spawnReceiver h1 h2 _ => cases hw h1; simp [stuck] at h2
  | startEnd h1 h2 _ => cases hw h1; simp [stuck] at h2
  | receiver h1 h2 h3 =>
    cases h3 with
    | recv _ h _ => simp [stuck, St.init] at h
    | recvFail _ h _ => simp [stuck, St.init] at h
  | receiverEnd h1 h2 h3 h4 => exact (h4.1 (.run ⟨[⟨false, 0, 15⟩, ⟨true, 0, 10⟩], false⟩) (by simp [stuck, St.init, progs])).elim

end ConcurrentTest

/-- C34 is false: called on the only worker of a pool, `bmm_jvp` of two 1 x 1 matrices may block forever. This worker spawns the task and
the jobs of the two writers on its deque, takes the job it pushed last, which spawns a receiver, and takes this receiver; it waits for
messages of the task, which waits in the deque of the same worker. -/
theorem C34_false : ¬ C34_statement Int := by
  intro h
  rcases h _ _ _ _ _ ConcurrentTest.scope 1 (some 0) (Nat.le_refl _) (by rintro c ⟨⟩; decide) _ ConcurrentTest.reach with hc | hs
  · have := hc.cur 0 (by decide)
    simp [ConcurrentTest.stuck] at this
  · exact ConcurrentTest.noStep hs

/-- Called on the only worker of a pool, `bmm_jvp` never returns, whatever its inputs: if there is a task and a left segment, no state
in which the scope can be left is reachable. -/
theorem C34_inside_blocks [Zero T] [Add T] (progs : List (Prog T)) (len : Bool → Nat) (hpr : progs ≠ []) (hl : 0 < len false) (p : PSt T)
    (hp : Relation.ReflTransGen (PStep 1 (some 0)) (PSt.init progs len) p) : ¬ p.Complete 1 := by
  have hI : p.data = St.init progs len ∧ p.injector = [] ∧
      (((p.worker 0).cur = none ∧ (p.worker 0).deque.reverse ++ p.main = mainJobs progs.length) ∨
       (p.main = [] ∧ ∃ k, (p.worker 0).cur = some (.start false k) ∧ (0 < k → ∃ rest, (p.worker 0).deque = .receiver false (k - 1) :: rest)) ∨
       (p.main = [] ∧ (p.worker 0).cur = none ∧ ∃ k rest, (p.worker 0).deque = .receiver false k :: rest) ∨
       (p.main = [] ∧ ∃ k, (p.worker 0).cur = some (.receiver false k))) := by
    induction hp with
    | refl => exact ⟨rfl, rfl, .inl ⟨rfl, by simp [PSt.init]⟩⟩
    | tail _ hs ih => exact inside_step hpr hl ih hs
  intro hc
  have h1 := hc.cur 0 (by decide)
  have h2 := hc.deque 0 (by decide)
  have h3 := hc.main
  rcases hI.2.2 with ⟨_, h4⟩ | ⟨_, k, h4, _⟩ | ⟨_, _, k, r, h4⟩ | ⟨_, k, h4⟩
  · rw [h2, h3] at h4
    have := congrArg List.length h4
    simp [mainJobs] at this
  · rw [h1] at h4; cases h4
  · rw [h2] at h4; cases h4
  · rw [h1] at h4; cases h4

/-- C33 and C34, test: the hypotheses hold for a product of 1 x 1 matrices, the scope is left with the arrays `[15]` and `[10]`. -/
example : ∃ p, Relation.ReflTransGen (PStep 2 (some 1)) (PSt.init ConcurrentTest.progs (lens ConcurrentTest.shapes)) p ∧
    p.Complete 2 ∧ p.data.arr false = [15] ∧ p.data.arr true = [10] := by
  obtain ⟨p, h1, h2⟩ := C34_finishes_partial _ _ _ _ _ ConcurrentTest.scope 2 (some 1) (by decide) (by rintro c ⟨⟩; decide) _ .refl
  refine ⟨p, h1, h2, ?_⟩
  have hb : bmmJvp [(⟨[2], [1, 1]⟩ : Raw Int), ⟨[3], [1, 1]⟩] [⟨[5], [1, 1]⟩] = .ok [⟨[15], [1, 1]⟩, ⟨[10], [1, 1]⟩] := by
    decide +kernel
  rcases (C33_pool _ _ _ _ _ ConcurrentTest.scope 2 (some 1) (by rintro c ⟨⟩; decide) p h1 h2).2 with ⟨_, e⟩ | ⟨_, e, he⟩
  · rw [hb] at e
    simp at e
    exact ⟨e.1.1.symm, e.2.1.symm⟩
  · rw [hb] at he
    cases he

end RL
