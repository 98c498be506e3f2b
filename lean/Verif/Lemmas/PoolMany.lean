import Verif.SpecPool
import Verif.Lemmas.Pool

/-! Helper lemmas: several threads that call `bmm_jvp` on the same pool -/

namespace RL.SplitWriter

open RL Spec

variable {T : Type}

/-! ### the jobs of one thread -/

/-- the jobs of a thread in a queue -/
def mine (t : Nat) (l : List (Nat × Job)) : List Job := l.filterMap fun x => if x.1 = t then some x.2 else none

/-- the running job, if it belongs to the thread -/
def mineCur (t : Nat) : Option (Nat × Running) → Option Running
  | none => none
  | some x => if x.1 = t then some x.2 else none

theorem mine_append (t : Nat) (l l' : List (Nat × Job)) : mine t (l ++ l') = mine t l ++ mine t l' := by simp [mine]

@[simp] theorem mine_cons_self (t : Nat) (j : Job) (l : List (Nat × Job)) : mine t ((t, j) :: l) = j :: mine t l := by simp [mine]

theorem mine_cons_ne {s t : Nat} (h : t ≠ s) (j : Job) (l : List (Nat × Job)) : mine s ((t, j) :: l) = mine s l := by simp [mine, h]

@[simp] theorem mine_nil (t : Nat) : mine t [] = [] := rfl

theorem mine_eq_nil {t : Nat} {l : List (Nat × Job)} : mine t l = [] ↔ ∀ x ∈ l, x.1 ≠ t := by
  simp [mine, List.filterMap_eq_nil_iff]

@[simp] theorem mineCur_none (t : Nat) : mineCur t none = none := rfl

@[simp] theorem mineCur_self (t : Nat) (r : Running) : mineCur t (some (t, r)) = some r := by simp [mineCur]

theorem mineCur_ne {s t : Nat} (h : t ≠ s) (r : Running) : mineCur s (some (t, r)) = none := by simp [mineCur, h]

theorem mineCur_eq_none {t : Nat} {o : Option (Nat × Running)} : mineCur t o = none ↔ ∀ x, o = some x → x.1 ≠ t := by
  cases o with
  | none => simp
  | some x => simp [mineCur]

theorem mineCur_eq_some {t : Nat} {o : Option (Nat × Running)} {r : Running} (h : mineCur t o = some r) : o = some (t, r) := by
  cases o with
  | none => cases h
  | some x =>
    obtain ⟨s, y⟩ := x
    simp only [mineCur] at h
    split at h
    · rename_i e
      cases h
      exact congrArg some (Prod.ext e rfl)
    · cases h

/-- the queue a thread fills, oldest job first, and what it has still to spawn -/
def mpend (place : Nat → Option Nat) (p : MSt T) (t : Nat) : List Job :=
  (match place t with
    | none => mine t p.injector
    | some c => (mine t (p.worker c).deque).reverse) ++ (p.thread t).rest

/-- the other queues -/
def mothers (place : Nat → Option Nat) (p : MSt T) (t w : Nat) : List Job := if place t = some w then [] else mine t (p.worker w).deque

def mcurs (p : MSt T) (t w : Nat) : Option Running := mineCur t (p.worker w).cur

theorem MSt.gone_iff {n : Nat} {p : MSt T} {t : Nat} :
    p.Gone n t ↔ mine t p.injector = [] ∧ (∀ w < n, mine t (p.worker w).deque = []) ∧ ∀ w < n, mcurs p t w = none := by
  constructor
  · intro h
    exact ⟨mine_eq_nil.2 h.injector, fun w hw => mine_eq_nil.2 (h.deque w hw), fun w hw => mineCur_eq_none.2 (h.cur w hw)⟩
  · rintro ⟨h1, h2, h3⟩
    exact ⟨mine_eq_nil.1 h1, fun w hw => mine_eq_nil.1 (h2 w hw), fun w hw => mineCur_eq_none.1 (h3 w hw)⟩

theorem MSt.Gone.setThread {n : Nat} {p : MSt T} {t : Nat} (h : p.Gone n t) (s : Nat) (th : Thread T) : (p.setThread s th).Gone n t :=
  ⟨h.injector, h.deque, h.cur⟩

/-! ### what has happened -/

/-- The calls of a thread so far. -/
def Hist [Zero T] [Add T] [Mul T] (cs : List (Call T)) (th : Thread T) : Prop :=
  (th.active = true ∧ th.panicked = false ∧ ∃ past c progs, cs = past ++ c :: th.todo ∧ IsScope c.left c.right c.jac th.shapes progs ∧
    Reach progs (lens th.shapes) th.data ∧ List.Forall₂ MayReturn past th.results) ∨
  (th.active = false ∧ th.panicked = false ∧ ∃ past, cs = past ++ th.todo ∧ List.Forall₂ MayReturn past th.results) ∨
  (th.active = false ∧ th.panicked = true ∧ th.todo = [] ∧
    ∃ past c more, cs = past ++ c :: more ∧ List.Forall₂ MayReturn past th.results ∧ MayPanic c)

/-! ### the invariant -/

/-- what holds for one thread -/
structure TInv [Zero T] [Add T] [Mul T] (n : Nat) (place : Nat → Option Nat) (cs : List (Call T)) (p : MSt T) (t : Nat) : Prop where
  inside : place t ≠ none → mine t p.injector = []
  idle : (p.thread t).active = false → (p.thread t).rest = [] ∧ p.Gone n t
  core : (p.thread t).active = true → Core n (fun w => place t ≠ some w) (p.thread t).data (mpend place p t) (mothers place p t) (mcurs p t)
  hist : Hist cs (p.thread t)

/-- a worker that executes a job is not busy with a thread -/
def Busy (K : Nat) (place : Nat → Option Nat) (p : MSt T) : Prop :=
  ∀ t < K, ∀ c, place t = some c → (p.worker c).cur ≠ none →
    (p.thread t).rest = [] ∧ ((p.thread t).active = true ∨ (p.thread t).todo = [])

structure MInv [Zero T] [Add T] [Mul T] (n K : Nat) (place : Nat → Option Nat) (calls : Nat → List (Call T)) (p : MSt T) : Prop where
  outside : ∀ t, K ≤ t → (p.thread t).active = false
  busy : Busy K place p
  each : ∀ t, TInv n place (calls t) p t

/-- the two states look the same for thread `t` -/
structure SameFor (p p' : MSt T) (t : Nat) : Prop where
  thread : p'.thread t = p.thread t
  injector : mine t p'.injector = mine t p.injector
  deque : ∀ w, mine t (p'.worker w).deque = mine t (p.worker w).deque
  cur : ∀ w, mcurs p' t w = mcurs p t w

variable {n K w : Nat} {place : Nat → Option Nat} {p p' : MSt T} {t : Nat}

theorem TInv.same [Zero T] [Add T] [Mul T] {cs : List (Call T)} (h : TInv n place cs p t) (hs : SameFor p p' t) : TInv n place cs p' t := by
  have h1 : mpend place p' t = mpend place p t := by
    unfold mpend
    rw [hs.thread]
    congr 1
    split
    · exact hs.injector
    · rw [hs.deque]
  have h2 : mothers place p' t = mothers place p t := by
    funext v
    unfold mothers
    rw [hs.deque]
  have h3 : mcurs p' t = mcurs p t := funext hs.cur
  refine ⟨fun hp => hs.injector.trans (h.inside hp), ?_, ?_, by rw [hs.thread]; exact h.hist⟩
  · rw [hs.thread, MSt.gone_iff, hs.injector, h3]
    simp only [hs.deque]
    rw [← MSt.gone_iff]
    exact h.idle
  · rw [hs.thread, h1, h2, h3]
    exact h.core

/-! ### projections of changed states -/

theorem setWorker_worker (p : MSt T) (w : Nat) (k : MWorker) (v : Nat) :
    (p.setWorker w k).worker v = if v = w then k else p.worker v := by
  simp [MSt.setWorker, Function.update_apply]

theorem setThread_thread (p : MSt T) (t : Nat) (th : Thread T) (s : Nat) :
    (p.setThread t th).thread s = if s = t then th else p.thread s := by
  simp [MSt.setThread, Function.update_apply]

theorem mcurs_setWorker (p : MSt T) (w : Nat) (k : MWorker) (t : Nat) :
    mcurs (p.setWorker w k) t = Function.update (mcurs p t) w (mineCur t k.cur) := by
  funext v
  by_cases h : v = w
  · subst h; simp [mcurs, MSt.setWorker]
  · simp [mcurs, MSt.setWorker, Function.update_of_ne h]

theorem mothers_setWorker (p : MSt T) {w : Nat} (k : MWorker) (h : place t ≠ some w) :
    mothers place (p.setWorker w k) t = Function.update (mothers place p t) w (mine t k.deque) := by
  funext v
  by_cases hv : v = w
  · subst hv; simp [mothers, MSt.setWorker, h]
  · simp [mothers, MSt.setWorker, Function.update_of_ne hv]

theorem mothers_setWorker_host (p : MSt T) {w : Nat} (k : MWorker) (h : place t = some w) :
    mothers place (p.setWorker w k) t = mothers place p t := by
  funext v
  by_cases hv : v = w
  · subst hv; simp [mothers, h]
  · simp [mothers, MSt.setWorker, Function.update_of_ne hv]

theorem mpend_setWorker (p : MSt T) {w : Nat} (k : MWorker) (h : place t ≠ some w) :
    mpend place (p.setWorker w k) t = mpend place p t := by
  unfold mpend
  congr 1
  split
  · rfl
  · rename_i c hc
    have : c ≠ w := by rintro rfl; exact h hc
    simp [MSt.setWorker, Function.update_of_ne this]

theorem mpend_setWorker_host (p : MSt T) {w : Nat} (k : MWorker) (h : place t = some w) :
    mpend place (p.setWorker w k) t = (mine t k.deque).reverse ++ (p.thread t).rest := by
  simp [mpend, MSt.setWorker, h]

/-- a change of the running job of a worker that keeps its deque -/
theorem mkeep_deque (p : MSt T) (w : Nat) (r : Option (Nat × Running)) (t : Nat) :
    mpend place (p.setWorker w { p.worker w with cur := r }) t = mpend place p t ∧
    mothers place (p.setWorker w { p.worker w with cur := r }) t = mothers place p t := by
  by_cases h : place t = some w
  · refine ⟨?_, mothers_setWorker_host p _ h⟩
    rw [mpend_setWorker_host _ _ h]
    simp [mpend, h]
  · refine ⟨mpend_setWorker p _ h, ?_⟩
    rw [mothers_setWorker p _ h]
    have : mine t (p.worker w).deque = mothers place p t w := by simp [mothers, h]
    simp only [this, Function.update_eq_self]

/-- another thread does not see a change of a worker -/
theorem SameFor.setWorker (p : MSt T) {w : Nat} {k : MWorker} (h1 : mine t k.deque = mine t (p.worker w).deque)
    (h2 : mineCur t k.cur = mineCur t (p.worker w).cur) : SameFor p (p.setWorker w k) t := by
  refine ⟨rfl, rfl, fun v => ?_, fun v => ?_⟩
  · rw [setWorker_worker]
    split
    · rename_i e
      rw [h1, e]
    · rfl
  · unfold mcurs
    rw [setWorker_worker]
    split
    · rename_i e
      rw [h2, e]
    · rfl

theorem SameFor.setThread (p : MSt T) {s : Nat} (h : t ≠ s) (th : Thread T) : SameFor p (p.setThread s th) t :=
  ⟨by rw [setThread_thread, if_neg h], rfl, fun _ => rfl, fun _ => rfl⟩

theorem SameFor.trans {q : MSt T} (h : SameFor p p' t) (h' : SameFor p' q t) : SameFor p q t :=
  ⟨h'.thread.trans h.thread, h'.injector.trans h.injector, fun w => (h'.deque w).trans (h.deque w), fun w => (h'.cur w).trans (h.cur w)⟩

theorem Core.init [Zero T] (progs : List (Prog T)) (len : Bool → Nat) (fr : Nat → Prop) :
    Core n fr (St.init progs len) (mainJobs progs.length) (fun _ => []) (fun _ => none) := by
  have c := (PInv.init progs len (n := n) (caller := none) (by simp)).core
  exact ⟨c.sorted, by simp, by simp, by simp, c.count, fun side seg _ => .inl (by cases side <;> simp [mainJobs])⟩

/-- every call that passes the checks has tasks -/
theorem exists_scope [Mul T] {a b jac : Raw T} {sh : BmmJvpShapes} (h : bmmJvpShapes a b jac = .ok sh) : ∃ progs, IsScope a b jac sh progs := by
  obtain ⟨a0, a1, b1, j0, h0, h1, _, h2, _⟩ := bmmJvpShapes_inv h
  have key : ∀ l : List (Nat × Nat × Nat), ∃ progs, List.Forall₂ (fun x p => IsProg a b jac sh x.1 x.2.1 x.2.2 p) l progs := by
    intro l
    induction l with
    | nil => exact ⟨[], .nil⟩
    | cons x l ih =>
      obtain ⟨ps, hps⟩ := ih
      cases hx : bmmJvpTask a b jac sh x.1 x.2.1 x.2.2 with
      | ok msgs => exact ⟨⟨msgs, false⟩ :: ps, .cons (by unfold IsProg; rw [hx]) hps⟩
      | error e => exact ⟨⟨[], true⟩ :: ps, .cons (by unfold IsProg; rw [hx]; exact ⟨rfl, by simp⟩) hps⟩
  obtain ⟨progs, hp⟩ := key (taskIndices a0 a1 b1)
  exact ⟨progs, h, a0, a1, b1, h0, h1, h2, hp⟩

theorem Core.congr {fr : Nat → Prop} {d : St T} {P : List Job} {D D' : Nat → List Job} {cur cur' : Nat → Option Running}
    (h : Core n fr d P D cur) (hD : ∀ w < n, D' w = D w) (hc : ∀ w < n, cur' w = cur w) : Core n fr d P D' cur' := by
  refine ⟨h.sorted, fun w hw => by rw [hD w hw]; exact h.receivers w hw, fun w hw => by rw [hD w hw]; exact h.waiting w hw,
    fun w hw hf r hr => h.running w hw hf r (by rw [← hc w hw]; exact hr), fun i => ?_, fun side seg hseg => ?_⟩
  · rw [← h.count i]
    congr 2
    exact Finset.sum_congr rfl fun w hw => by rw [hc w (Finset.mem_range.1 hw)]
  · rcases h.cover side seg hseg with h | h | ⟨v, hv, h⟩ | ⟨v, hv, k, hk, h⟩ | ⟨v, hv, h⟩ | h
    · exact .inl h
    · exact .inr (.inl h)
    · exact .inr (.inr (.inl ⟨v, hv, by rw [hD v hv]; exact h⟩))
    · exact .inr (.inr (.inr (.inl ⟨v, hv, k, hk, by rw [hc v hv]; exact h⟩)))
    · exact .inr (.inr (.inr (.inr (.inl ⟨v, hv, by rw [hc v hv]; exact h⟩))))
    · exact .inr (.inr (.inr (.inr (.inr h))))

/-- when all jobs have ended, every message was written -/
theorem Core.complete [Zero T] [Add T] {fr : Nat → Prop} {d : St T} {D : Nat → List Job} {cur : Nat → Option Running}
    {progs : List (Prog T)} {len : Bool → Nat} {ws q : List (Msg T)} (h : Core n fr d [] D cur) (hi : Inv progs len d ws q)
    (hD : ∀ w < n, D w = []) (hc : ∀ w < n, cur w = none) : d.Complete := by
  have he : ∀ t ∈ d.senders, t.Ended := by
    intro t ht
    obtain ⟨i, hit⟩ := List.getElem?_of_mem ht
    have h1 := h.count i
    have h2 : runs n cur i = 0 := by
      rw [← Nat.le_zero, ← not_lt]
      intro hr
      obtain ⟨w, hw, e⟩ := exists_of_runs hr
      rw [hc w hw] at e
      cases e
    rw [h2] at h1
    cases t with
    | run r => simp [endN, hit] at h1
    | done => trivial
    | failed => trivial
  refine ⟨he, ?_⟩
  intro side seg
  by_contra hne
  rcases h.cover side seg (hi.chan_seg hne) with hx | hx | ⟨w, hw, hx⟩ | ⟨w, hw, k, _, hx⟩ | ⟨w, hw, hx⟩ | hx
  · cases hx
  · cases hx
  · rw [hD w hw] at hx; cases hx
  · rw [hc w hw] at hx; cases hx
  · rw [hc w hw] at hx; cases hx
  · exact hne hx.2

/-! ### steps -/

section
variable [Zero T] [Add T] [Mul T] {cs : List (Call T)} {calls : Nat → List (Call T)}

theorem TInv.active_cur (h : TInv n place cs p t) (hw : w < n) {r : Running} (hc : (p.worker w).cur = some (t, r)) :
    (p.thread t).active = true := by
  by_contra hn
  exact (h.idle (by simpa using hn)).2.cur w hw _ hc rfl

theorem TInv.active_deque (h : TInv n place cs p t) (hw : w < n) {j : Job} (hc : (t, j) ∈ (p.worker w).deque) :
    (p.thread t).active = true := by
  by_contra hn
  exact (h.idle (by simpa using hn)).2.deque w hw _ hc rfl

theorem TInv.active_injector (h : TInv n place cs p t) {j : Job} (hc : (t, j) ∈ p.injector) :
    (p.thread t).active = true := by
  by_contra hn
  exact (h.idle (by simpa using hn)).2.injector _ hc rfl

theorem MInv.lt (h : MInv n K place calls p) (ha : (p.thread t).active = true) : t < K := by
  by_contra hn
  rw [h.outside t (by omega)] at ha
  cases ha

theorem Hist.active {th : Thread T} (h : Hist cs th) (ha : th.active = true) : th.panicked = false ∧ ∃ past c progs,
    cs = past ++ c :: th.todo ∧ IsScope c.left c.right c.jac th.shapes progs ∧ Reach progs (lens th.shapes) th.data ∧
    List.Forall₂ MayReturn past th.results := by
  rcases h with ⟨_, h1, h2⟩ | ⟨h, _⟩ | ⟨h, _⟩
  · exact ⟨h1, h2⟩
  · rw [ha] at h; cases h
  · rw [ha] at h; cases h

theorem Hist.data {th : Thread T} (h : Hist cs th) (ha : th.active = true) {d : St T} (hs : AnyStep th.data d) :
    Hist cs { th with data := d } := by
  obtain ⟨h1, past, c, progs, h2, h3, h4, h5⟩ := h.active ha
  exact .inl ⟨ha, h1, past, c, progs, h2, h3, h4.tail hs, h5⟩

theorem Busy.setWorker (hb : Busy K place p) {k : MWorker} (hw : k.cur ≠ none → (p.worker w).cur ≠ none ∨ p.Free K place w) :
    Busy K place (p.setWorker w k) := by
  intro t ht c hc hcur
  rw [setWorker_worker] at hcur
  split at hcur
  · rename_i e
    subst e
    rcases hw hcur with h | h
    · exact hb t ht c hc h
    · exact h.2 t ht hc
  · exact hb t ht c hc hcur

theorem Busy.setThread (hb : Busy K place p) {th : Thread T}
    (h : t < K → ∀ c, place t = some c → (p.worker c).cur ≠ none → th.rest = [] ∧ (th.active = true ∨ th.todo = [])) :
    Busy K place (p.setThread t th) := by
  intro s hs c hc hcur
  rw [setThread_thread]
  split
  · rename_i e
    subst e
    exact h hs c hc hcur
  · exact hb s hs c hc hcur

/-- what a running call keeps -/
theorem TInv.next (h : TInv n place cs p t) (ha : (p.thread t).active = true) (h1 : place t ≠ none → mine t p'.injector = [])
    (h2 : (p'.thread t).active = true) (h3 : Hist cs (p'.thread t))
    (h4 : Core n (fun w => place t ≠ some w) (p'.thread t).data (mpend place p' t) (mothers place p' t) (mcurs p' t)) :
    TInv n place cs p' t :=
  ⟨h1, fun hx => absurd (h2.symm.trans hx) (by decide), fun _ => h4, h3⟩

theorem TInv.complete (hpl : ∀ c, place t = some c → c < n) (h : TInv n place cs p t) (ha : (p.thread t).active = true)
    (hr : (p.thread t).rest = []) (hg : p.Gone n t) : (p.thread t).data.Complete := by
  obtain ⟨_, past, c, progs, _, h3, h4, _⟩ := h.hist.active ha
  obtain ⟨ws, q, hi⟩ := h3.inv h4
  obtain ⟨g1, g2, g3⟩ := MSt.gone_iff.1 hg
  have hp : mpend place p t = [] := by
    unfold mpend
    rw [hr]
    split
    · simp [g1]
    · rename_i c hc
      simp [g2 c (hpl c hc)]
  have hc := h.core ha
  rw [hp] at hc
  exact hc.complete hi (fun w hw => by unfold mothers; split <;> simp [g2 w hw]) g3

theorem MInv.init (n K : Nat) (place : Nat → Option Nat) (calls : Nat → List (Call T)) : MInv n K place calls (MSt.init calls) := by
  refine ⟨fun _ _ => rfl, fun _ _ _ _ h => absurd rfl h, fun t => ?_⟩
  refine ⟨fun _ => rfl, fun _ => ⟨rfl, ⟨by simp [MSt.init], by simp [MSt.init], by simp [MSt.init]⟩⟩, fun h => ?_, ?_⟩
  · cases h
  · exact .inr (.inl ⟨rfl, rfl, [], rfl, .nil⟩)

theorem MInv.step (hpl : ∀ t < K, ∀ c, place t = some c → c < n) (h : MInv n K place calls p) (hs : MStep n K place p p') :
    MInv n K place calls p' := by
  cases hs with
  | @enter t c more sh progs ht ha htd hsc =>
    refine ⟨fun s hs => ?_, h.busy.setThread fun _ c hc hcur => ?_, fun s => ?_⟩
    · rw [setThread_thread, if_neg (by omega)]
      exact h.outside s hs
    · rcases (h.busy t ht c hc hcur).2 with h1 | h1
      · rw [ha] at h1; cases h1
      · rw [htd] at h1; cases h1
    · by_cases hst : s = t
      · subst hst
        have hi := (h.each s).idle ha
        obtain ⟨g1, g2, g3⟩ := MSt.gone_iff.1 hi.2
        refine ⟨(h.each s).inside, fun hx => ?_, fun _ => ?_, ?_⟩
        · simp [setThread_thread] at hx
        · have hp : mpend place (p.setThread s { p.thread s with
              data := St.init progs (lens sh), shapes := sh, rest := mainJobs progs.length, active := true, todo := more }) s =
              mainJobs progs.length := by
            unfold mpend
            rw [setThread_thread, if_pos rfl]
            split
            · simp [MSt.setThread, g1]
            · rename_i c hc
              simp [MSt.setThread, g2 c (hpl s ht c hc)]
          rw [hp, setThread_thread, if_pos rfl]
          refine (Core.init progs (lens sh) _).congr (fun w hw => ?_) (fun w hw => g3 w hw)
          unfold mothers
          split
          · rfl
          · exact g2 w hw
        · rw [setThread_thread, if_pos rfl]
          rcases (h.each s).hist with ⟨h1, _⟩ | ⟨_, h1, past, h2, h3⟩ | ⟨_, _, h1, _⟩
          · rw [ha] at h1; cases h1
          · exact .inl ⟨rfl, h1, past, c, progs, by rw [h2, htd], hsc, .refl, h3⟩
          · rw [htd] at h1; cases h1
      · exact (h.each s).same (.setThread p hst _)
  | @refuse t c more e ht ha htd hsh =>
    refine ⟨fun s hs => ?_, h.busy.setThread fun _ c hc hcur => ?_, fun s => ?_⟩
    · rw [setThread_thread, if_neg (by omega)]
      exact h.outside s hs
    · exact ⟨(h.busy t ht c hc hcur).1, .inr rfl⟩
    · by_cases hst : s = t
      · subst hst
        refine ⟨(h.each s).inside, fun hx => ?_, fun hx => ?_, ?_⟩
        · rw [setThread_thread, if_pos rfl]
          exact ⟨((h.each s).idle ha).1, ((h.each s).idle ha).2.setThread _ _⟩
        · rw [setThread_thread, if_pos rfl] at hx
          rw [ha] at hx; cases hx
        · rw [setThread_thread, if_pos rfl]
          rcases (h.each s).hist with ⟨h1, _⟩ | ⟨_, h1, past, h2, h3⟩ | ⟨_, _, h1, _⟩
          · rw [ha] at h1; cases h1
          · exact .inr (.inr ⟨ha, rfl, rfl, past, c, more, by rw [h2, htd], h3, .inl ⟨e, hsh⟩⟩)
          · rw [htd] at h1; cases h1
      · exact (h.each s).same (.setThread p hst _)
  | @inject t j rest ht hpl' hm =>
    have ha : (p.thread t).active = true := by
      by_contra hn
      rw [((h.each t).idle (by simpa using hn)).1] at hm
      cases hm
    refine ⟨fun s hs => ?_, ?_, fun s => ?_⟩
    · change ((p.setThread t { p.thread t with rest }).thread s).active = false
      rw [setThread_thread, if_neg (by omega)]
      exact h.outside s hs
    · refine h.busy.setThread (t := t) (th := { p.thread t with rest }) fun _ c hc _ => ?_
      rw [hpl'] at hc
      cases hc
    · by_cases hst : s = t
      · subst hst
        have e : ({ p.setThread s { p.thread s with rest } with injector := p.injector ++ [(s, j)] } : MSt T).thread s =
            { p.thread s with rest } := by
          change (p.setThread s { p.thread s with rest }).thread s = _
          rw [setThread_thread, if_pos rfl]
        refine (h.each s).next ha (fun hx => absurd hpl' hx) (by rw [e]; exact ha) ?_ ?_
        · rw [e]
          obtain ⟨h1, h2⟩ := (h.each s).hist.active ha
          exact .inl ⟨ha, h1, h2⟩
        · have hp : mpend place { p.setThread s { p.thread s with rest } with injector := p.injector ++ [(s, j)] } s = mpend place p s := by
            unfold mpend
            rw [e]
            simp [hpl', mine_append, hm]
          rw [hp, e]
          exact (h.each s).core ha
      · refine (h.each s).same ⟨?_, ?_, fun _ => rfl, fun _ => rfl⟩
        · exact (SameFor.setThread p hst _).thread
        · simp only [mine_append, mine_cons_ne (Ne.symm hst), mine_nil, List.append_nil]
  | @push t w j rest ht hw hpl' hm =>
    have ha : (p.thread t).active = true := by
      by_contra hn
      rw [((h.each t).idle (by simpa using hn)).1] at hm
      cases hm
    have hcw : (p.worker w).cur = none := by
      by_contra hn
      rw [(h.busy t ht w hpl' hn).1] at hm
      cases hm
    refine ⟨fun s hs => ?_, ?_, fun s => ?_⟩
    · change ((p.setThread t { p.thread t with rest }).thread s).active = false
      rw [setThread_thread, if_neg (by omega)]
      exact h.outside s hs
    · refine Busy.setWorker (h.busy.setThread (t := t) (th := { p.thread t with rest }) fun _ c hc hcur => ?_) fun hx => absurd hcw hx
      rw [hpl'] at hc
      cases hc
      exact absurd hcw hcur
    · by_cases hst : s = t
      · subst hst
        have e : ((p.setThread s { p.thread s with rest }).setWorker w { p.worker w with deque := (s, j) :: (p.worker w).deque }).thread s =
            { p.thread s with rest } := by
          change (p.setThread s { p.thread s with rest }).thread s = _
          rw [setThread_thread, if_pos rfl]
        refine (h.each s).next ha (h.each s).inside (by rw [e]; exact ha) ?_ ?_
        · rw [e]
          obtain ⟨h1, h2⟩ := (h.each s).hist.active ha
          exact .inl ⟨ha, h1, h2⟩
        · rw [mpend_setWorker_host _ _ hpl', mothers_setWorker_host _ _ hpl', mcurs_setWorker, e, setThread_thread, if_pos rfl]
          have h1 : (mine s ((s, j) :: (p.worker w).deque)).reverse ++ rest = mpend place p s := by simp [mpend, hpl', hm]
          have h2 : mineCur s (p.worker w).cur = mcurs p s w := rfl
          have h3 : mcurs (p.setThread s { p.thread s with rest }) s = mcurs p s := rfl
          have h4 : mothers place (p.setThread s { p.thread s with rest }) s = mothers place p s := rfl
          simp only []
          rw [h1, h2, h3, h4, Function.update_eq_self]
          exact (h.each s).core ha
      · refine (h.each s).same ((SameFor.setThread p hst _).trans (.setWorker _ ?_ rfl))
        exact mine_cons_ne (Ne.symm hst) _ _
  | @pop w t j rest hw hfree hd =>
    have ha := (h.each t).active_deque hw (j := j) (by rw [hd]; simp)
    refine ⟨h.outside, h.busy.setWorker fun _ => .inr hfree, fun s => ?_⟩
    by_cases hst : s = t
    · subst hst
      have hcw : mcurs p s w = none := by rw [mcurs, hfree.1]; rfl
      refine (h.each s).next ha (h.each s).inside ha (h.each s).hist ?_
      rw [mcurs_setWorker, mineCur_self]
      by_cases hcl : place s = some w
      · rw [mpend_setWorker_host _ _ hcl, mothers_setWorker_host _ _ hcl]
        have hm := (hfree.2 s (h.lt ha) hcl).1
        refine ((h.each s).core ha).take hw hcw ?_ ?_ (fun hf => absurd hcl hf)
        · simp [mpend, hcl, hd, hm]
        · simp [mpend, hcl, hd, hm]
      · rw [mpend_setWorker _ _ hcl, mothers_setWorker _ _ hcl]
        refine ((h.each s).core ha).takeWaiting hw hcw hw ?_
        simp [mothers, hcl, hd]
    · refine (h.each s).same (.setWorker _ ?_ ?_)
      · rw [hd, mine_cons_ne (Ne.symm hst)]
      · rw [hfree.1, mineCur_ne (Ne.symm hst), mineCur_none]
  | @steal w v t j rest hw hv hne hfree hd =>
    have ha := (h.each t).active_deque hv (j := j) (by rw [hd]; simp)
    have e : (p.setWorker v { p.worker v with deque := rest }).setWorker w { p.worker w with cur := some (t, j.begin) } =
        (p.setWorker v { p.worker v with deque := rest }).setWorker w
          { (p.setWorker v { p.worker v with deque := rest }).worker w with cur := some (t, j.begin) } := by
      rw [setWorker_worker, if_neg hne]
    have hfree' : (p.setWorker v { p.worker v with deque := rest }).Free K place w := by
      refine ⟨?_, hfree.2⟩
      rw [setWorker_worker, if_neg hne]
      exact hfree.1
    rw [e]
    refine ⟨h.outside, Busy.setWorker (Busy.setWorker (k := { p.worker v with deque := rest }) h.busy fun hx => .inl hx) fun _ => .inr hfree', fun s => ?_⟩
    by_cases hst : s = t
    · subst hst
      have hcw : mcurs p s w = none := by rw [mcurs, hfree.1]; rfl
      refine (h.each s).next ha (h.each s).inside ha (h.each s).hist ?_
      obtain ⟨h1, h2⟩ := mkeep_deque (place := place) (p.setWorker v { p.worker v with deque := rest }) w (some (s, j.begin)) s
      rw [h1, h2, mcurs_setWorker, mcurs_setWorker]
      have h3 : mineCur s (p.worker v).cur = mcurs p s v := rfl
      simp only []
      rw [mineCur_self, h3, Function.update_eq_self]
      by_cases hcl : place s = some v
      · rw [mpend_setWorker_host _ _ hcl, mothers_setWorker_host _ _ hcl]
        have hp : mpend place p s = j :: ((mine s rest).reverse ++ (p.thread s).rest) := by simp [mpend, hcl, hd, mine_append]
        refine ((h.each s).core ha).take hw hcw (by rw [hp]) (by rw [hp]; simp) ?_
        intro _
        have := ((h.each s).core ha).sorted
        rw [hp, List.pairwise_cons] at this
        exact this.1
      · rw [mpend_setWorker _ _ hcl, mothers_setWorker _ _ hcl]
        refine ((h.each s).core ha).takeWaiting hw hcw hv ?_
        simp only [mothers, hcl, if_false, hd, mine_append]
        simp
    · refine (h.each s).same (SameFor.trans (.setWorker p (k := { p.worker v with deque := rest }) ?_ rfl) (.setWorker _ rfl ?_))
      · rw [hd, mine_append, mine_cons_ne (Ne.symm hst), mine_nil, List.append_nil]
      · rw [hfree'.1, mineCur_ne (Ne.symm hst), mineCur_none]
  | @take w t j rest hw hfree hd =>
    have ha := (h.each t).active_injector (j := j) (by rw [hd]; simp)
    have hcl : place t = none := by
      by_contra hn
      have := (h.each t).inside hn
      rw [hd] at this
      simp at this
    refine ⟨h.outside, Busy.setWorker (p := { p with injector := rest }) h.busy fun _ => .inr hfree, fun s => ?_⟩
    by_cases hst : s = t
    · subst hst
      have hcw : mcurs p s w = none := by rw [mcurs, hfree.1]; rfl
      refine (h.each s).next ha (fun hx => absurd hcl hx) ha (h.each s).hist ?_
      obtain ⟨h1, h2⟩ := mkeep_deque (place := place) { p with injector := rest } w (some (s, j.begin)) s
      simp only [] at h1 h2
      rw [h1, h2, mcurs_setWorker, mineCur_self]
      have hp : mpend place p s = j :: (mine s rest ++ (p.thread s).rest) := by simp [mpend, hcl, hd]
      have hp' : mpend place { p with injector := rest } s = mine s rest ++ (p.thread s).rest := by simp [mpend, hcl]
      rw [hp']
      refine ((h.each s).core ha).take hw hcw (by rw [hp]) (by rw [hp]; simp) ?_
      intro _
      have := ((h.each s).core ha).sorted
      rw [hp, List.pairwise_cons] at this
      exact this.1
    · refine (h.each s).same (SameFor.trans (p' := { p with injector := rest }) ⟨rfl, ?_, fun _ => rfl, fun _ => rfl⟩ (.setWorker _ rfl ?_))
      · rw [hd, mine_cons_ne (Ne.symm hst)]
      · rw [mineCur_ne (Ne.symm hst)]
        change none = mineCur s (p.worker w).cur
        rw [hfree.1, mineCur_none]
  | @sender w t i d rest hw hc hs hr =>
    have ha := (h.each t).active_cur hw hc
    refine ⟨fun s hs => ?_, h.busy.setThread fun ht c hc hcur => h.busy t ht c hc hcur, fun s => ?_⟩
    · rw [setThread_thread, if_neg (by have := h.lt ha; omega)]
      exact h.outside s hs
    · by_cases hst : s = t
      · subst hst
        refine (h.each s).next ha (h.each s).inside (by rw [setThread_thread, if_pos rfl]; exact ha) ?_ ?_
        · rw [setThread_thread, if_pos rfl]
          exact (h.each s).hist.data ha ⟨_, hs⟩
        · have hp : mpend place (p.setThread s { p.thread s with data := d }) s = mpend place p s := by
            unfold mpend
            rw [setThread_thread, if_pos rfl]
            rfl
          rw [hp, setThread_thread, if_pos rfl]
          exact ((h.each s).core ha).sender hs hr
      · exact (h.each s).same (.setThread p hst _)
  | @senderEnd w t i d hw hc hs hr =>
    have ha := (h.each t).active_cur hw hc
    have hlt := h.lt ha
    refine ⟨fun s hs => ?_, Busy.setWorker (Busy.setThread (th := { p.thread t with data := d }) h.busy fun ht c hc hcur => h.busy t ht c hc hcur)
      fun hx => absurd rfl hx, fun s => ?_⟩
    · change ((p.setThread t { p.thread t with data := d }).thread s).active = false
      rw [setThread_thread, if_neg (by omega)]
      exact h.outside s hs
    · by_cases hst : s = t
      · subst hst
        have e : ((p.setThread s { p.thread s with data := d }).setWorker w { p.worker w with cur := none }).thread s =
            { p.thread s with data := d } := by
          change (p.setThread s { p.thread s with data := d }).thread s = _
          rw [setThread_thread, if_pos rfl]
        refine (h.each s).next ha (h.each s).inside (by rw [e]; exact ha) ?_ ?_
        · rw [e]
          exact (h.each s).hist.data ha ⟨_, hs⟩
        · obtain ⟨h1, h2⟩ := mkeep_deque (place := place) (p.setThread s { p.thread s with data := d }) w none s
          have e1 : (p.setThread s { p.thread s with data := d }).worker w = p.worker w := rfl
          rw [e1] at h1 h2
          have hp : mpend place (p.setThread s { p.thread s with data := d }) s = mpend place p s := by
            unfold mpend
            rw [setThread_thread, if_pos rfl]
            rfl
          rw [h1, h2, hp, mcurs_setWorker, e]
          exact ((h.each s).core ha).senderEnd hw (by rw [mcurs, hc, mineCur_self]) hs hr
      · refine (h.each s).same ((SameFor.setThread p hst _).trans (.setWorker _ rfl ?_))
        change none = mineCur s (p.worker w).cur
        rw [hc, mineCur_ne (Ne.symm hst)]
  | @spawnReceiver w t k side hw hc hk =>
    have ha := (h.each t).active_cur hw hc
    refine ⟨h.outside, h.busy.setWorker fun _ => .inl (by rw [hc]; simp), fun s => ?_⟩
    by_cases hst : s = t
    · subst hst
      have hcw : mcurs p s w = some (.start side k) := by rw [mcurs, hc, mineCur_self]
      refine (h.each s).next ha (h.each s).inside ha (h.each s).hist ?_
      rw [mcurs_setWorker, mineCur_self]
      by_cases hcl : place s = some w
      · rw [mpend_setWorker_host _ _ hcl, mothers_setWorker_host _ _ hcl]
        have hm := (h.busy s (h.lt ha) w hcl (by rw [hc]; simp)).1
        have := ((h.each s).core ha).spawnCaller hw hcw
        have e1 : mpend place p s ++ [.receiver side k] =
            (mine s ((s, Job.receiver side k) :: (p.worker w).deque)).reverse ++ (p.thread s).rest := by
          simp [mpend, hcl, hm]
        rw [e1] at this
        exact this
      · rw [mpend_setWorker _ _ hcl, mothers_setWorker _ _ hcl]
        have := ((h.each s).core ha).spawn hw hcl hcw
        have e1 : mothers place p s w = mine s (p.worker w).deque := by simp [mothers, hcl]
        rw [e1] at this
        simp only [mine_cons_self]
        exact this
    · refine (h.each s).same (.setWorker _ (mine_cons_ne (Ne.symm hst) _ _) ?_)
      rw [hc, mineCur_ne (Ne.symm hst), mineCur_ne (Ne.symm hst)]
  | @startEnd w t k side hw hc hk =>
    have ha := (h.each t).active_cur hw hc
    refine ⟨h.outside, h.busy.setWorker fun hx => absurd rfl hx, fun s => ?_⟩
    by_cases hst : s = t
    · subst hst
      refine (h.each s).next ha (h.each s).inside ha (h.each s).hist ?_
      obtain ⟨h1, h2⟩ := mkeep_deque (place := place) p w none s
      rw [h1, h2, mcurs_setWorker]
      exact ((h.each s).core ha).startEnd hw (by rw [mcurs, hc, mineCur_self]) hk
    · refine (h.each s).same (.setWorker _ rfl ?_)
      rw [hc, mineCur_ne (Ne.symm hst), mineCur_none]
  | @receiver w t seg side d hw hc hs =>
    have ha := (h.each t).active_cur hw hc
    refine ⟨fun s hs => ?_, h.busy.setThread fun ht c hc hcur => h.busy t ht c hc hcur, fun s => ?_⟩
    · rw [setThread_thread, if_neg (by have := h.lt ha; omega)]
      exact h.outside s hs
    · by_cases hst : s = t
      · subst hst
        refine (h.each s).next ha (h.each s).inside (by rw [setThread_thread, if_pos rfl]; exact ha) ?_ ?_
        · rw [setThread_thread, if_pos rfl]
          exact (h.each s).hist.data ha ⟨_, hs⟩
        · have hp : mpend place (p.setThread s { p.thread s with data := d }) s = mpend place p s := by
            unfold mpend
            rw [setThread_thread, if_pos rfl]
            rfl
          rw [hp, setThread_thread, if_pos rfl]
          exact ((h.each s).core ha).receiver hs
      · exact (h.each s).same (.setThread p hst _)
  | @receiverEnd w t seg side hw hc hq hcl =>
    have ha := (h.each t).active_cur hw hc
    refine ⟨h.outside, h.busy.setWorker fun hx => absurd rfl hx, fun s => ?_⟩
    by_cases hst : s = t
    · subst hst
      refine (h.each s).next ha (h.each s).inside ha (h.each s).hist ?_
      obtain ⟨h1, h2⟩ := mkeep_deque (place := place) p w none s
      rw [h1, h2, mcurs_setWorker]
      exact ((h.each s).core ha).receiverEnd hw (by rw [mcurs, hc, mineCur_self]) hcl.1 hq
    · refine (h.each s).same (.setWorker _ rfl ?_)
      rw [hc, mineCur_ne (Ne.symm hst), mineCur_none]
  | @leave t ht ha hm hg hh hnf hcr =>
    refine ⟨fun s hs => ?_, h.busy.setThread fun _ c hc hcur => absurd (hh c hc) hcur, fun s => ?_⟩
    · rw [setThread_thread, if_neg (by omega)]
      exact h.outside s hs
    · by_cases hst : s = t
      · subst hst
        refine ⟨(h.each s).inside, fun hx => ?_, fun hx => ?_, ?_⟩
        · rw [setThread_thread, if_pos rfl]
          exact ⟨hm, hg.setThread _ _⟩
        · rw [setThread_thread, if_pos rfl] at hx
          cases hx
        · rw [setThread_thread, if_pos rfl]
          obtain ⟨h1, past, c, progs, h2, h3, h4, h5⟩ := (h.each s).hist.active ha
          refine .inr (.inl ⟨rfl, h1, past ++ [c], by simp [h2], ?_⟩)
          refine List.rel_append h5 (.cons ?_ .nil)
          exact ⟨_, progs, _, h3, h4, (h.each s).complete (hpl s ht) ha hm hg, hnf, rfl⟩
      · exact (h.each s).same (.setThread p hst _)
  | @leaveFail t ht ha hm hg hh hf =>
    refine ⟨fun s hs => ?_, h.busy.setThread fun _ c hc hcur => absurd (hh c hc) hcur, fun s => ?_⟩
    · rw [setThread_thread, if_neg (by omega)]
      exact h.outside s hs
    · by_cases hst : s = t
      · subst hst
        refine ⟨(h.each s).inside, fun hx => ?_, fun hx => ?_, ?_⟩
        · rw [setThread_thread, if_pos rfl]
          exact ⟨hm, hg.setThread _ _⟩
        · rw [setThread_thread, if_pos rfl] at hx
          cases hx
        · rw [setThread_thread, if_pos rfl]
          obtain ⟨h1, past, c, progs, h2, h3, h4, h5⟩ := (h.each s).hist.active ha
          refine .inr (.inr ⟨rfl, rfl, rfl, past, c, _, h2, h5, .inr ⟨_, progs, _, h3, h4, (h.each s).complete (hpl s ht) ha hm hg, ?_⟩⟩)
          obtain ⟨ws, q, hi⟩ := h3.inv h4
          rcases hf with hf | hf
          · exact hf
          · rw [hi.crashed] at hf; cases hf
      · exact (h.each s).same (.setThread p hst _)

theorem MInv.reach (hpl : ∀ t < K, ∀ c, place t = some c → c < n)
    (h : Relation.ReflTransGen (MStep n K place) (MSt.init calls) p) : MInv n K place calls p := by
  induction h with
  | refl => exact MInv.init n K place calls
  | tail _ hs ih => exact ih.step hpl hs

/-- as long as a thread has not ended, some step is possible, provided that a worker `v` executes no thread -/
theorem MInv.progress (hpl : ∀ t < K, ∀ c, place t = some c → c < n) (h : MInv n K place calls p) {v : Nat} (hv : v < n)
    (hv2 : ∀ t < K, place t ≠ some v) (hc : ¬ p.Complete K) : ∃ p', MStep n K place p p' := by
  by_contra hstuck
  push Not at hstuck
  -- everything is spawned
  have hmain : ∀ t < K, (p.thread t).rest = [] := by
    intro t ht
    cases hm : (p.thread t).rest with
    | nil => rfl
    | cons j rest =>
      cases hp : place t with
      | none => exact absurd (.inject ht hp hm) (hstuck _)
      | some c => exact absurd (.push ht (hpl t ht c hp) hp hm) (hstuck _)
  -- no thread is between two calls
  have htodo : ∀ t < K, (p.thread t).active = false → (p.thread t).todo = [] := by
    intro t ht ha
    cases hm : (p.thread t).todo with
    | nil => rfl
    | cons c more =>
      cases hsh : bmmJvpShapes c.left c.right c.jac with
      | error e => exact absurd (.refuse ht ha hm hsh) (hstuck _)
      | ok sh =>
        obtain ⟨progs, hp⟩ := exists_scope hsh
        exact absurd (.enter ht ha hm hp) (hstuck _)
  -- nobody executes a task
  have hns : ∀ w < n, ∀ t i, (p.worker w).cur ≠ some (t, .sender i) := by
    intro w hw t i e
    have ha := (h.each t).active_cur hw e
    have h1 := ((h.each t).core ha).count i
    have h2 := runs_pos hw (cur := mcurs p t) (i := i) (by rw [mcurs, e, mineCur_self])
    have h3 : endN (p.thread t).data i = 0 := by omega
    unfold endN at h3
    split at h3
    · rename_i r hr
      obtain ⟨d, hd⟩ := Step.exists_sender hr
      obtain ⟨_, _, x, hx⟩ := hd.sender_inv
      cases x with
      | run rest => exact hstuck _ (.sender hw e hd hx)
      | done => exact hstuck _ (.senderEnd hw e hd (by rw [hx]; rintro _ ⟨⟩; trivial))
      | failed => exact hstuck _ (.senderEnd hw e hd (by rw [hx]; rintro _ ⟨⟩; trivial))
    · omega
  have hnst : ∀ w < n, ∀ t side k, (p.worker w).cur ≠ some (t, .start side k) := by
    intro w hw t side k e
    by_cases hk : k < (p.thread t).data.nseg side
    · exact hstuck _ (.spawnReceiver hw e hk)
    · exact hstuck _ (.startEnd hw e hk)
  -- a receiver waits for a task in the queue of its thread
  have hrc : ∀ w < n, ∀ t side seg, (p.worker w).cur = some (t, .receiver side seg) → ∃ i, Job.sender i ∈ mpend place p t := by
    intro w hw t side seg e
    have ha := (h.each t).active_cur hw e
    have hne : ¬ ∀ s ∈ (p.thread t).data.senders, s.Ended := by
      intro he
      cases hq : (p.thread t).data.chan side seg with
      | nil => exact hstuck _ (.receiverEnd hw e hq ⟨he, by simp [hmain t (h.lt ha)]⟩)
      | cons x qs =>
        obtain ⟨g, x⟩ := x
        obtain ⟨_, past, c, progs, _, h3, h4, _⟩ := (h.each t).hist.active ha
        obtain ⟨ws, q, hi⟩ := h3.inv h4
        have hseg := hi.chan_seg (side := side) (seg := seg) (by rw [hq]; simp)
        cases hwr : segmentWrite ((p.thread t).data.arr side) seg g x with
        | ok a => exact hstuck _ (.receiver hw e (.recv hseg hq hwr))
        | error er => exact hstuck _ (.receiver hw e (.recvFail hseg hq hwr))
    push Not at hne
    obtain ⟨s, hs, hnt⟩ := hne
    obtain ⟨i, hit⟩ := List.getElem?_of_mem hs
    refine ⟨i, ?_⟩
    have h1 := ((h.each t).core ha).count i
    have h2 : runs n (mcurs p t) i = 0 := by
      rw [← Nat.le_zero, ← not_lt]
      intro hr
      obtain ⟨u, hu, e⟩ := exists_of_runs hr
      exact hns u hu t i (mineCur_eq_some e)
    have h3 : endN (p.thread t).data i = 0 := by
      unfold endN
      rw [hit]
      cases s with
      | run r => rfl
      | done => exact absurd trivial hnt
      | failed => exact absurd trivial hnt
    exact List.count_pos_iff.1 (by omega)
  cases hcv : (p.worker v).cur with
  | some r =>
    obtain ⟨t, r⟩ := r
    cases r with
    | sender i => exact hns v hv t i hcv
    | start side k => exact hnst v hv t side k hcv
    | receiver side seg =>
      obtain ⟨i, hi⟩ := hrc v hv t side seg hcv
      have ha := (h.each t).active_cur hv hcv
      exact ((h.each t).core ha).running v hv (hv2 t (h.lt ha)) _ (by rw [mcurs, hcv, mineCur_self]) (by simp [Running.IsSender]) i hi
  | none =>
    -- all queues are empty
    have hf : p.Free K place v := ⟨hcv, fun t ht hp => absurd hp (hv2 t ht)⟩
    have hinj : p.injector = [] := by
      cases hj : p.injector with
      | nil => rfl
      | cons j rest => exact absurd (.take hv hf hj) (hstuck _)
    have hdq : ∀ w < n, (p.worker w).deque = [] := by
      intro w hw
      by_contra hne
      by_cases hwv : v = w
      · subst hwv
        obtain ⟨j, rest, hj⟩ := List.exists_cons_of_ne_nil hne
        exact hstuck _ (.pop hv hf hj)
      · exact hstuck _ (.steal hv hw hwv hf (List.dropLast_append_getLast hne).symm)
    have hpend : ∀ t < K, mpend place p t = [] := by
      intro t ht
      unfold mpend
      rw [hmain t ht]
      split
      · simp [hinj]
      · rename_i c hc
        simp [hdq c (hpl t ht c hc)]
    have hcur : ∀ w < n, (p.worker w).cur = none := by
      intro w hw
      cases hcw : (p.worker w).cur with
      | none => rfl
      | some r =>
        obtain ⟨t, r⟩ := r
        cases r with
        | sender i => exact absurd hcw (hns w hw t i)
        | start side k => exact absurd hcw (hnst w hw t side k)
        | receiver side seg =>
          obtain ⟨i, hi⟩ := hrc w hw t side seg hcw
          rw [hpend t (h.lt ((h.each t).active_cur hw hcw))] at hi
          cases hi
    refine hc fun t ht => ?_
    cases ha : (p.thread t).active with
    | false => exact ⟨rfl, htodo t ht ha⟩
    | true =>
      exfalso
      have hg : p.Gone n t := ⟨by simp [hinj], fun w hw => by simp [hdq w hw], fun w hw => by simp [hcur w hw]⟩
      have hh : ∀ w, place t = some w → (p.worker w).cur = none := fun w hw => hcur w (hpl t ht w hw)
      by_cases hx : Sender.failed ∈ (p.thread t).data.senders ∨ (p.thread t).data.crashed = true
      · exact hstuck _ (.leaveFail ht ha (hmain t ht) hg hh hx)
      · push Not at hx
        exact hstuck _ (.leave ht ha (hmain t ht) hg hh hx.1 (by simpa using hx.2))

end

/-! ### termination -/

/-- calls to come, and the call to be left -/
def Thread.calls (th : Thread T) : Nat := 2 * th.todo.length + if th.active then 1 else 0

def MSt.calls (K : Nat) (p : MSt T) : Nat := ∑ t ∈ Finset.range K, (p.thread t).calls

def Thread.size (th : Thread T) : Nat := th.data.size + (th.rest.map fun j => jobWeight th.data.nseg j + 1).sum

def queueWeight (ns : Nat → Bool → Nat) (l : List (Nat × Job)) : Nat := (l.map fun x => jobWeight (ns x.1) x.2).sum

def mcurWeight (ns : Nat → Bool → Nat) : Option (Nat × Running) → Nat
  | none => 0
  | some x => curWeight (ns x.1) (some x.2)

def mworkerWeight (ns : Nat → Bool → Nat) (k : MWorker) : Nat := queueWeight ns k.deque + mcurWeight ns k.cur

def MSt.ns (p : MSt T) (t : Nat) : Bool → Nat := (p.thread t).data.nseg

/-- bound for the number of steps until a call begins or ends -/
def MSt.size (n K : Nat) (p : MSt T) : Nat :=
  (∑ t ∈ Finset.range K, (p.thread t).size) + queueWeight p.ns p.injector + ∑ w ∈ Finset.range n, mworkerWeight p.ns (p.worker w)

theorem size_worker (p : MSt T) (hw : w < n) {k : MWorker} {x y : Nat}
    (h : mworkerWeight p.ns k + x = mworkerWeight p.ns (p.worker w) + y) : (p.setWorker w k).size n K + x = p.size n K + y := by
  have h1 := sum_change hw (fun v => mworkerWeight p.ns (p.worker v)) (fun v => mworkerWeight p.ns ((p.setWorker w k).worker v))
    (fun y hy => by simp [MSt.setWorker, Function.update_of_ne hy])
  have h2 : (p.setWorker w k).worker w = k := by rw [setWorker_worker, if_pos rfl]
  rw [h2] at h1
  have h3 : (p.setWorker w k).size n K = (∑ t ∈ Finset.range K, (p.thread t).size) + queueWeight p.ns p.injector +
    ∑ v ∈ Finset.range n, mworkerWeight p.ns ((p.setWorker w k).worker v) := rfl
  rw [h3, MSt.size]
  omega

theorem ns_setThread (p : MSt T) (t : Nat) {th : Thread T} (h : th.data.nseg = (p.thread t).data.nseg) : (p.setThread t th).ns = p.ns := by
  funext s
  unfold MSt.ns
  rw [setThread_thread]
  split
  · rename_i e
    rw [h, e]
  · rfl

theorem size_thread (p : MSt T) (ht : t < K) {th : Thread T} (hn : th.data.nseg = (p.thread t).data.nseg) {x : Nat}
    (h : th.size + x = (p.thread t).size) : (p.setThread t th).size n K + x = p.size n K := by
  have h1 := sum_change ht (fun s => (p.thread s).size) (fun s => ((p.setThread t th).thread s).size)
    (fun y hy => by simp [MSt.setThread, Function.update_of_ne hy])
  have h2 : (p.setThread t th).thread t = th := by rw [setThread_thread, if_pos rfl]
  rw [h2] at h1
  have h3 : (p.setThread t th).size n K = (∑ s ∈ Finset.range K, ((p.setThread t th).thread s).size) + queueWeight p.ns p.injector +
      ∑ v ∈ Finset.range n, mworkerWeight p.ns (p.worker v) := by
    rw [MSt.size, ns_setThread p t hn]
    rfl
  rw [h3, MSt.size]
  omega

theorem size_injector (p : MSt T) {l : List (Nat × Job)} {x y : Nat} (h : queueWeight p.ns l + x = queueWeight p.ns p.injector + y) :
    ({ p with injector := l } : MSt T).size n K + x = p.size n K + y := by
  have h3 : ({ p with injector := l } : MSt T).size n K = (∑ t ∈ Finset.range K, (p.thread t).size) + queueWeight p.ns l +
    ∑ v ∈ Finset.range n, mworkerWeight p.ns (p.worker v) := rfl
  rw [h3, MSt.size]
  omega

theorem calls_lt (p : MSt T) (ht : t < K) {th : Thread T} (h : th.calls < (p.thread t).calls) :
    (p.setThread t th).calls K < p.calls K := by
  have h1 := sum_change ht (fun s => (p.thread s).calls) (fun s => ((p.setThread t th).thread s).calls)
    (fun y hy => by simp [MSt.setThread, Function.update_of_ne hy])
  have h2 : (p.setThread t th).thread t = th := by rw [setThread_thread, if_pos rfl]
  rw [h2] at h1
  simp only [MSt.calls]
  omega

theorem calls_eq (p : MSt T) {th : Thread T} (h : th.calls = (p.thread t).calls) : (p.setThread t th).calls K = p.calls K := by
  unfold MSt.calls
  refine Finset.sum_congr rfl fun s _ => ?_
  rw [setThread_thread]
  split
  · rename_i e
    rw [h, e]
  · rfl

theorem mcurWeight_begin (ns : Nat → Bool → Nat) (t : Nat) (j : Job) : mcurWeight ns (some (t, j.begin)) + 1 = jobWeight (ns t) j :=
  begin_weight (ns t) j

theorem queueWeight_cons (ns : Nat → Bool → Nat) (t : Nat) (j : Job) (l : List (Nat × Job)) :
    queueWeight ns ((t, j) :: l) = jobWeight (ns t) j + queueWeight ns l := by simp [queueWeight]

theorem queueWeight_append (ns : Nat → Bool → Nat) (t : Nat) (j : Job) (l : List (Nat × Job)) :
    queueWeight ns (l ++ [(t, j)]) = queueWeight ns l + jobWeight (ns t) j := by simp [queueWeight]

theorem Thread.size_data [Add T] {th : Thread T} {a : Actor} {d : St T} (hs : Step a th.data d) :
    ∃ x, 0 < x ∧ ({ th with data := d } : Thread T).size + x = th.size := by
  have h4 := hs.size_lt
  refine ⟨th.data.size - d.size, by omega, ?_⟩
  simp only [Thread.size, show d.nseg = th.data.nseg from funext hs.nseg]
  omega

theorem Thread.size_rest {th : Thread T} {j : Job} {rest : List Job} (h : th.rest = j :: rest) :
    ({ th with rest } : Thread T).size + (jobWeight th.data.nseg j + 1) = th.size := by
  simp [Thread.size, h]
  omega

theorem MStep.size_lt [Zero T] [Add T] [Mul T] {calls : Nat → List (Call T)} (hI : MInv n K place calls p) (h : MStep n K place p p') :
    p'.calls K < p.calls K ∨ (p'.calls K = p.calls K ∧ p'.size n K < p.size n K) := by
  cases h with
  | @enter t c more sh progs ht ha htd hsc => exact .inl (calls_lt p ht (by simp [Thread.calls, ha, htd]; omega))
  | @refuse t c more e ht ha htd hsh => exact .inl (calls_lt p ht (by simp [Thread.calls, ha, htd]))
  | @leave t ht ha hm hg hh hnf hcr => exact .inl (calls_lt p ht (by simp [Thread.calls, ha]))
  | @leaveFail t ht ha hm hg hh hf => exact .inl (calls_lt p ht (by simp [Thread.calls, ha]))
  | @inject t j rest ht hpl hm =>
    refine .inr ⟨calls_eq p (th := { p.thread t with rest }) rfl, ?_⟩
    have h1 := size_thread (n := n) p ht (th := { p.thread t with rest }) rfl (Thread.size_rest hm)
    have h2 := size_injector (n := n) (K := K) (p.setThread t { p.thread t with rest }) (l := p.injector ++ [(t, j)]) (x := 0)
      (y := jobWeight (p.ns t) j) (by rw [ns_setThread p t (th := { p.thread t with rest }) rfl, queueWeight_append]; rfl)
    have h3 : jobWeight (p.ns t) j = jobWeight (p.thread t).data.nseg j := rfl
    rw [Nat.add_zero] at h2
    rw [h2]
    omega
  | @push t w j rest ht hw hpl hm =>
    refine .inr ⟨calls_eq p (th := { p.thread t with rest }) rfl, ?_⟩
    have h1 := size_thread (n := n) p ht (th := { p.thread t with rest }) rfl (Thread.size_rest hm)
    have h2 := size_worker (n := n) (K := K) (p.setThread t { p.thread t with rest }) hw
      (k := { p.worker w with deque := (t, j) :: (p.worker w).deque }) (x := 0)
      (y := jobWeight (p.ns t) j) (by
        rw [ns_setThread p t (th := { p.thread t with rest }) rfl]
        change queueWeight p.ns ((t, j) :: (p.worker w).deque) + mcurWeight p.ns (p.worker w).cur + 0 =
          queueWeight p.ns (p.worker w).deque + mcurWeight p.ns (p.worker w).cur + _
        rw [queueWeight_cons]
        omega)
    have h3 : jobWeight (p.ns t) j = jobWeight (p.thread t).data.nseg j := rfl
    rw [Nat.add_zero] at h2
    rw [h2]
    omega
  | @pop w t j rest hw hfree hd =>
    refine .inr ⟨rfl, ?_⟩
    have h2 := mcurWeight_begin p.ns t j
    have h1 := size_worker (n := n) (K := K) p hw (k := ⟨rest, some (t, j.begin)⟩) (x := 1) (y := 0) (by
      simp only [mworkerWeight, hfree.1, hd, queueWeight_cons]
      have h0 : mcurWeight p.ns none = 0 := rfl
      omega)
    omega
  | @steal w v t j rest hw hv hne hfree hd =>
    refine .inr ⟨rfl, ?_⟩
    have h2 := mcurWeight_begin p.ns t j
    have h1 := size_worker (n := n) (K := K) p hv (k := { p.worker v with deque := rest }) (x := jobWeight (p.ns t) j) (y := 0) (by
      change queueWeight p.ns rest + mcurWeight p.ns (p.worker v).cur + _ = mworkerWeight p.ns (p.worker v) + 0
      rw [mworkerWeight, hd, queueWeight_append]
      omega)
    have h3 := size_worker (n := n) (K := K) (p.setWorker v { p.worker v with deque := rest }) hw
      (k := { p.worker w with cur := some (t, j.begin) }) (x := 0) (y := mcurWeight p.ns (some (t, j.begin))) (by
      rw [setWorker_worker, if_neg hne]
      change queueWeight p.ns (p.worker w).deque + mcurWeight p.ns (some (t, j.begin)) + 0 = mworkerWeight p.ns (p.worker w) + _
      rw [mworkerWeight, hfree.1]
      rfl)
    rw [Nat.add_zero] at h3
    rw [h3]
    omega
  | @take w t j rest hw hfree hd =>
    refine .inr ⟨rfl, ?_⟩
    have h2 := mcurWeight_begin p.ns t j
    have h1 := size_injector (n := n) (K := K) p (l := rest) (x := jobWeight (p.ns t) j) (y := 0) (by
      rw [hd, queueWeight_cons]
      omega)
    have h3 := size_worker (n := n) (K := K) { p with injector := rest } hw
      (k := { p.worker w with cur := some (t, j.begin) }) (x := 0) (y := mcurWeight p.ns (some (t, j.begin))) (by
      change queueWeight p.ns (p.worker w).deque + mcurWeight p.ns (some (t, j.begin)) + 0 = mworkerWeight p.ns (p.worker w) + _
      rw [mworkerWeight, hfree.1]
      rfl)
    rw [Nat.add_zero] at h3
    rw [h3]
    omega
  | @sender w t i d rest hw hc hs hr =>
    refine .inr ⟨calls_eq p (th := { p.thread t with data := d }) rfl, ?_⟩
    have ht := hI.lt ((hI.each t).active_cur hw hc)
    obtain ⟨x, hx, h1⟩ := Thread.size_data hs
    have h2 := size_thread (n := n) p ht (th := { p.thread t with data := d }) (funext hs.nseg) h1
    exact Nat.lt_of_lt_of_eq (Nat.lt_add_of_pos_right hx) h2
  | @senderEnd w t i d hw hc hs hr =>
    refine .inr ⟨calls_eq p (th := { p.thread t with data := d }) rfl, ?_⟩
    have ht := hI.lt ((hI.each t).active_cur hw hc)
    obtain ⟨x, hx, h1⟩ := Thread.size_data hs
    have h2 := size_thread (n := n) p ht (th := { p.thread t with data := d }) (funext hs.nseg) h1
    have h3 := size_worker (n := n) (K := K) (p.setThread t { p.thread t with data := d }) hw (k := { p.worker w with cur := none })
      (x := 1) (y := 0) (by
        rw [ns_setThread p t (funext hs.nseg)]
        change queueWeight p.ns (p.worker w).deque + 0 + 1 = mworkerWeight p.ns (p.worker w)
        rw [mworkerWeight, hc]
        rfl)
    refine Nat.lt_trans (Nat.lt_of_succ_le (Nat.le_of_eq h3)) ?_
    exact Nat.lt_of_lt_of_eq (Nat.lt_add_of_pos_right hx) h2
  | @spawnReceiver w t k side hw hc hk =>
    refine .inr ⟨rfl, ?_⟩
    have hk' : k < p.ns t side := hk
    have h1 := size_worker (n := n) (K := K) p hw (k := ⟨(t, .receiver side k) :: (p.worker w).deque, some (t, .start side (k + 1))⟩)
      (x := 1) (y := 0) (by
        simp only [mworkerWeight, hc, queueWeight_cons, mcurWeight, curWeight, jobWeight]
        omega)
    omega
  | @startEnd w t k side hw hc hk =>
    refine .inr ⟨rfl, ?_⟩
    have h3 := size_worker (n := n) (K := K) p hw (k := { p.worker w with cur := none }) (x := 1 + 3 * (p.ns t side - k)) (y := 0) (by
        change queueWeight p.ns (p.worker w).deque + 0 + _ = mworkerWeight p.ns (p.worker w)
        rw [mworkerWeight, hc]
        rfl)
    omega
  | @receiver w t seg side d hw hc hs =>
    refine .inr ⟨calls_eq p (th := { p.thread t with data := d }) rfl, ?_⟩
    have ht := hI.lt ((hI.each t).active_cur hw hc)
    obtain ⟨x, hx, h1⟩ := Thread.size_data hs
    have h2 := size_thread (n := n) p ht (th := { p.thread t with data := d }) (funext hs.nseg) h1
    exact Nat.lt_of_lt_of_eq (Nat.lt_add_of_pos_right hx) h2
  | @receiverEnd w t seg side hw hc hq hcl =>
    refine .inr ⟨rfl, ?_⟩
    have h3 := size_worker (n := n) (K := K) p hw (k := { p.worker w with cur := none }) (x := 1) (y := 0) (by
        change queueWeight p.ns (p.worker w).deque + 0 + _ = mworkerWeight p.ns (p.worker w)
        rw [mworkerWeight, hc]
        rfl)
    omega

/-- induction on the steps still possible -/
theorem minduction [Zero T] [Add T] [Mul T] {calls : Nat → List (Call T)} (hpl : ∀ t < K, ∀ c, place t = some c → c < n)
    {motive : MSt T → Prop} (step : ∀ p, MInv n K place calls p → (∀ p', MStep n K place p p' → motive p') → motive p)
    (p : MSt T) (hp : MInv n K place calls p) : motive p := by
  generalize ha : p.calls K = a
  induction a using Nat.strong_induction_on generalizing p with
  | _ a iha =>
    generalize hb : p.size n K = b
    induction b using Nat.strong_induction_on generalizing p with
    | _ b ihb =>
      refine step p hp fun p' hs => ?_
      rcases hs.size_lt hp with h | ⟨h1, h2⟩
      · exact iha _ (by omega) p' (hp.step hpl hs) rfl
      · exact ihb _ (by omega) p' (hp.step hpl hs) (by omega) rfl

end RL.SplitWriter
