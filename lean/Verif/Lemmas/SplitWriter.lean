import Verif.Model.SplitWriter
import Verif.Lemmas.BmmJvp
import Verif.Lemmas.Heap
import Mathlib.Logic.Relation
import Mathlib.Algebra.BigOperators.Group.Finset.Basic
import Mathlib.Algebra.Order.BigOperators.Group.Finset

/-! Helper lemmas: senders, channels and receivers of `bmm_jvp` -/

namespace RL.SplitWriter

open RL Spec

variable {T : Type}

theorem perm_set {α : Type _} {l : List α} {i : Nat} {x : α} (h : l[i]? = some x) (y : α) :
    l.Perm (x :: l.eraseIdx i) ∧ (l.set i y).Perm (y :: l.eraseIdx i) := by
  obtain ⟨hi, rfl⟩ := List.getElem?_eq_some_iff.1 h
  refine ⟨(List.getElem_cons_eraseIdx_perm hi).symm, ?_⟩
  have := (List.getElem_cons_eraseIdx_perm (l := l.set i y) (n := i) (by simpa using hi)).symm
  simpa [List.eraseIdx_set_eq] using this

/-- messages not yet sent -/
def unsentOf : Sender T → List (Msg T)
  | .run p => p.msgs
  | _ => []

def St.unsent (s : St T) : List (Msg T) := s.senders.flatMap unsentOf

theorem unsent_set {l : List (Sender T)} {i : Nat} {x : Sender T} (h : l[i]? = some x) (y : Sender T) :
    ∃ r, (l.flatMap unsentOf).Perm (unsentOf x ++ r) ∧ ((l.set i y).flatMap unsentOf).Perm (unsentOf y ++ r) := by
  obtain ⟨h1, h2⟩ := perm_set h y
  refine ⟨(l.eraseIdx i).flatMap unsentOf, ?_, ?_⟩
  · simpa using h1.flatMap_right unsentOf
  · simpa using h2.flatMap_right unsentOf

/-- goes to this segment -/
def Dest (side : Bool) (seg : Nat) (m : Msg T) : Bool := m.right == side && m.globalIdx / 32 == seg

/-- what holds in every state reached from the initial one: `w` are the messages written so far, in this order, `q` those on the way -/
structure Inv [Zero T] [Add T] (progs : List (Prog T)) (len : Bool → Nat) (s : St T) (w q : List (Msg T)) : Prop where
  arr : ∀ side, s.arr side = accum (List.replicate (len side) 0) (contribs side (len side) w)
  chan : ∀ side seg, s.chan side seg = (q.filter (Dest side seg)).map fun m => (m.globalIdx, m.val)
  range : ∀ m ∈ q, m.globalIdx < len m.right
  perm : Sender.failed ∉ s.senders → (w ++ q ++ s.unsent).Perm (progs.flatMap (·.msgs))
  crashed : s.crashed = false
  count : s.senders.length = progs.length
  prog : ∀ (i : Nat) (p : Prog T), progs[i]? = some p → ∀ t, s.senders[i]? = some t → match t with
    | .run r => r.fails = p.fails ∧ ∃ sent, p.msgs = sent ++ r.msgs
    | .done => p.fails = false
    | .failed => p.fails = true

theorem Inv.len [Zero T] [Add T] {progs : List (Prog T)} {len : Bool → Nat} {s : St T} {w q : List (Msg T)} (h : Inv progs len s w q)
    (side : Bool) : (s.arr side).length = len side := by
  rw [h.arr, accum_length, List.length_replicate]

theorem Inv.init [Zero T] [Add T] (progs : List (Prog T)) (len : Bool → Nat) : Inv progs len (St.init progs len) [] [] := by
  refine ⟨fun _ => by simp [St.init, contribs, accum], fun _ _ => by simp [St.init], fun _ h => by simp at h,
    fun _ => by simp [St.unsent, St.init, List.flatMap_map, unsentOf], rfl, by simp [St.init], fun i p hp t ht => ?_⟩
  simp only [St.init, List.getElem?_map, hp, Option.map_some, Option.some.injEq] at ht
  subst ht
  exact ⟨rfl, [], rfl⟩

/-- all indices sent are in range -/
def InRange (progs : List (Prog T)) (len : Bool → Nat) : Prop := ∀ p ∈ progs, ∀ m ∈ p.msgs, m.globalIdx < len m.right

theorem Inv.head [Zero T] [Add T] {progs : List (Prog T)} {len : Bool → Nat} (hr : InRange progs len) {s : St T} {w q : List (Msg T)}
    (h : Inv progs len s w q) {i : Nat} {m : Msg T} {ms : List (Msg T)} {f : Bool} (e : s.senders[i]? = some (.run ⟨m :: ms, f⟩)) :
    m.globalIdx < len m.right := by
  have hi : i < progs.length := by rw [← h.count]; exact (List.getElem?_eq_some_iff.1 e).1
  have hp := List.getElem?_eq_getElem hi
  obtain ⟨_, sent, h2⟩ := h.prog i _ hp _ e
  exact hr _ (List.getElem_mem hi) m (by rw [h2]; simp)

theorem mem_set_failed {l : List (Sender T)} {i : Nat} {x y : Sender T} (h : l[i]? = some x) (hx : x ≠ .failed)
    (hf : Sender.failed ∉ l.set i y) : Sender.failed ∉ l := by
  intro hm
  obtain ⟨k, hk⟩ := List.getElem?_of_mem hm
  have hik : i ≠ k := by
    rintro rfl
    rw [h] at hk
    cases hk
    exact hx rfl
  exact hf (List.mem_of_getElem? (i := k) (by rw [List.getElem?_set_ne hik]; exact hk))

/-- what a step does to the messages -/
inductive Moves (a : Actor) (s s' : St T) (w q : List (Msg T)) : List (Msg T) → List (Msg T) → Prop where
  | ends {i : Nat} {f : Bool} : a = .sender i → s.senders[i]? = some (.run ⟨[], f⟩) →
      s'.senders = s.senders.set i (if f then .failed else .done) → Moves a s s' w q w q
  | sends {i : Nat} {m : Msg T} {ms : List (Msg T)} {f : Bool} : a = .sender i → s.senders[i]? = some (.run ⟨m :: ms, f⟩) →
      s'.senders = s.senders.set i (.run ⟨ms, f⟩) → Moves a s s' w q w (q ++ [m])
  | writes {m : Msg T} {q1 q2 : List (Msg T)} : a = .receiver m.right (m.globalIdx / 32) → s'.senders = s.senders → q = q1 ++ m :: q2 →
      (∀ x ∈ q1, ¬ Dest m.right (m.globalIdx / 32) x = true) → Moves a s s' w q (w ++ [m]) (q1 ++ q2)

/-- every step writes, sends or ends something, and the assertion holds -/
theorem Inv.moves [Zero T] [Add T] {progs : List (Prog T)} {len : Bool → Nat} (hr : InRange progs len) {s s' : St T}
    {w q : List (Msg T)} (h : Inv progs len s w q) {a : Actor} (hs : Step a s s') :
    ∃ w' q', Inv progs len s' w' q' ∧ Moves a s s' w q w' q' := by
  have key : ∀ {i : Nat} {x y : Sender T}, s.senders[i]? = some x → ∀ (k : Nat) (p : Prog T), progs[k]? = some p → ∀ t,
      (s.senders.set i y)[k]? = some t → (i = k ∧ t = y) ∨ s.senders[k]? = some t := by
    intro i x y _ k p _ t ht
    rw [List.getElem?_set] at ht
    split at ht
    · rename_i hik
      split at ht
      · cases ht
        exact .inl ⟨hik, rfl⟩
      · cases ht
    · exact .inr ht
  cases hs with
  | @send _ i m ms f seg e1 e2 =>
    have hm := h.head hr e1
    rw [h.len, senderOf_ok hm] at e2
    cases e2
    refine ⟨w, q ++ [m], { h with chan := ?_, range := ?_, perm := ?_, count := by simpa using h.count, prog := ?_ }, .sends rfl e1 rfl⟩
    · intro side seg
      simp only
      rw [List.filter_append, List.map_append, ← h.chan]
      by_cases hd : side = m.right ∧ seg = m.globalIdx / 32
      · rw [if_pos hd]
        simp [Dest, hd.1, hd.2]
      · rw [if_neg hd]
        have : Dest side seg m = false := by
          rw [Bool.eq_false_iff]
          intro hc
          simp [Dest] at hc
          exact hd ⟨hc.1.symm, hc.2.symm⟩
        simp [this]
    · intro x hx
      rcases List.mem_append.1 hx with hx | hx
      · exact h.range x hx
      · simp at hx
        subst hx
        exact hm
    · intro hf
      have := h.perm (mem_set_failed e1 (by simp) hf)
      obtain ⟨r, h1, h2⟩ := unsent_set e1 (.run ⟨ms, f⟩)
      refine List.Perm.trans ?_ this
      simp only [unsentOf] at h1 h2
      simp only [St.unsent]
      refine ((h2.append_left _).trans ?_).trans (h1.append_left _).symm
      simp
    · intro k p hp t ht
      rcases key (y := .run ⟨ms, f⟩) e1 k p hp t ht with ⟨rfl, rfl⟩ | ht
      · obtain ⟨h1, sent, h2⟩ := h.prog i p hp _ e1
        exact ⟨h1, sent ++ [m], by simpa using h2⟩
      · exact h.prog k p hp t ht
  | @sendFail _ i m ms f e e1 e2 =>
    rw [h.len, senderOf_ok (h.head hr e1)] at e2
    cases e2
  | @finish _ i e1 =>
    refine ⟨w, q, { h with perm := ?_, count := by simpa using h.count, prog := ?_ }, .ends rfl e1 rfl⟩
    · intro hf
      have := h.perm (mem_set_failed e1 (by simp) hf)
      obtain ⟨r, h1, h2⟩ := unsent_set e1 .done
      refine List.Perm.trans ?_ this
      simp only [unsentOf] at h1 h2
      simp only [St.unsent]
      exact (h2.append_left _).trans (h1.append_left _).symm
    · intro k p hp t ht
      rcases key (y := .done) e1 k p hp t ht with ⟨rfl, rfl⟩ | ht
      · exact (h.prog i p hp _ e1).1.symm
      · exact h.prog k p hp t ht
  | @fail _ i e1 =>
    refine ⟨w, q, { h with perm := ?_, count := by simpa using h.count, prog := ?_ }, .ends rfl e1 rfl⟩
    · intro hf
      exact absurd (List.mem_of_getElem? (i := i) (by simp [(List.getElem?_eq_some_iff.1 e1).1])) hf
    · intro k p hp t ht
      rcases key (y := .failed) e1 k p hp t ht with ⟨rfl, rfl⟩ | ht
      · exact (h.prog i p hp _ e1).1.symm
      · exact h.prog k p hp t ht
  | @recv _ side seg g v qs a e1 e2 e3 =>
    rw [h.chan] at e2
    obtain ⟨m, ms, e4, e5, e6⟩ := List.map_eq_cons_iff.1 e2
    cases e5
    obtain ⟨q1, q2, rfl, e7, hd, e8⟩ := List.filter_eq_cons_iff.1 e4
    simp only [Dest, Bool.and_eq_true, beq_iff_eq] at hd
    obtain ⟨rfl, rfl⟩ := hd
    have hm := h.range m (by simp)
    rw [segmentWrite_ok (by rw [h.len]; exact hm)] at e3
    cases e3
    refine ⟨w ++ [m], q1 ++ q2, { h with arr := ?_, chan := ?_, range := ?_, perm := ?_ }, .writes rfl rfl rfl e7⟩
    · intro side
      simp only
      have hc : contribs side (len side) (w ++ [m]) = contribs side (len side) w ++ contribs side (len side) [m] := by simp [contribs]
      rw [hc, accum_append, ← h.arr]
      by_cases hsd : side = m.right
      · subst hsd
        rw [if_pos rfl, h.len]
        simp [contribs, accum]
      · rw [if_neg hsd]
        have : (m.right == side) = false := by simpa using fun h => hsd h.symm
        simp [contribs, this, accum]
    · intro side seg
      simp only
      have hq1 : q1.filter (Dest m.right (m.globalIdx / 32)) = [] := by
        rw [List.filter_eq_nil_iff]
        exact e7
      by_cases hd : side = m.right ∧ seg = m.globalIdx / 32
      · rw [if_pos hd, hd.1, hd.2, List.filter_append, hq1, ← e6, ← e8]
        simp
      · rw [if_neg hd, h.chan]
        have : Dest side seg m = false := by
          rw [Bool.eq_false_iff]
          intro hc
          simp [Dest] at hc
          exact hd ⟨hc.1.symm, hc.2.symm⟩
        simp [List.filter_cons, this]
    · intro x hx
      refine h.range x ?_
      simp at hx ⊢
      tauto
    · intro hf
      refine List.Perm.trans ?_ (h.perm hf)
      simp only [St.unsent, List.append_assoc, List.cons_append, List.singleton_append]
      refine List.Perm.append_left _ ?_
      simpa using List.perm_middle.symm
  | @recvFail _ side seg g v qs e e1 e2 e3 =>
    rw [h.chan] at e2
    obtain ⟨m, ms, e4, e5, e6⟩ := List.map_eq_cons_iff.1 e2
    cases e5
    obtain ⟨q1, q2, rfl, e7, hd, e8⟩ := List.filter_eq_cons_iff.1 e4
    simp only [Dest, Bool.and_eq_true, beq_iff_eq] at hd
    obtain ⟨rfl, rfl⟩ := hd
    rw [segmentWrite_ok (by rw [h.len]; exact h.range m (by simp))] at e3
    cases e3

theorem Inv.step [Zero T] [Add T] {progs : List (Prog T)} {len : Bool → Nat} (hr : InRange progs len) {s s' : St T}
    {w q : List (Msg T)} (h : Inv progs len s w q) {a : Actor} (hs : Step a s s') : ∃ w' q', Inv progs len s' w' q' := by
  obtain ⟨w', q', h', _⟩ := h.moves hr hs
  exact ⟨w', q', h'⟩

/-- reachable from the initial state -/
abbrev Reach [Zero T] [Add T] (progs : List (Prog T)) (len : Bool → Nat) (s : St T) : Prop :=
  Relation.ReflTransGen AnyStep (St.init progs len) s

theorem Reach.inv [Zero T] [Add T] {progs : List (Prog T)} {len : Bool → Nat} (hr : InRange progs len) {s : St T}
    (h : Reach progs len s) : ∃ w q, Inv progs len s w q := by
  induction h with
  | refl => exact ⟨[], [], Inv.init progs len⟩
  | tail _ hs ih =>
    obtain ⟨w, q, hi⟩ := ih
    obtain ⟨a, hs⟩ := hs
    exact hi.step hr hs

/-- when nothing is left to do, every message was written -/
theorem Inv.complete [Zero T] [Add T] {progs : List (Prog T)} {len : Bool → Nat} {s : St T} {w q : List (Msg T)}
    (h : Inv progs len s w q) (hc : s.Complete) : q = [] ∧
      (Sender.failed ∈ s.senders ↔ ∃ p ∈ progs, p.fails = true) ∧
      (Sender.failed ∉ s.senders → w.Perm (progs.flatMap (·.msgs))) := by
  have hq : q = [] := by
    match q, h with
    | [], _ => rfl
    | m :: q, h =>
      have := h.chan m.right (m.globalIdx / 32)
      rw [hc.empty] at this
      simp [Dest] at this
  subst hq
  refine ⟨rfl, ⟨?_, ?_⟩, ?_⟩
  · intro hf
    obtain ⟨i, hi⟩ := List.getElem?_of_mem hf
    have hp : i < progs.length := by rw [← h.count]; exact (List.getElem?_eq_some_iff.1 hi).1
    exact ⟨_, List.getElem_mem hp, h.prog i _ (List.getElem?_eq_getElem hp) _ hi⟩
  · rintro ⟨p, hp, hf⟩
    obtain ⟨i, hi⟩ := List.getElem?_of_mem hp
    have hl : i < s.senders.length := by rw [h.count]; exact (List.getElem?_eq_some_iff.1 hi).1
    have h1 := h.prog i p hi _ (List.getElem?_eq_getElem hl)
    have h2 := hc.ended _ (List.getElem_mem hl)
    have h3 := List.getElem_mem hl
    cases ht : s.senders[i] with
    | run r => rw [ht] at h2; exact h2.elim
    | done => rw [ht] at h1; simp [hf] at h1
    | failed => rw [ht] at h3; exact h3
  · intro hf
    have := h.perm hf
    have hu : s.unsent = [] := by
      simp only [St.unsent, List.flatMap_eq_nil_iff]
      intro t ht
      have := hc.ended t ht
      cases t with
      | run r => exact this.elim
      | done => rfl
      | failed => rfl
    simpa [hu] using this

/-- as long as something is left to do, some step is possible -/
theorem Inv.progress [Zero T] [Add T] {progs : List (Prog T)} {len : Bool → Nat} {s : St T} {w q : List (Msg T)}
    (h : Inv progs len s w q) (hc : ¬ s.Complete) : ∃ s', AnyStep s s' := by
  by_cases he : ∀ t ∈ s.senders, t.Ended
  · have : ∃ side seg, s.chan side seg ≠ [] := by
      by_contra hn
      push Not at hn
      exact hc ⟨he, hn⟩
    obtain ⟨side, seg, hne⟩ := this
    obtain ⟨⟨g, v⟩, qs, hq⟩ := List.exists_cons_of_ne_nil hne
    have hseg : seg < s.nseg side := by
      rw [St.nseg, rchunks_length_iff, h.len]
      have := hq
      rw [h.chan] at this
      obtain ⟨m, ms, e4, e5, e6⟩ := List.map_eq_cons_iff.1 this
      have hm : m ∈ q.filter (Dest side seg) := by rw [e4]; simp
      obtain ⟨hm', hd⟩ := List.mem_filter.1 hm
      simp only [Dest, Bool.and_eq_true, beq_iff_eq] at hd
      obtain ⟨rfl, rfl⟩ := hd
      have := h.range m hm'
      omega
    cases hw : segmentWrite (s.arr side) seg g v with
    | ok a => exact ⟨_, _, .recv hseg hq hw⟩
    | error e => exact ⟨_, _, .recvFail hseg hq hw⟩
  · push Not at he
    obtain ⟨t, ht, hne⟩ := he
    obtain ⟨i, hi⟩ := List.getElem?_of_mem ht
    match t, hne, hi with
    | .run ⟨[], false⟩, _, hi => exact ⟨_, _, .finish hi⟩
    | .run ⟨[], true⟩, _, hi => exact ⟨_, _, .fail hi⟩
    | .run ⟨m :: ms, f⟩, _, hi =>
      cases hs : senderOf (s.arr m.right).length m.globalIdx with
      | ok seg => exact ⟨_, _, .send hi hs⟩
      | error e => exact ⟨_, _, .sendFail hi hs⟩
    | .done, hne, _ => exact absurd trivial hne
    | .failed, hne, _ => exact absurd trivial hne

/-! ### termination -/

theorem sum_change {n x : Nat} (hx : x < n) (f g : Nat → Nat) (h : ∀ y, y ≠ x → g y = f y) :
    (∑ y ∈ Finset.range n, g y) + f x = (∑ y ∈ Finset.range n, f y) + g x := by
  have hm := Finset.mem_range.2 hx
  rw [← Finset.add_sum_erase _ f hm, ← Finset.add_sum_erase _ g hm]
  have : ∑ y ∈ (Finset.range n).erase x, g y = ∑ y ∈ (Finset.range n).erase x, f y :=
    Finset.sum_congr rfl fun y hy => h y (Finset.ne_of_mem_erase hy)
  omega

def weight : Sender T → Nat
  | .run p => 2 * p.msgs.length + 1
  | _ => 0

/-- number of steps still possible -/
def St.size (s : St T) : Nat :=
  (s.senders.map weight).sum + (∑ seg ∈ Finset.range (s.nseg false), (s.chan false seg).length) +
    ∑ seg ∈ Finset.range (s.nseg true), (s.chan true seg).length

theorem weight_set {l : List (Sender T)} {i : Nat} {x : Sender T} (h : l[i]? = some x) (y : Sender T) :
    ((l.set i y).map weight).sum + weight x = (l.map weight).sum + weight y := by
  obtain ⟨h1, h2⟩ := perm_set h y
  rw [(h1.map weight).sum_eq, (h2.map weight).sum_eq]
  simp
  omega

theorem segmentWrite_length [Add T] {arr a : List T} {seg g : Nat} {v : T} (h : segmentWrite arr seg g v = .ok a) :
    a.length = arr.length := by
  simp only [segmentWrite, addAt, R.bind_eq_ok] at h
  obtain ⟨_, _, _, _, _, _, _, _, h⟩ := h
  rw [R.pure_eq_ok] at h
  simp [← h]

theorem Step.nseg [Add T] {a : Actor} {s s' : St T} (h : Step a s s') (side : Bool) : s'.nseg side = s.nseg side := by
  cases h with
  | @recv _ sd seg g v q a e1 e2 e3 =>
    simp only [St.nseg]
    by_cases hs : side = sd
    · subst hs
      rw [if_pos rfl, segmentWrite_length e3]
    · rw [if_neg hs]
  | _ => rfl

/-- every step makes the rest smaller -/
theorem Step.size_lt [Add T] {a : Actor} {s s' : St T} (h : Step a s s') : s'.size < s.size := by
  have hn := h.nseg
  unfold St.size
  rw [hn false, hn true]
  cases h with
  | @send _ i m ms f seg e1 e2 =>
    have hw := weight_set e1 (.run ⟨ms, f⟩)
    have hseg : seg < s.nseg m.right := by
      unfold senderOf at e2
      simp only at e2
      split at e2
      · rename_i hlt
        cases e2
        exact hlt
      · cases e2
    simp only [weight, List.length_cons] at hw
    simp only
    cases hr : m.right with
    | false =>
      rw [hr] at hseg
      have := sum_change hseg (fun sg => (s.chan false sg).length)
        (fun sg => (if false = false ∧ sg = seg then s.chan false sg ++ [(m.globalIdx, m.val)] else s.chan false sg).length)
        (fun y hy => by simp [hy])
      simp at this hw ⊢
      omega
    | true =>
      rw [hr] at hseg
      have := sum_change hseg (fun sg => (s.chan true sg).length)
        (fun sg => (if true = true ∧ sg = seg then s.chan true sg ++ [(m.globalIdx, m.val)] else s.chan true sg).length)
        (fun y hy => by simp [hy])
      simp at this hw ⊢
      omega
  | @sendFail _ i m ms f e e1 e2 =>
    have hw := weight_set e1 .failed
    simp only [weight] at hw
    simp only
    omega
  | @finish _ i e1 =>
    have hw := weight_set e1 .done
    simp only [weight] at hw
    simp only
    omega
  | @fail _ i e1 =>
    have hw := weight_set e1 .failed
    simp only [weight] at hw
    simp only
    omega
  | @recv _ side seg g v q a e1 e2 e3 =>
    simp only
    cases side with
    | false =>
      have := sum_change e1 (fun sg => (s.chan false sg).length)
        (fun sg => (if false = false ∧ sg = seg then q else s.chan false sg).length) (fun y hy => by simp [hy])
      simp [e2] at this ⊢
      omega
    | true =>
      have := sum_change e1 (fun sg => (s.chan true sg).length)
        (fun sg => (if true = true ∧ sg = seg then q else s.chan true sg).length) (fun y hy => by simp [hy])
      simp [e2] at this ⊢
      omega
  | @recvFail _ side seg g v q e e1 e2 e3 =>
    simp only
    cases side with
    | false =>
      have := sum_change e1 (fun sg => (s.chan false sg).length)
        (fun sg => (if false = false ∧ sg = seg then q else s.chan false sg).length) (fun y hy => by simp [hy])
      simp [e2] at this ⊢
      omega
    | true =>
      have := sum_change e1 (fun sg => (s.chan true sg).length)
        (fun sg => (if true = true ∧ sg = seg then q else s.chan true sg).length) (fun y hy => by simp [hy])
      simp [e2] at this ⊢
      omega

/-! ### order of the messages -/

theorem accum_perm [AddCommMonoid T] {arr : List T} {cs ds : List (Nat × T)} (h : cs.Perm ds) : accum arr cs = accum arr ds := by
  unfold accum
  refine h.foldl_eq' ?_ arr
  intro x _ y _ z
  apply List.ext_getElem?
  intro k
  simp only [List.getElem?_modify]
  cases z[k]? with
  | none => rfl
  | some t =>
    by_cases h1 : x.1 = k <;> by_cases h2 : y.1 = k <;> simp [h1, h2, add_right_comm]

theorem contribs_perm {right : Bool} {len : Nat} {l l' : List (Msg T)} (h : l.Perm l') :
    (contribs right len l).Perm (contribs right len l') := (h.filter _).map _

/-! ### the tasks of `bmm_jvp` -/

theorem globalIndex_pair_lt {x y r c g : Nat} (h : globalIndex [x, y] [r, c] none = .ok g) : g < r * c := by
  have hr : Readable [r, c] [x, y] := by
    by_contra hn
    obtain ⟨e, he⟩ := globalIndex_none_err hn
    rw [he] at h
    cases h
  have hp : Pos [r, c] := by
    have h2 := hr.2
    simp at h2
    intro d hd
    simp at hd
    omega
  rw [globalIndex_none_ok hr] at h
  cases h
  simpa using rowMajor_lt (bproj_inRange hp hr)

theorem foldlM_append_mem {α β : Type _} {f : List β → α → R (List β)} {g : α → List β → Prop}
    (hf : ∀ acc x r, f acc x = .ok r → ∃ y, r = acc ++ y ∧ g x y) :
    ∀ (l : List α) (acc r : List β), l.foldlM f acc = .ok r → ∃ ys, List.Forall₂ g l ys ∧ r = acc ++ ys.flatten := by
  intro l
  induction l with
  | nil =>
    intro acc r h
    simp only [List.foldlM_nil, R.pure_eq_ok] at h
    exact ⟨[], .nil, by simp [h]⟩
  | cons x l ih =>
    intro acc r h
    rw [List.foldlM_cons, R.bind_eq_ok] at h
    obtain ⟨r1, h1, h2⟩ := h
    obtain ⟨y, rfl, hy⟩ := hf _ _ _ h1
    obtain ⟨ys, hys, rfl⟩ := ih _ _ h2
    exact ⟨y :: ys, .cons hy hys, by simp⟩

/-- where the messages of a task go -/
theorem bmmJvpTask_range [Mul T] {a b jac : Raw T} {sh : BmmJvpShapes} {i k j : Nat} {msgs : List (Msg T)}
    (h : bmmJvpTask a b jac sh i k j = .ok msgs) : ∀ m ∈ msgs, ∃ x y,
      globalIndex [x, y] (if m.right then sh.rightOutput else sh.leftOutput) none = .ok m.globalIdx := by
  simp only [bmmJvpTask, R.bind_eq_ok] at h
  obtain ⟨_, _, _, _, _, _, _, _, _, _, _, _, _, _, _, _, _, _, _, _, h⟩ := h
  obtain ⟨ys, h1, rfl⟩ := foldlM_append_mem (g := fun _ y => ∀ m ∈ y, ∃ x y, globalIndex [x, y]
      (if m.right then sh.rightOutput else sh.leftOutput) none = .ok m.globalIdx) (by
    intro acc x r hr
    simp only [R.bind_eq_ok, R.pure_eq_ok] at hr
    obtain ⟨tl, h1, jv, _, bv, _, tr, h2, av, _, rfl⟩ := hr
    have key : ∀ {r : R Nat} {v : Nat}, unwrapR r = .ok v → r = .ok v := by
      intro r v h
      match r, h with
      | .ok _, h => exact h
      | .error (.err _), h => cases h
      | .error (.panic _), h => cases h
    refine ⟨_, rfl, ?_⟩
    intro m hm
    simp at hm
    rcases hm with rfl | rfl
    · exact ⟨_, _, key h1⟩
    · exact ⟨_, _, key h2⟩) _ _ _ h
  intro m hm
  simp only [List.nil_append, List.mem_flatten] at hm
  obtain ⟨y, hy, hm⟩ := hm
  obtain ⟨n, hn, rfl⟩ := List.getElem_of_mem hy
  have hl := h1.length_eq
  exact h1.get (by rw [hl]; exact hn) hn m hm

theorem bmmJvpShapes_inv {a b jac : Raw T} {sh : BmmJvpShapes} (h : bmmJvpShapes a b jac = .ok sh) :
    ∃ a0 a1 b1 j0, a.shape[0]? = some a0 ∧ a.shape[1]? = some a1 ∧ b.shape[0]? = some a1 ∧ b.shape[1]? = some b1 ∧ jac.shape[0]? = some j0 ∧
      sh = ⟨[a0, b1], [a0 * b1, a0 * a1], [j0, a0 * a1], [j0, a1 * b1]⟩ := by
  simp only [bmmJvpShapes, R.bind_eq_ok, R.pure_eq_ok, idxR_eq_ok] at h
  obtain ⟨a1, h1, b0, h2, ⟨⟩, h3, a0, h4, b1, h5, j0, h6, rfl⟩ := h
  rw [assertR_eq_ok] at h3
  simp at h3
  subst h3
  exact ⟨a0, a1, b1, j0, h4, h1, h2, h5, h6, rfl⟩

theorem AreProgs.inRange [Mul T] {a b jac : Raw T} {sh : BmmJvpShapes} {m k n : Nat} {progs : List (Prog T)}
    (hsh : bmmJvpShapes a b jac = .ok sh) (h : AreProgs a b jac sh m k n progs) : InRange progs (lens sh) := by
  intro p hp x hx
  obtain ⟨i, hi, rfl⟩ := List.getElem_of_mem hp
  have h1 := List.Forall₂.get h (by rw [h.length_eq]; exact hi) hi
  obtain ⟨a0, a1, b1, j0, _, _, _, _, _, rfl⟩ := bmmJvpShapes_inv hsh
  have : ∃ u v, globalIndex [u, v] (if x.right then [j0, a1 * b1] else [j0, a0 * a1]) none = .ok x.globalIdx := by
    unfold IsProg at h1
    split at h1
    · rename_i e
      rw [List.get_eq_getElem] at h1
      rw [h1] at hx
      exact bmmJvpTask_range e x hx
    · exact h1.2 x hx
  obtain ⟨u, v, e⟩ := this
  unfold lens
  cases hx : x.right with
  | true =>
    rw [hx] at e
    simpa using globalIndex_pair_lt (r := j0) (c := a1 * b1) e
  | false =>
    rw [hx] at e
    simpa using globalIndex_pair_lt (r := j0) (c := a0 * a1) e

theorem foldlM_flatMap {α β γ : Type _} (g : γ → β → R γ) (h : α → List β) :
    ∀ (l : List α) (acc : γ), (l.flatMap h).foldlM g acc = l.foldlM (fun acc x => (h x).foldlM g acc) acc := by
  intro l
  induction l with
  | nil => intro acc; rfl
  | cons x l ih =>
    intro acc
    rw [List.flatMap_cons, List.foldlM_append, List.foldlM_cons]
    congr 1
    funext z
    exact ih z

theorem bmmJvpTasks_eq [Mul T] {a b jac : Raw T} {sh : BmmJvpShapes} {m k n : Nat} (h0 : a.shape[0]? = some m)
    (h1 : a.shape[1]? = some k) (h2 : b.shape[1]? = some n) :
    bmmJvpTasks a b jac sh = (taskIndices m k n).mapM fun x => bmmJvpTask a b jac sh x.1 x.2.1 x.2.2 := by
  have h0' := idxR_eq_ok.2 h0
  have h1' := idxR_eq_ok.2 h1
  have h2' := idxR_eq_ok.2 h2
  have h3 := foldlM_append (fun x => bmmJvpTask a b jac sh x.1 x.2.1 x.2.2) (taskIndices m k n) []
  rw [taskIndices, foldlM_flatMap] at h3
  simp only [foldlM_flatMap, List.foldlM_map] at h3
  simp only [bmmJvpTasks, h0', h1', h2', R.bind_ok]
  rw [h3, ← taskIndices]
  cases (taskIndices m k n).mapM fun x => bmmJvpTask a b jac sh x.1 x.2.1 x.2.2 with
  | ok v => simp
  | error e => rfl

theorem progs_mapM {α : Type _} {f : α → R (List (Msg T))} {l : List α} {progs : List (Prog T)} {g : α → Prog T → Prop}
    (hf : ∀ x p, f x = .ok p → ∀ q, g x q → q = ⟨p, false⟩) (hg : ∀ x e, f x = .error e → ∀ q, g x q → q.fails = true)
    (h : List.Forall₂ g l progs) :
    (∃ e p, l.mapM f = .error e ∧ p ∈ progs ∧ p.fails = true) ∨
    (∃ tasks, l.mapM f = .ok tasks ∧ tasks.flatten = progs.flatMap (·.msgs) ∧ ∀ p ∈ progs, p.fails = false) := by
  induction h with
  | nil => exact .inr ⟨[], rfl, rfl, by simp⟩
  | @cons x p l ps h1 h2 ih =>
    rw [List.mapM_cons]
    cases e : f x with
    | error er => exact .inl ⟨er, p, rfl, by simp, hg _ _ e _ h1⟩
    | ok v =>
      have hp := hf _ _ e _ h1
      subst hp
      rcases ih with ⟨er, p, h3, h4, h5⟩ | ⟨tasks, h3, h4, h5⟩
      · exact .inl ⟨er, p, by rw [h3]; rfl, by simp [h4], h5⟩
      · exact .inr ⟨v :: tasks, by rw [h3]; rfl, by simp [h4], by simpa using h5⟩

/-- the sequential run of `bmm_jvp` writes the messages of the tasks -/
theorem AreProgs.bmmJvp [Zero T] [Add T] [Mul T] {a b jac : Raw T} {sh : BmmJvpShapes} {m k n : Nat} {progs : List (Prog T)}
    (hsh : bmmJvpShapes a b jac = .ok sh) (h0 : a.shape[0]? = some m) (h1 : a.shape[1]? = some k) (h2 : b.shape[1]? = some n)
    (h : AreProgs a b jac sh m k n progs) :
    (∃ e p, RL.bmmJvp [a, b] [jac] = .error e ∧ p ∈ progs ∧ p.fails = true) ∨
    (RL.bmmJvp [a, b] [jac] = .ok
      [⟨accum (List.replicate (lens sh false) 0) (contribs false (lens sh false) (progs.flatMap (·.msgs))), sh.leftOutput⟩,
       ⟨accum (List.replicate (lens sh true) 0) (contribs true (lens sh true) (progs.flatMap (·.msgs))), sh.rightOutput⟩] ∧
      ∀ p ∈ progs, p.fails = false) := by
  have key := progs_mapM (f := fun x : Nat × Nat × Nat => bmmJvpTask a b jac sh x.1 x.2.1 x.2.2)
    (g := fun x p => IsProg a b jac sh x.1 x.2.1 x.2.2 p)
    (by intro x p hx q hq; unfold IsProg at hq; simp only [hx] at hq; exact hq)
    (by intro x p hx q hq; unfold IsProg at hq; simp only [hx] at hq; exact hq.1) h
  have hr := h.inRange hsh
  have hA : assertR ([a, b].length == 2 && [jac].length == 1) = .ok () := rfl
  unfold RL.bmmJvp
  simp only [hA, R.bind_ok, idxR, List.getElem?_cons_zero, List.getElem?_cons_succ]
  rw [hsh]
  simp only [R.bind_ok]
  rw [bmmJvpTasks_eq h0 h1 h2]
  rcases key with ⟨e, p, h3, h4, h5⟩ | ⟨tasks, h3, h4, h5⟩
  · exact .inl ⟨e, p, by rw [h3]; rfl, h4, h5⟩
  · refine .inr ⟨?_, h5⟩
    rw [h3]
    simp only [R.bind_ok, h4]
    have hl : sh.leftOutput.foldl (· * ·) 1 = lens sh false := by simp [lens, foldl_mul_eq]
    have hrr : sh.rightOutput.foldl (· * ·) 1 = lens sh true := by simp [lens, foldl_mul_eq]
    rw [hl, hrr, deliver_all _ (lens sh false) (lens sh true) _ _ (by simp) (by simp)]
    · simp only [R.bind_ok]
      rw [Raw.new_ok (by simp [accum_length, lens]), Raw.new_ok (by simp [accum_length, lens])]
      rfl
    · intro x hx
      obtain ⟨p, hp, hx⟩ := List.mem_flatMap.1 hx
      have := hr p hp x hx
      cases hb : x.right with
      | true => rw [hb] at this; simpa using this
      | false => rw [hb] at this; simpa using this

theorem IsScope.inv [Zero T] [Add T] [Mul T] {a b jac : Raw T} {sh : BmmJvpShapes} {progs : List (Prog T)}
    (h : IsScope a b jac sh progs) {s : St T} (hs : Relation.ReflTransGen AnyStep (St.init progs (lens sh)) s) :
    ∃ w q, Inv progs (lens sh) s w q := by
  obtain ⟨hsh, m, k, n, _, _, _, hp⟩ := h
  exact Reach.inv (hp.inRange hsh) hs

end RL.SplitWriter
