import Verif.Lemmas.SplitWriter
import Mathlib.Data.List.Count

/-! Helper lemmas: the jobs of `bmm_jvp` on the workers of a pool -/

namespace RL.SplitWriter

open RL Spec

variable {T : Type}

/-- senders are spawned before the jobs of line 184, and these before the receivers -/
def Job.rank : Job → Nat
  | .sender _ => 0
  | .start _ => 1
  | .receiver _ _ => 2

def Job.IsReceiver : Job → Prop
  | .receiver _ _ => True
  | _ => False

def Running.IsSender : Running → Prop
  | .sender _ => True
  | _ => False

/-- 1 once the task has ended (or does not exist) -/
def endN (s : St T) (i : Nat) : Nat :=
  match s.senders[i]? with
  | some (.run _) => 0
  | _ => 1

/-- the number of workers executing the task -/
def runs (n : Nat) (cur : Nat → Option Running) (i : Nat) : Nat :=
  ∑ w ∈ Finset.range n, if cur w = some (.sender i) then 1 else 0

theorem runs_update {n w : Nat} (hw : w < n) (cur : Nat → Option Running) (r : Option Running) (i : Nat) :
    runs n (Function.update cur w r) i + (if cur w = some (.sender i) then 1 else 0) =
      runs n cur i + if r = some (.sender i) then 1 else 0 := by
  have := sum_change hw (fun v => if cur v = some (.sender i) then 1 else 0)
    (fun v => if Function.update cur w r v = some (.sender i) then 1 else 0)
    (fun y hy => by simp [Function.update_of_ne hy])
  simpa [runs] using this

theorem runs_pos {n w : Nat} (hw : w < n) {cur : Nat → Option Running} {i : Nat} (h : cur w = some (.sender i)) :
    0 < runs n cur i := by
  have := runs_update hw cur none i
  simp [h] at this
  omega

theorem exists_of_runs {n : Nat} {cur : Nat → Option Running} {i : Nat} (h : 0 < runs n cur i) : ∃ w < n, cur w = some (.sender i) := by
  by_contra hn
  push Not at hn
  have : runs n cur i = 0 := Finset.sum_eq_zero fun w hw => by simp [hn w (Finset.mem_range.1 hw)]
  omega

/-- Where the receiver of a segment is: not yet spawned, waiting, running, or ended. -/
def Cover (n : Nat) (d : St T) (P : List Job) (D : Nat → List Job) (cur : Nat → Option Running) (side : Bool) (seg : Nat) : Prop :=
  Job.start side ∈ P ∨ Job.receiver side seg ∈ P ∨ (∃ w < n, Job.receiver side seg ∈ D w) ∨
  (∃ w < n, ∃ k ≤ seg, cur w = some (.start side k)) ∨ (∃ w < n, cur w = some (.receiver side seg)) ∨
  ((∀ t ∈ d.senders, t.Ended) ∧ d.chan side seg = [])

/-- `P` is the queue filled by the calling thread followed by what it has still to spawn, `D` the other queues; `fr` says which workers
are not the calling thread. -/
structure Core (n : Nat) (fr : Nat → Prop) (d : St T) (P : List Job) (D : Nat → List Job) (cur : Nat → Option Running) : Prop where
  sorted : P.Pairwise fun x y => x.rank ≤ y.rank
  receivers : ∀ w < n, ∀ j ∈ D w, j.IsReceiver
  waiting : ∀ w < n, D w ≠ [] → ∀ i, Job.sender i ∉ P
  running : ∀ w < n, fr w → ∀ r, cur w = some r → ¬ r.IsSender → ∀ i, Job.sender i ∉ P
  count : ∀ i, P.count (.sender i) + runs n cur i + endN d i = 1
  cover : ∀ side seg, seg < d.nseg side → Cover n d P D cur side seg

variable {n w : Nat} {fr : Nat → Prop} {d : St T} {P : List Job} {D : Nat → List Job} {cur : Nat → Option Running}

theorem begin_sender {j : Job} {i : Nat} : j.begin = .sender i ↔ j = .sender i := by
  cases j <;> simp [Job.begin]

theorem rank_of_not_sender {j : Job} (h : ¬ j.begin.IsSender) : 1 ≤ j.rank := by
  cases j with
  | sender i => exact absurd trivial h
  | start _ => exact Nat.le_refl _
  | receiver _ _ => exact Nat.le_succ _

theorem cur_update_ne {cur : Nat → Option Running} {w v : Nat} {r x : Option Running} (h : cur v = x) (hw : cur w = none)
    (hx : x ≠ none) : Function.update cur w r v = x := by
  rw [Function.update_of_ne, h]
  rintro rfl
  exact hx (h.symm.trans hw)

/-- cover facts of running jobs survive a change of an idle worker -/
theorem Cover.idle {side : Bool} {seg : Nat} {P' : List Job} {D' : Nat → List Job} {r : Option Running} (hw : cur w = none)
    (hP : Job.start side ∈ P → Cover n d P' D' (Function.update cur w r) side seg)
    (hR : Job.receiver side seg ∈ P → Cover n d P' D' (Function.update cur w r) side seg)
    (hD : (∃ v < n, Job.receiver side seg ∈ D v) → Cover n d P' D' (Function.update cur w r) side seg)
    (h : Cover n d P D cur side seg) : Cover n d P' D' (Function.update cur w r) side seg := by
  rcases h with h | h | h | ⟨v, hv, k, hk, h⟩ | ⟨v, hv, h⟩ | h
  · exact hP h
  · exact hR h
  · exact hD h
  · exact .inr (.inr (.inr (.inl ⟨v, hv, k, hk, cur_update_ne h hw (by simp)⟩)))
  · exact .inr (.inr (.inr (.inr (.inl ⟨v, hv, cur_update_ne h hw (by simp)⟩))))
  · exact .inr (.inr (.inr (.inr (.inr h))))

theorem Core.take (h : Core n fr d P D cur) (hw : w < n) (hc : cur w = none) {j : Job} {P' : List Job} (hp : P.Perm (j :: P'))
    (hs : P'.Sublist P) (hf : fr w → ∀ x ∈ P', j.rank ≤ x.rank) : Core n fr d P' D (Function.update cur w (some j.begin)) where
  sorted := h.sorted.sublist hs
  receivers := h.receivers
  waiting v hv hD i hi := h.waiting v hv hD i (hs.subset hi)
  running v hv hfr r hr hns i hi := by
    by_cases hvw : v = w
    · subst hvw
      rw [Function.update_self] at hr
      cases hr
      have h1 := hf hfr _ hi
      have h2 := rank_of_not_sender hns
      have h3 : (Job.sender i).rank = 0 := rfl
      omega
    · rw [Function.update_of_ne hvw] at hr
      exact h.running v hv hfr r hr hns i (hs.subset hi)
  count i := by
    have h1 := h.count i
    have h2 := runs_update hw cur (some j.begin) i
    rw [hp.count_eq, List.count_cons] at h1
    simp only [hc, Option.some.injEq, begin_sender, beq_iff_eq] at h1 h2
    simp only [reduceCtorEq, if_false] at h2
    omega
  cover side seg hseg := by
    refine Cover.idle hc ?_ ?_ ?_ (h.cover side seg hseg)
    · intro hm
      rcases List.mem_cons.1 (hp.mem_iff.1 hm) with rfl | hm
      · exact .inr (.inr (.inr (.inl ⟨w, hw, 0, Nat.zero_le _, by simp [Job.begin]⟩)))
      · exact .inl hm
    · intro hm
      rcases List.mem_cons.1 (hp.mem_iff.1 hm) with rfl | hm
      · exact .inr (.inr (.inr (.inr (.inl ⟨w, hw, by simp [Job.begin]⟩))))
      · exact .inr (.inl hm)
    · exact fun hm => .inr (.inr (.inl hm))

theorem Core.takeWaiting (h : Core n fr d P D cur) (hw : w < n) (hc : cur w = none) {v : Nat} (hv : v < n) {j : Job} {rest : List Job}
    (hp : (D v).Perm (j :: rest)) :
    Core n fr d P (Function.update D v rest) (Function.update cur w (some j.begin)) := by
  have hj : j.IsReceiver := h.receivers v hv j (hp.mem_iff.2 (by simp))
  have hne : D v ≠ [] := by
    intro e
    rw [e] at hp
    simp at hp
  have hno := h.waiting v hv hne
  constructor
  · exact h.sorted
  · intro u hu x hx
    by_cases huv : u = v
    · subst huv
      rw [Function.update_self] at hx
      exact h.receivers u hu x (hp.mem_iff.2 (by simp [hx]))
    · rw [Function.update_of_ne huv] at hx
      exact h.receivers u hu x hx
  · exact fun _ _ _ => hno
  · exact fun _ _ _ _ _ _ => hno
  · intro i
    have h1 := h.count i
    have h2 := runs_update hw cur (some j.begin) i
    have h3 : j ≠ .sender i := by rintro rfl; exact hj
    simp only [hc, Option.some.injEq, begin_sender, h3] at h2
    simp only [reduceCtorEq, if_false] at h2
    omega
  · intro side seg hseg
    refine Cover.idle hc .inl (fun hm => .inr (.inl hm)) ?_ (h.cover side seg hseg)
    rintro ⟨u, hu, hm⟩
    by_cases huv : u = v
    · subst huv
      rcases List.mem_cons.1 (hp.mem_iff.1 hm) with rfl | hm
      · exact .inr (.inr (.inr (.inr (.inl ⟨w, hw, by simp [Job.begin]⟩))))
      · exact .inr (.inr (.inl ⟨u, hu, by simpa using hm⟩))
    · exact .inr (.inr (.inl ⟨u, hu, by rwa [Function.update_of_ne huv]⟩))

/-- what a running job that is replaced covers -/
theorem Cover.replace {side : Bool} {seg : Nat} {P' : List Job} {D' : Nat → List Job} {r : Option Running} 
    (hP : P.Sublist P') (hD : ∀ v < n, (D v).Sublist (D' v))
    (h1 : ∀ k ≤ seg, cur w = some (.start side k) → Cover n d P' D' (Function.update cur w r) side seg)
    (h2 : cur w = some (.receiver side seg) → Cover n d P' D' (Function.update cur w r) side seg)
    (h : Cover n d P D cur side seg) : Cover n d P' D' (Function.update cur w r) side seg := by
  rcases h with h | h | ⟨v, hv, h⟩ | ⟨v, hv, k, hk, h⟩ | ⟨v, hv, h⟩ | h
  · exact .inl (hP.subset h)
  · exact .inr (.inl (hP.subset h))
  · exact .inr (.inr (.inl ⟨v, hv, (hD v hv).subset h⟩))
  · by_cases hvw : v = w
    · subst hvw
      exact h1 k hk h
    · exact .inr (.inr (.inr (.inl ⟨v, hv, k, hk, by rwa [Function.update_of_ne hvw]⟩)))
  · by_cases hvw : v = w
    · subst hvw
      exact h2 h
    · exact .inr (.inr (.inr (.inr (.inl ⟨v, hv, by rwa [Function.update_of_ne hvw]⟩))))
  · exact .inr (.inr (.inr (.inr (.inr h))))

/-- replacing a running job other than a task by another one or by nothing -/
theorem Core.replace (h : Core n fr d P D cur) (hw : w < n) {x : Running} (hc : cur w = some x) (hx : ¬ x.IsSender) {r : Option Running}
    (hr : ∀ y, r = some y → ¬ y.IsSender) :
    (∀ v < n, fr v → ∀ y, Function.update cur w r v = some y → ¬ y.IsSender → ∀ i, Job.sender i ∉ P) ∧
      ∀ i, P.count (.sender i) + runs n (Function.update cur w r) i + endN d i = 1 := by
  refine ⟨?_, ?_⟩
  · intro v hv hfr y hy hns
    by_cases hvw : v = w
    · subst hvw
      exact h.running v hv hfr x hc hx
    · rw [Function.update_of_ne hvw] at hy
      exact h.running v hv hfr y hy hns
  · intro i
    have h1 := h.count i
    have h2 := runs_update hw cur r i
    have h3 : x ≠ .sender i := by rintro rfl; exact hx trivial
    have h4 : r ≠ some (.sender i) := by intro e; exact hr _ e trivial
    simp only [hc, Option.some.injEq, h3, h4, if_false] at h2
    omega

theorem Core.spawn (h : Core n fr d P D cur) (hw : w < n) (hfr : fr w) {side : Bool} {k : Nat} (hc : cur w = some (.start side k)) :
    Core n fr d P (Function.update D w (.receiver side k :: D w)) (Function.update cur w (some (.start side (k + 1)))) := by
  have hno := h.running w hw hfr _ hc (by simp [Running.IsSender])
  obtain ⟨hr, hn⟩ := h.replace hw hc (by simp [Running.IsSender]) (r := some (.start side (k + 1)))
    (by rintro y ⟨⟩; simp [Running.IsSender])
  refine ⟨h.sorted, ?_, fun _ _ _ => hno, hr, hn, ?_⟩
  · intro u hu x hx
    by_cases huw : u = w
    · subst huw
      rw [Function.update_self] at hx
      rcases List.mem_cons.1 hx with rfl | hx
      · trivial
      · exact h.receivers u hu x hx
    · rw [Function.update_of_ne huw] at hx
      exact h.receivers u hu x hx
  · intro sd seg hseg
    refine Cover.replace (List.Sublist.refl _) ?_ ?_ ?_ (h.cover sd seg hseg)
    · intro v _
      by_cases hvw : v = w
      · subst hvw
        simp
      · rw [Function.update_of_ne hvw]
    · intro k' hk' e
      rw [hc] at e
      cases e
      by_cases hk : k = seg
      · subst hk
        exact .inr (.inr (.inl ⟨w, hw, by simp⟩))
      · exact .inr (.inr (.inr (.inl ⟨w, hw, k + 1, by omega, by simp⟩)))
    · intro e
      rw [hc] at e
      cases e

theorem Core.spawnCaller (h : Core n fr d P D cur) (hw : w < n) {side : Bool} {k : Nat} (hc : cur w = some (.start side k)) :
    Core n fr d (P ++ [.receiver side k]) D (Function.update cur w (some (.start side (k + 1)))) := by
  obtain ⟨hr, hn⟩ := h.replace hw hc (by simp [Running.IsSender]) (r := some (.start side (k + 1)))
    (by rintro y ⟨⟩; simp [Running.IsSender])
  have hm : ∀ i, Job.sender i ∈ P ++ [.receiver side k] → Job.sender i ∈ P := by
    intro i hi
    simpa using hi
  refine ⟨?_, h.receivers, fun v hv hD i hi => h.waiting v hv hD i (hm i hi), fun v hv hf y hy hns i hi => hr v hv hf y hy hns i (hm i hi),
    fun i => ?_, ?_⟩
  · rw [List.pairwise_append]
    refine ⟨h.sorted, by simp, ?_⟩
    intro a _ b hb
    rw [List.mem_singleton.1 hb]
    cases a <;> simp [Job.rank]
  · have := hn i
    simpa using this
  · intro sd seg hseg
    refine Cover.replace (List.sublist_append_left _ _) (fun _ _ => List.Sublist.refl _) ?_ ?_ (h.cover sd seg hseg)
    · intro k' hk' e
      rw [hc] at e
      cases e
      by_cases hk : k = seg
      · subst hk
        exact .inr (.inl (by simp))
      · exact .inr (.inr (.inr (.inl ⟨w, hw, k + 1, by omega, by simp⟩)))
    · intro e
      rw [hc] at e
      cases e

theorem Core.startEnd (h : Core n fr d P D cur) (hw : w < n) {side : Bool} {k : Nat} (hc : cur w = some (.start side k))
    (hk : ¬ k < d.nseg side) : Core n fr d P D (Function.update cur w none) := by
  obtain ⟨hr, hn⟩ := h.replace hw hc (by simp [Running.IsSender]) (r := none) (by rintro y ⟨⟩)
  refine ⟨h.sorted, h.receivers, h.waiting, hr, hn, ?_⟩
  intro sd seg hseg
  refine Cover.replace (List.Sublist.refl _) (fun _ _ => List.Sublist.refl _) ?_ ?_ (h.cover sd seg hseg)
  · intro k' hk' e
    rw [hc] at e
    cases e
    omega
  · intro e
    rw [hc] at e
    cases e

theorem Core.receiverEnd (h : Core n fr d P D cur) (hw : w < n) {side : Bool} {seg : Nat} (hc : cur w = some (.receiver side seg))
    (he : ∀ t ∈ d.senders, t.Ended) (hq : d.chan side seg = []) : Core n fr d P D (Function.update cur w none) := by
  obtain ⟨hr, hn⟩ := h.replace hw hc (by simp [Running.IsSender]) (r := none) (by rintro y ⟨⟩)
  refine ⟨h.sorted, h.receivers, h.waiting, hr, hn, ?_⟩
  intro sd sg hseg
  refine Cover.replace (List.Sublist.refl _) (fun _ _ => List.Sublist.refl _) ?_ ?_ (h.cover sd sg hseg)
  · intro k' hk' e
    rw [hc] at e
    cases e
  · intro e
    rw [hc] at e
    cases e
    exact .inr (.inr (.inr (.inr (.inr ⟨he, hq⟩))))

/-- a task that takes a step has not ended -/
theorem Step.sender_inv [Add T] {d d' : St T} {i : Nat} (h : Step (.sender i) d d') :
    (∃ r, d.senders[i]? = some (.run r)) ∧ (∀ k, k ≠ i → d'.senders[k]? = d.senders[k]?) ∧ ∃ t, d'.senders[i]? = some t := by
  cases h with
  | send e1 e2 =>
    exact ⟨⟨_, e1⟩, fun k hk => List.getElem?_set_ne (Ne.symm hk), _,
      List.getElem?_set_self (List.getElem?_eq_some_iff.1 e1).1⟩
  | sendFail e1 e2 =>
    exact ⟨⟨_, e1⟩, fun k hk => List.getElem?_set_ne (Ne.symm hk), _,
      List.getElem?_set_self (List.getElem?_eq_some_iff.1 e1).1⟩
  | finish e1 =>
    exact ⟨⟨_, e1⟩, fun k hk => List.getElem?_set_ne (Ne.symm hk), _,
      List.getElem?_set_self (List.getElem?_eq_some_iff.1 e1).1⟩
  | fail e1 =>
    exact ⟨⟨_, e1⟩, fun k hk => List.getElem?_set_ne (Ne.symm hk), _,
      List.getElem?_set_self (List.getElem?_eq_some_iff.1 e1).1⟩

theorem Cover.sender [Add T] {d d' : St T} {i : Nat} (hs : Step (.sender i) d d') {cur' : Nat → Option Running}
    (hc : ∀ v x, cur v = some x → ¬ x.IsSender → cur' v = some x) {side : Bool} {seg : Nat} (h : Cover n d P D cur side seg) :
    Cover n d' P D cur' side seg := by
  rcases h with h | h | h | ⟨v, hv, k, hk, h⟩ | ⟨v, hv, h⟩ | h
  · exact .inl h
  · exact .inr (.inl h)
  · exact .inr (.inr (.inl h))
  · exact .inr (.inr (.inr (.inl ⟨v, hv, k, hk, hc v _ h (by simp [Running.IsSender])⟩)))
  · exact .inr (.inr (.inr (.inr (.inl ⟨v, hv, hc v _ h (by simp [Running.IsSender])⟩))))
  · obtain ⟨⟨r, hr⟩, _⟩ := hs.sender_inv
    exact (h.1 _ (List.mem_of_getElem? hr)).elim

theorem Core.sender [Add T] (h : Core n fr d P D cur) {d' : St T} {i : Nat} (hs : Step (.sender i) d d') {rest : Prog T}
    (hr : d'.senders[i]? = some (.run rest)) : Core n fr d' P D cur := by
  refine ⟨h.sorted, h.receivers, h.waiting, h.running, ?_, ?_⟩
  · intro k
    rw [← h.count k]
    congr 1
    obtain ⟨⟨r, h1⟩, h2, _⟩ := hs.sender_inv
    unfold endN
    by_cases hk : k = i
    · subst hk
      rw [h1, hr]
    · rw [h2 k hk]
  · intro side seg hseg
    rw [hs.nseg] at hseg
    exact Cover.sender hs (fun _ _ hx _ => hx) (h.cover side seg hseg)

theorem Core.senderEnd [Add T] (h : Core n fr d P D cur) (hw : w < n) {d' : St T} {i : Nat} (hc : cur w = some (.sender i))
    (hs : Step (.sender i) d d') (hr : ∀ t, d'.senders[i]? = some t → t.Ended) :
    Core n fr d' P D (Function.update cur w none) := by
  refine ⟨h.sorted, h.receivers, h.waiting, ?_, ?_, ?_⟩
  · intro v hv hfr r hr
    by_cases hvw : v = w
    · subst hvw
      simp at hr
    · rw [Function.update_of_ne hvw] at hr
      exact h.running v hv hfr r hr
  · intro k
    have h0 := h.count k
    have h1 := runs_update hw cur none k
    obtain ⟨⟨r, h2⟩, h3, t, h4⟩ := hs.sender_inv
    simp only [hc, Option.some.injEq, Running.sender.injEq, reduceCtorEq, if_false] at h1
    by_cases hk : k = i
    · subst hk
      have h5 : endN d k = 0 := by unfold endN; rw [h2]
      have h6 : endN d' k = 1 := by
        unfold endN
        rw [h4]
        have := hr t h4
        cases t with
        | run _ => exact this.elim
        | _ => rfl
      rw [if_pos rfl] at h1
      omega
    · have h5 : endN d' k = endN d k := by unfold endN; rw [h3 k hk]
      rw [if_neg (Ne.symm hk)] at h1
      omega
  · intro side seg hseg
    rw [hs.nseg] at hseg
    refine Cover.sender hs (fun v x hx hns => ?_) (h.cover side seg hseg)
    rw [Function.update_of_ne, hx]
    rintro rfl
    rw [hc] at hx
    cases hx
    exact hns trivial

theorem Core.receiver [Add T] (h : Core n fr d P D cur) {d' : St T} {side : Bool} {seg : Nat} (hs : Step (.receiver side seg) d d') :
    Core n fr d' P D cur := by
  have h1 : d'.senders = d.senders := by cases hs <;> rfl
  have h2 : ∀ sd sg, d.chan sd sg = [] → d'.chan sd sg = [] := by
    intro sd sg he
    cases hs with
    | recv e1 e2 e3 =>
      simp only
      split
      · rename_i hh
        rw [hh.1, hh.2, e2] at he
        cases he
      · exact he
    | recvFail e1 e2 e3 =>
      simp only
      split
      · rename_i hh
        rw [hh.1, hh.2, e2] at he
        cases he
      · exact he
  refine ⟨h.sorted, h.receivers, h.waiting, h.running, ?_, ?_⟩
  · intro i
    rw [← h.count i]
    unfold endN
    rw [h1]
  · intro sd sg hseg
    rw [hs.nseg] at hseg
    rcases h.cover sd sg hseg with h | h | h | h | h | h
    · exact .inl h
    · exact .inr (.inl h)
    · exact .inr (.inr (.inl h))
    · exact .inr (.inr (.inr (.inl h)))
    · exact .inr (.inr (.inr (.inr (.inl h))))
    · exact .inr (.inr (.inr (.inr (.inr ⟨by rw [h1]; exact h.1, h2 _ _ h.2⟩))))

/-! ### the pool -/

/-- the queue the calling thread fills, oldest job first, and what it has still to spawn -/
def pend (caller : Option Nat) (p : PSt T) : List Job :=
  (match caller with
    | none => p.injector
    | some c => (p.worker c).deque.reverse) ++ p.main

/-- the other queues -/
def others (caller : Option Nat) (p : PSt T) (w : Nat) : List Job := if caller = some w then [] else (p.worker w).deque

def curs (p : PSt T) (w : Nat) : Option Running := (p.worker w).cur

structure PInv (n : Nat) (caller : Option Nat) (p : PSt T) : Prop where
  inside : ∀ c, caller = some c → c < n ∧ p.injector = []
  busy : ∀ c, caller = some c → (p.worker c).cur ≠ none → p.main = []
  core : Core n (fun w => caller ≠ some w) p.data (pend caller p) (others caller p) (curs p)

theorem mainJobs_count (n i : Nat) : (mainJobs n).count (.sender i) = if i < n then 1 else 0 := by
  unfold mainJobs
  rw [List.count_append]
  have h1 : List.count (Job.sender i) [Job.start true, Job.start false] = 0 := by simp
  have h2 : ((List.range n).map Job.sender).count (.sender i) = (List.range n).count i :=
    List.count_map_of_injective _ _ (fun a b h => by cases h; rfl) _
  rw [h1, h2, List.nodup_range.count]
  simp

theorem PInv.init [Zero T] (progs : List (Prog T)) (len : Bool → Nat) {n : Nat} {caller : Option Nat}
    (hc : ∀ c, caller = some c → c < n) : PInv n caller (PSt.init progs len) := by
  have hp : pend caller (PSt.init progs len) = mainJobs progs.length := by
    cases caller <;> simp [pend, PSt.init]
  have ho : ∀ w, others caller (PSt.init progs len) w = [] := by
    intro w
    simp [others, PSt.init]
  refine ⟨fun c h => ⟨hc c h, rfl⟩, fun c _ h => absurd rfl h, ?_⟩
  refine ⟨?_, ?_, ?_, ?_, ?_, ?_⟩
  · rw [hp]
    unfold mainJobs
    rw [List.pairwise_append]
    refine ⟨?_, ?_, ?_⟩
    · rw [List.pairwise_map]
      exact List.pairwise_of_forall fun _ _ => Nat.le_refl _
    · simp [Job.rank]
    · intro a ha b _
      obtain ⟨i, _, rfl⟩ := List.mem_map.1 ha
      exact Nat.zero_le _
  · intro w _ j hj
    rw [ho] at hj
    cases hj
  · intro w _ h
    exact absurd (ho w) h
  · intro w _ _ r hr
    cases hr
  · intro i
    have hr : runs n (curs (PSt.init progs len)) i = 0 := by simp [runs, curs, PSt.init]
    rw [hp, hr, mainJobs_count]
    unfold endN
    by_cases hi : i < progs.length
    · simp [PSt.init, St.init, hi]
    · simp [PSt.init, St.init, hi]
  · intro side seg _
    refine .inl ?_
    rw [hp]
    cases side <;> simp [mainJobs]

theorem curs_setWorker (p : PSt T) (w : Nat) (k : Worker) : curs (p.setWorker w k) = Function.update (curs p) w k.cur := by
  funext v
  by_cases h : v = w
  · subst h; simp [curs, PSt.setWorker]
  · simp [curs, PSt.setWorker, Function.update_of_ne h]

theorem others_setWorker {caller : Option Nat} (p : PSt T) {w : Nat} (k : Worker) (h : caller ≠ some w) :
    others caller (p.setWorker w k) = Function.update (others caller p) w k.deque := by
  funext v
  by_cases hv : v = w
  · subst hv; simp [others, PSt.setWorker, h]
  · simp [others, PSt.setWorker, Function.update_of_ne hv]

theorem others_setWorker_caller {caller : Option Nat} (p : PSt T) {w : Nat} (k : Worker) (h : caller = some w) :
    others caller (p.setWorker w k) = others caller p := by
  funext v
  by_cases hv : v = w
  · subst hv; simp [others, h]
  · simp [others, PSt.setWorker, Function.update_of_ne hv]

theorem pend_setWorker {caller : Option Nat} (p : PSt T) {w : Nat} (k : Worker) (h : caller ≠ some w) :
    pend caller (p.setWorker w k) = pend caller p := by
  cases caller with
  | none => rfl
  | some c =>
    have : c ≠ w := by rintro rfl; exact h rfl
    simp [pend, PSt.setWorker, Function.update_of_ne this]

theorem pend_setWorker_caller (p : PSt T) {w : Nat} (k : Worker) :
    pend (some w) (p.setWorker w k) = k.deque.reverse ++ p.main := by
  simp [pend, PSt.setWorker]

/-- a change of the running job of a worker that keeps its deque -/
theorem keep_deque {caller : Option Nat} (p : PSt T) (w : Nat) (r : Option Running) :
    pend caller (p.setWorker w { p.worker w with cur := r }) = pend caller p ∧
    others caller (p.setWorker w { p.worker w with cur := r }) = others caller p := by
  by_cases h : caller = some w
  · subst h
    exact ⟨by rw [pend_setWorker_caller]; rfl, others_setWorker_caller p _ rfl⟩
  · refine ⟨pend_setWorker p _ h, ?_⟩
    rw [others_setWorker p _ h]
    simp [others, h]

theorem PInv.step [Add T] {caller : Option Nat} {p p' : PSt T} (h : PInv n caller p) (hs : PStep n caller p p') : PInv n caller p' := by
  cases hs with
  | @inject j rest hcl hm =>
    subst hcl
    refine ⟨by simp, by simp, ?_⟩
    have hp : pend none { p with main := rest, injector := p.injector ++ [j] } = pend none p := by simp [pend, hm]
    rw [hp]
    exact h.core
  | @push w j rest hw hcl hm =>
    subst hcl
    refine ⟨h.inside, ?_, ?_⟩
    · intro c hc hcur
      cases hc
      have : (p.worker w).cur ≠ none := by simpa [PSt.setWorker] using hcur
      rw [h.busy w rfl this] at hm
      cases hm
    · rw [pend_setWorker_caller, others_setWorker_caller _ _ rfl, curs_setWorker]
      have h1 : (j :: (p.worker w).deque).reverse ++ rest = pend (some w) p := by simp [pend, hm]
      have h2 : Function.update (curs p) w (curs p w) = curs p := Function.update_eq_self _ _
      have h3 : curs { p with main := rest } = curs p := rfl
      simp only
      rw [h1, h3]
      have h4 : (p.worker w).cur = curs p w := rfl
      rw [h4, h2]
      exact h.core
  | @pop w j rest hw hfree hd =>
    have hcw : curs p w = none := hfree.1
    refine ⟨h.inside, ?_, ?_⟩
    · intro c hc hcur
      by_cases hcw : c = w
      · subst hcw
        exact hfree.2 hc
      · exact h.busy c hc (by simpa [PSt.setWorker, Function.update_of_ne hcw] using hcur)
    · rw [curs_setWorker]
      by_cases hcl : caller = some w
      · subst hcl
        rw [pend_setWorker_caller, others_setWorker_caller _ _ rfl]
        have hm := hfree.2 rfl
        refine h.core.take hw hcw ?_ ?_ (fun hf => absurd rfl hf)
        · simp [pend, hd, hm]
        · simp [pend, hd, hm]
      · rw [pend_setWorker _ _ hcl, others_setWorker _ _ hcl]
        refine h.core.takeWaiting hw hcw hw ?_
        simp [others, hcl, hd]
  | @steal w v j rest hw hv hne hfree hd =>
    have hcw : curs p w = none := hfree.1
    have e : (p.setWorker v { p.worker v with deque := rest }).setWorker w { p.worker w with cur := some j.begin } =
        (p.setWorker v { p.worker v with deque := rest }).setWorker w
          { (p.setWorker v { p.worker v with deque := rest }).worker w with cur := some j.begin } := by
      simp [PSt.setWorker, Function.update_of_ne hne]
    rw [e]
    refine ⟨h.inside, ?_, ?_⟩
    · intro c hc hcur
      by_cases hcw : c = w
      · subst hcw
        exact hfree.2 hc
      · refine h.busy c hc ?_
        by_cases hcv : c = v
        · subst hcv
          simpa [PSt.setWorker, Function.update_of_ne hcw] using hcur
        · simpa [PSt.setWorker, Function.update_of_ne hcw, Function.update_of_ne hcv] using hcur
    · obtain ⟨h1, h2⟩ := keep_deque (caller := caller) (p.setWorker v { p.worker v with deque := rest }) w (some j.begin)
      rw [h1, h2, curs_setWorker, curs_setWorker]
      have h3 : Function.update (curs p) v (curs p v) = curs p := Function.update_eq_self _ _
      have h4 : ({ p.worker v with deque := rest } : Worker).cur = curs p v := rfl
      rw [h4, h3]
      by_cases hcl : caller = some v
      · subst hcl
        rw [pend_setWorker_caller, others_setWorker_caller _ _ rfl]
        have hp : pend (some v) p = j :: (rest.reverse ++ p.main) := by simp [pend, hd]
        refine h.core.take hw hcw (by rw [hp]) (by rw [hp]; simp) ?_
        intro _
        have := h.core.sorted
        rw [hp, List.pairwise_cons] at this
        exact this.1
      · rw [pend_setWorker _ _ hcl, others_setWorker _ _ hcl]
        refine h.core.takeWaiting hw hcw hv ?_
        simp only [others, hcl, if_false, hd]
        simp
  | @take w j rest hw hfree hd =>
    have hcw : curs p w = none := hfree.1
    have hcl : caller = none := by
      cases caller with
      | none => rfl
      | some c =>
        rw [(h.inside c rfl).2] at hd
        cases hd
    subst hcl
    refine ⟨by simp, by simp, ?_⟩
    obtain ⟨h1, h2⟩ := keep_deque (caller := none) { p with injector := rest } w (some j.begin)
    rw [h1, h2, curs_setWorker]
    have hp : pend none p = j :: (rest ++ p.main) := by simp [pend, hd]
    refine h.core.take hw hcw (by rw [hp]; simp [pend]) (by rw [hp]; simp [pend]) ?_
    intro _
    have := h.core.sorted
    rw [hp, List.pairwise_cons] at this
    exact this.1
  | @sender w i d rest hw hc hs hr => exact ⟨h.inside, h.busy, h.core.sender hs hr⟩
  | @senderEnd w i d hw hc hs hr =>
    refine ⟨h.inside, ?_, ?_⟩
    · intro c hc hcur
      by_cases hcw : c = w
      · subst hcw
        simp [PSt.setWorker] at hcur
      · exact h.busy c hc (by simpa [PSt.setWorker, Function.update_of_ne hcw] using hcur)
    · obtain ⟨h1, h2⟩ := keep_deque (caller := caller) { p with data := d } w none
      rw [h1, h2, curs_setWorker]
      exact h.core.senderEnd hw hc hs hr
  | @spawnReceiver w k side hw hc hk =>
    refine ⟨h.inside, ?_, ?_⟩
    · intro c hcl hcur
      by_cases hcw : c = w
      · subst hcw
        exact h.busy c hcl (by rw [hc]; simp)
      · exact h.busy c hcl (by simpa [PSt.setWorker, Function.update_of_ne hcw] using hcur)
    · rw [curs_setWorker]
      by_cases hcl : caller = some w
      · subst hcl
        rw [pend_setWorker_caller, others_setWorker_caller _ _ rfl]
        have hm := h.busy w rfl (by rw [hc]; simp)
        have := h.core.spawnCaller hw hc
        have e1 : pend (some w) p ++ [.receiver side k] = (Job.receiver side k :: (p.worker w).deque).reverse ++ p.main := by
          simp [pend, hm]
        rw [e1] at this
        exact this
      · rw [pend_setWorker _ _ hcl, others_setWorker _ _ hcl]
        have := h.core.spawn hw hcl hc
        have e1 : others caller p w = (p.worker w).deque := by simp [others, hcl]
        rw [e1] at this
        exact this
  | @startEnd w k side hw hc hk =>
    refine ⟨h.inside, ?_, ?_⟩
    · intro c hc hcur
      by_cases hcw : c = w
      · subst hcw
        simp [PSt.setWorker] at hcur
      · exact h.busy c hc (by simpa [PSt.setWorker, Function.update_of_ne hcw] using hcur)
    · obtain ⟨h1, h2⟩ := keep_deque (caller := caller) p w none
      rw [h1, h2, curs_setWorker]
      exact h.core.startEnd hw hc hk
  | @receiver w seg side d hw hc hs => exact ⟨h.inside, h.busy, h.core.receiver hs⟩
  | @receiverEnd w seg side hw hc hq hcl =>
    refine ⟨h.inside, ?_, ?_⟩
    · intro c hc hcur
      by_cases hcw : c = w
      · subst hcw
        simp [PSt.setWorker] at hcur
      · exact h.busy c hc (by simpa [PSt.setWorker, Function.update_of_ne hcw] using hcur)
    · obtain ⟨h1, h2⟩ := keep_deque (caller := caller) p w none
      rw [h1, h2, curs_setWorker]
      exact h.core.receiverEnd hw hc hcl.1 hq

/-- a step of the pool is a step of the first machine or leaves its state unchanged -/
theorem PStep.data [Add T] {caller : Option Nat} {p p' : PSt T} (h : PStep n caller p p') : p'.data = p.data ∨ AnyStep p.data p'.data := by
  cases h with
  | sender _ _ hs _ => exact .inr ⟨_, hs⟩
  | senderEnd _ _ hs _ => exact .inr ⟨_, hs⟩
  | receiver _ _ hs => exact .inr ⟨_, hs⟩
  | _ => exact .inl rfl

/-- reachable from the initial state -/
abbrev PReach [Zero T] [Add T] (n : Nat) (caller : Option Nat) (progs : List (Prog T)) (len : Bool → Nat) (p : PSt T) : Prop :=
  Relation.ReflTransGen (PStep n caller) (PSt.init progs len) p

theorem PReach.data [Zero T] [Add T] {caller : Option Nat} {progs : List (Prog T)} {len : Bool → Nat} {p : PSt T}
    (h : PReach n caller progs len p) : Reach progs len p.data := by
  induction h with
  | refl => exact .refl
  | tail _ hs ih =>
    rcases hs.data with e | e
    · rw [e]
      exact ih
    · exact ih.tail e

theorem PReach.pinv [Zero T] [Add T] {caller : Option Nat} {progs : List (Prog T)} {len : Bool → Nat} {p : PSt T}
    (hc : ∀ c, caller = some c → c < n) (h : PReach n caller progs len p) : PInv n caller p := by
  induction h with
  | refl => exact PInv.init progs len hc
  | tail _ hs ih => exact ih.step hs

theorem Inv.chan_seg [Zero T] [Add T] {progs : List (Prog T)} {len : Bool → Nat} {s : St T} {w q : List (Msg T)} (h : Inv progs len s w q)
    {side : Bool} {seg : Nat} (hne : s.chan side seg ≠ []) : seg < s.nseg side := by
  obtain ⟨⟨g, v⟩, qs, hq⟩ := List.exists_cons_of_ne_nil hne
  rw [St.nseg, rchunks_length_iff, h.len]
  rw [h.chan] at hq
  obtain ⟨m, ms, e4, e5, e6⟩ := List.map_eq_cons_iff.1 hq
  have hm : m ∈ q.filter (Dest side seg) := by rw [e4]; simp
  obtain ⟨hm', hd⟩ := List.mem_filter.1 hm
  simp only [Dest, Bool.and_eq_true, beq_iff_eq] at hd
  obtain ⟨rfl, rfl⟩ := hd
  have := h.range m hm'
  omega

/-- when all jobs have ended, every message was written -/
theorem PInv.complete [Zero T] [Add T] {caller : Option Nat} {progs : List (Prog T)} {len : Bool → Nat} {p : PSt T} {ws q : List (Msg T)}
    (h : PInv n caller p) (hi : Inv progs len p.data ws q) (hc : p.Complete n) : p.data.Complete := by
  have hp : pend caller p = [] := by
    cases caller with
    | none => simp [pend, hc.main, hc.injector]
    | some c => simp [pend, hc.main, hc.deque c (h.inside c rfl).1]
  have he : ∀ t ∈ p.data.senders, t.Ended := by
    intro t ht
    obtain ⟨i, hit⟩ := List.getElem?_of_mem ht
    have h1 := h.core.count i
    have h2 : runs n (curs p) i = 0 := by
      rw [← Nat.le_zero, ← not_lt]
      intro hr
      obtain ⟨w, hw, e⟩ := exists_of_runs hr
      rw [curs, hc.cur w hw] at e
      cases e
    rw [hp, h2] at h1
    cases t with
    | run r => simp [endN, hit] at h1
    | done => trivial
    | failed => trivial
  refine ⟨he, ?_⟩
  intro side seg
  by_contra hne
  rcases h.core.cover side seg (hi.chan_seg hne) with hx | hx | ⟨w, hw, hx⟩ | ⟨w, hw, k, _, hx⟩ | ⟨w, hw, hx⟩ | hx
  · rw [hp] at hx; cases hx
  · rw [hp] at hx; cases hx
  · have : others caller p w = [] := by simp [others, hc.deque w hw]
    rw [this] at hx; cases hx
  · rw [curs, hc.cur w hw] at hx; cases hx
  · rw [curs, hc.cur w hw] at hx; cases hx
  · exact hne hx.2

/-- a task that has not ended can take a step -/
theorem Step.exists_sender [Add T] {s : St T} {i : Nat} {r : Prog T} (h : s.senders[i]? = some (.run r)) : ∃ s', Step (.sender i) s s' := by
  match r, h with
  | ⟨[], false⟩, hi => exact ⟨_, .finish hi⟩
  | ⟨[], true⟩, hi => exact ⟨_, .fail hi⟩
  | ⟨m :: ms, f⟩, hi =>
    cases hs : senderOf (s.arr m.right).length m.globalIdx with
    | ok seg => exact ⟨_, .send hi hs⟩
    | error e => exact ⟨_, .sendFail hi hs⟩

/-- as long as the scope is not left, some step is possible -/
theorem PInv.progress [Zero T] [Add T] {caller : Option Nat} {progs : List (Prog T)} {len : Bool → Nat} {p : PSt T} {ws q : List (Msg T)}
    (h : PInv n caller p) (hi : Inv progs len p.data ws q) (hn : 1 ≤ n) (hn2 : ∀ c, caller = some c → 2 ≤ n) (hc : ¬ p.Complete n) :
    ∃ p', PStep n caller p p' := by
  by_contra hstuck
  push Not at hstuck
  -- everything is spawned
  have hmain : p.main = [] := by
    cases hm : p.main with
    | nil => rfl
    | cons j rest =>
      cases caller with
      | none => exact absurd (.inject rfl hm) (hstuck _)
      | some c => exact absurd (.push (h.inside c rfl).1 rfl hm) (hstuck _)
  -- nobody executes a task
  have hns : ∀ w < n, ∀ i, curs p w ≠ some (.sender i) := by
    intro w hw i e
    have h1 := h.core.count i
    have h2 := runs_pos hw e
    have h3 : endN p.data i = 0 := by omega
    unfold endN at h3
    split at h3
    · rename_i r hr
      obtain ⟨d, hd⟩ := Step.exists_sender hr
      obtain ⟨_, _, t, ht⟩ := hd.sender_inv
      cases t with
      | run rest => exact hstuck _ (.sender hw e hd ht)
      | done => exact hstuck _ (.senderEnd hw e hd (by rw [ht]; rintro _ ⟨⟩; trivial))
      | failed => exact hstuck _ (.senderEnd hw e hd (by rw [ht]; rintro _ ⟨⟩; trivial))
    · omega
  have hnst : ∀ w < n, ∀ side k, curs p w ≠ some (.start side k) := by
    intro w hw side k e
    by_cases hk : k < p.data.nseg side
    · exact hstuck _ (.spawnReceiver hw e hk)
    · exact hstuck _ (.startEnd hw e hk)
  -- receivers wait for tasks that have not ended
  have hrc : ∀ w < n, ∀ side seg, curs p w = some (.receiver side seg) → ¬ ∀ t ∈ p.data.senders, t.Ended := by
    intro w hw side seg e he
    cases hq : p.data.chan side seg with
    | nil => exact hstuck _ (.receiverEnd hw e hq ⟨he, by simp [hmain]⟩)
    | cons x qs =>
      obtain ⟨g, v⟩ := x
      have hseg := hi.chan_seg (side := side) (seg := seg) (by rw [hq]; simp)
      cases hwr : segmentWrite (p.data.arr side) seg g v with
      | ok a => exact hstuck _ (.receiver hw e (.recv hseg hq hwr))
      | error er => exact hstuck _ (.receiver hw e (.recvFail hseg hq hwr))
  -- an idle worker finds nothing
  have hidle : ∀ w < n, curs p w = none → p.injector = [] ∧ ∀ v < n, (p.worker v).deque = [] := by
    intro w hw e
    have hf : p.Free caller w := ⟨e, fun _ => hmain⟩
    refine ⟨?_, ?_⟩
    · cases hj : p.injector with
      | nil => rfl
      | cons j rest => exact absurd (.take hw hf hj) (hstuck _)
    · intro v hv
      by_contra hne
      by_cases hwv : w = v
      · subst hwv
        obtain ⟨j, rest, hj⟩ := List.exists_cons_of_ne_nil hne
        exact hstuck _ (.pop hw hf hj)
      · exact hstuck _ (.steal hw hv hwv hf (List.dropLast_append_getLast hne).symm)
  -- some worker executes a receiver
  have hrun : ∃ w < n, ∃ side seg, curs p w = some (.receiver side seg) := by
    by_contra hno
    push Not at hno
    have hall : ∀ w < n, curs p w = none := by
      intro w hw
      cases hcw : curs p w with
      | none => rfl
      | some r =>
        cases r with
        | sender i => exact absurd hcw (hns w hw i)
        | start side k => exact absurd hcw (hnst w hw side k)
        | receiver side seg => exact absurd hcw (hno w hw side seg)
    obtain ⟨h1, h2⟩ := hidle 0 hn (hall 0 hn)
    exact hc ⟨hmain, h1, h2, hall⟩
  obtain ⟨w0, hw0, sd0, sg0, e0⟩ := hrun
  have hne := hrc w0 hw0 sd0 sg0 e0
  push Not at hne
  obtain ⟨t, ht, hnt⟩ := hne
  obtain ⟨i, hit⟩ := List.getElem?_of_mem ht
  -- the task waits in a queue
  have hpend : Job.sender i ∈ pend caller p := by
    have h1 := h.core.count i
    have h2 : runs n (curs p) i = 0 := by
      rw [← Nat.le_zero, ← not_lt]
      intro hr
      obtain ⟨w, hw, e⟩ := exists_of_runs hr
      exact hns w hw i e
    have h3 : endN p.data i = 0 := by
      unfold endN
      rw [hit]
      cases t with
      | run r => rfl
      | done => exact absurd trivial hnt
      | failed => exact absurd trivial hnt
    exact List.count_pos_iff.1 (by omega)
  -- a worker that is not the caller
  have hfw : ∃ w < n, caller ≠ some w := by
    cases caller with
    | none => exact ⟨0, hn, by simp⟩
    | some c =>
      have := hn2 c rfl
      by_cases h0 : c = 0
      · exact ⟨1, by omega, by simp [h0]⟩
      · exact ⟨0, by omega, by simpa using h0⟩
  obtain ⟨w, hw, hfr⟩ := hfw
  cases hcw : curs p w with
  | none =>
    obtain ⟨h1, h2⟩ := hidle w hw hcw
    have : pend caller p = [] := by
      cases caller with
      | none => simp [pend, hmain, h1]
      | some c => simp [pend, hmain, h2 c (h.inside c rfl).1]
    rw [this] at hpend
    cases hpend
  | some r =>
    cases r with
    | sender i => exact hns w hw i hcw
    | start side k => exact hnst w hw side k hcw
    | receiver side seg => exact h.core.running w hw hfr _ hcw (by simp [Running.IsSender]) i hpend

/-! ### termination -/

def jobWeight (ns : Bool → Nat) : Job → Nat
  | .sender _ => 2
  | .start side => 2 + 3 * ns side
  | .receiver _ _ => 2

def curWeight (ns : Bool → Nat) : Option Running → Nat
  | none => 0
  | some (.sender _) => 1
  | some (.start side k) => 1 + 3 * (ns side - k)
  | some (.receiver _ _) => 1

def workerWeight (ns : Bool → Nat) (k : Worker) : Nat := (k.deque.map (jobWeight ns)).sum + curWeight ns k.cur

/-- bound for the number of steps still possible -/
def PSt.size (n : Nat) (p : PSt T) : Nat :=
  p.data.size + (p.main.map fun j => jobWeight p.data.nseg j + 1).sum + (p.injector.map (jobWeight p.data.nseg)).sum +
    ∑ w ∈ Finset.range n, workerWeight p.data.nseg (p.worker w)

theorem begin_weight (ns : Bool → Nat) (j : Job) : curWeight ns (some j.begin) + 1 = jobWeight ns j := by
  cases j with
  | sender _ => rfl
  | start _ => simp [curWeight, jobWeight, Job.begin]; omega
  | receiver _ _ => rfl

theorem weight_update (ns : Bool → Nat) {w : Nat} (hw : w < n) (f : Nat → Worker) (k : Worker) :
    (∑ v ∈ Finset.range n, workerWeight ns (Function.update f w k v)) + workerWeight ns (f w) =
      (∑ v ∈ Finset.range n, workerWeight ns (f v)) + workerWeight ns k := by
  have := sum_change hw (fun v => workerWeight ns (f v)) (fun v => workerWeight ns (Function.update f w k v))
    (fun y hy => by simp [Function.update_of_ne hy])
  simpa using this

theorem PStep.size_lt [Add T] {caller : Option Nat} {p p' : PSt T} (h : PStep n caller p p') : p'.size n < p.size n := by
  cases h with
  | @inject j rest hcl hm =>
    simp only [PSt.size, hm]
    simp
    omega
  | @push w j rest hw hcl hm =>
    have h1 := weight_update p.data.nseg hw p.worker ⟨j :: (p.worker w).deque, (p.worker w).cur⟩
    simp only [PSt.size, PSt.setWorker, hm]
    simp [workerWeight] at h1 ⊢
    omega
  | @pop w j rest hw hfree hd =>
    have h1 := weight_update p.data.nseg hw p.worker ⟨rest, some j.begin⟩
    have h2 := begin_weight p.data.nseg j
    simp only [PSt.size, PSt.setWorker]
    simp [workerWeight, hd, hfree.1, curWeight] at h1 ⊢
    simp [curWeight] at h2
    omega
  | @steal w v j rest hw hv hne hfree hd =>
    have h1 := weight_update p.data.nseg hv p.worker ⟨rest, (p.worker v).cur⟩
    have h2 := begin_weight p.data.nseg j
    have h3 := weight_update p.data.nseg hw (Function.update p.worker v ⟨rest, (p.worker v).cur⟩) ⟨(p.worker w).deque, some j.begin⟩
    rw [Function.update_of_ne hne] at h3
    simp only [PSt.size, PSt.setWorker]
    have h4 : curWeight p.data.nseg (p.worker w).cur = 0 := by rw [hfree.1]; rfl
    simp [workerWeight, hd, h4] at h1 h3 ⊢
    omega
  | @take w j rest hw hfree hd =>
    have h1 := weight_update p.data.nseg hw p.worker ⟨(p.worker w).deque, some j.begin⟩
    have h2 := begin_weight p.data.nseg j
    have h4 : curWeight p.data.nseg (p.worker w).cur = 0 := by rw [hfree.1]; rfl
    simp only [PSt.size, PSt.setWorker, hd]
    simp [workerWeight, h4] at h1 ⊢
    omega
  | @sender w i d rest hw hc hs hr =>
    have h1 := hs.size_lt
    have h2 : d.nseg = p.data.nseg := funext hs.nseg
    simp only [PSt.size, h2]
    omega
  | @senderEnd w i d hw hc hs hr =>
    have h1 := hs.size_lt
    have h2 : d.nseg = p.data.nseg := funext hs.nseg
    have h3 := weight_update p.data.nseg hw p.worker ⟨(p.worker w).deque, none⟩
    simp only [PSt.size, PSt.setWorker, h2]
    simp [workerWeight, hc, curWeight] at h3 ⊢
    omega
  | @spawnReceiver w k side hw hc hk =>
    have h3 := weight_update p.data.nseg hw p.worker ⟨.receiver side k :: (p.worker w).deque, some (.start side (k + 1))⟩
    simp only [PSt.size, PSt.setWorker]
    simp [workerWeight, hc, curWeight, jobWeight] at h3 ⊢
    omega
  | @startEnd w k side hw hc hk =>
    have h3 := weight_update p.data.nseg hw p.worker ⟨(p.worker w).deque, none⟩
    simp only [PSt.size, PSt.setWorker]
    simp [workerWeight, hc, curWeight] at h3 ⊢
    omega
  | @receiver w seg side d hw hc hs =>
    have h1 := hs.size_lt
    have h2 : d.nseg = p.data.nseg := funext hs.nseg
    simp only [PSt.size, h2]
    omega
  | @receiverEnd w seg side hw hc hq hcl =>
    have h3 := weight_update p.data.nseg hw p.worker ⟨(p.worker w).deque, none⟩
    simp only [PSt.size, PSt.setWorker]
    simp [workerWeight, hc, curWeight] at h3 ⊢
    omega

/-- a relation that makes a number smaller has no infinite chain -/
theorem no_infinite {α : Type _} {r : α → α → Prop} (size : α → Nat) (h : ∀ x y, r x y → size y < size x) (f : Nat → α) :
    ¬ ∀ k, r (f k) (f (k + 1)) := by
  intro hf
  have : ∀ k, size (f k) + k ≤ size (f 0) := by
    intro k
    induction k with
    | zero => simp
    | succ k ih =>
      have := h _ _ (hf k)
      omega
  have := this (size (f 0) + 1)
  omega

/-- What happens on the only worker of a pool. -/
theorem inside_step [Zero T] [Add T] {progs : List (Prog T)} {len : Bool → Nat} {p p' : PSt T} (hpr : progs ≠ []) (hl : 0 < len false)
    (h : p.data = St.init progs len ∧ p.injector = [] ∧
      (((p.worker 0).cur = none ∧ (p.worker 0).deque.reverse ++ p.main = mainJobs progs.length) ∨
       (p.main = [] ∧ ∃ k, (p.worker 0).cur = some (.start false k) ∧ (0 < k → ∃ rest, (p.worker 0).deque = .receiver false (k - 1) :: rest)) ∨
       (p.main = [] ∧ (p.worker 0).cur = none ∧ ∃ k rest, (p.worker 0).deque = .receiver false k :: rest) ∨
       (p.main = [] ∧ ∃ k, (p.worker 0).cur = some (.receiver false k)))) (hs : PStep 1 (some 0) p p') :
    p'.data = St.init progs len ∧ p'.injector = [] ∧
      (((p'.worker 0).cur = none ∧ (p'.worker 0).deque.reverse ++ p'.main = mainJobs progs.length) ∨
       (p'.main = [] ∧ ∃ k, (p'.worker 0).cur = some (.start false k) ∧
          (0 < k → ∃ rest, (p'.worker 0).deque = .receiver false (k - 1) :: rest)) ∨
       (p'.main = [] ∧ (p'.worker 0).cur = none ∧ ∃ k rest, (p'.worker 0).deque = .receiver false k :: rest) ∨
       (p'.main = [] ∧ ∃ k, (p'.worker 0).cur = some (.receiver false k))) := by
  obtain ⟨hd, hi, h⟩ := h
  have hw : ∀ {w : Nat}, w < 1 → w = 0 := by omega
  cases hs with
  | inject hc _ => cases hc
  | @push w j rest h1 h2 h3 =>
    cases hw h1
    rcases h with ⟨h4, h5⟩ | ⟨h4, _⟩ | ⟨h4, _⟩ | ⟨h4, _⟩
    · exact ⟨hd, hi, .inl ⟨by simpa [PSt.setWorker] using h4, by simpa [PSt.setWorker, h3] using h5⟩⟩
    · rw [h4] at h3; cases h3
    · rw [h4] at h3; cases h3
    · rw [h4] at h3; cases h3
  | @pop w j rest h1 h2 h3 =>
    cases hw h1
    have hm := h2.2 rfl
    rcases h with ⟨h4, h5⟩ | ⟨_, k, h4, _⟩ | ⟨_, h4, k, r, h5⟩ | ⟨_, k, h4⟩
    · have hj : j = .start false := by
        rw [hm, h3] at h5
        have := congrArg List.getLast? h5
        simpa [mainJobs] using this
      subst hj
      exact ⟨hd, hi, .inr (.inl ⟨hm, 0, by simp [PSt.setWorker, Job.begin], by simp⟩)⟩
    · have := h2.1; rw [h4] at this; cases this
    · rw [h3] at h5
      cases h5
      exact ⟨hd, hi, .inr (.inr (.inr ⟨hm, k, by simp [PSt.setWorker, Job.begin]⟩))⟩
    · have := h2.1; rw [h4] at this; cases this
  | steal h1 h2 h3 _ _ => exact absurd ((hw h1).trans (hw h2).symm) h3
  | take _ _ h3 => rw [hi] at h3; cases h3
  | @sender w _ _ _ h1 h2 _ _ =>
    cases hw h1
    rcases h with ⟨h4, _⟩ | ⟨_, k, h4, _⟩ | ⟨_, h4, _⟩ | ⟨_, k, h4⟩ <;> rw [h4] at h2 <;> cases h2
  | @senderEnd w _ _ h1 h2 _ _ =>
    cases hw h1
    rcases h with ⟨h4, _⟩ | ⟨_, k, h4, _⟩ | ⟨_, h4, _⟩ | ⟨_, k, h4⟩ <;> rw [h4] at h2 <;> cases h2
  | @spawnReceiver w k side h1 h2 h3 =>
    cases hw h1
    rcases h with ⟨h4, _⟩ | ⟨hm, k', h4, _⟩ | ⟨_, h4, _⟩ | ⟨_, k', h4⟩
    · rw [h4] at h2; cases h2
    · rw [h4] at h2
      cases h2
      exact ⟨hd, hi, .inr (.inl ⟨hm, k + 1, by simp [PSt.setWorker], fun _ => ⟨(p.worker 0).deque, by simp [PSt.setWorker]⟩⟩)⟩
    · rw [h4] at h2; cases h2
    · rw [h4] at h2; cases h2
  | @startEnd w k side h1 h2 h3 =>
    cases hw h1
    rcases h with ⟨h4, _⟩ | ⟨hm, k', h4, h5⟩ | ⟨_, h4, _⟩ | ⟨_, k', h4⟩
    · rw [h4] at h2; cases h2
    · rw [h4] at h2
      cases h2
      have hk : 0 < k := by
        rw [hd] at h3
        have : 0 < (St.init progs len).nseg false := by
          rw [St.nseg, rchunks_length_iff]
          simpa [St.init] using hl
        omega
      obtain ⟨rest, h6⟩ := h5 hk
      exact ⟨hd, hi, .inr (.inr (.inl ⟨hm, by simp [PSt.setWorker], k - 1, rest, by simpa [PSt.setWorker] using h6⟩))⟩
    · rw [h4] at h2; cases h2
    · rw [h4] at h2; cases h2
  | @receiver w seg side d h1 h2 h3 =>
    cases h3 with
    | recv _ h _ => rw [hd] at h; cases h
    | recvFail _ h _ => rw [hd] at h; cases h
  | receiverEnd h1 h2 h3 h4 =>
    obtain ⟨x, l, rfl⟩ := List.exists_cons_of_ne_nil hpr
    have := h4.1 (.run x) (by rw [hd]; simp [St.init])
    exact this.elim

end RL.SplitWriter
