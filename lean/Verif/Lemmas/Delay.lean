import Verif.Lemmas.OneWorker

/-! Helper lemmas: runs of a pool with two workers in which one task is late -/

namespace RL.SplitWriter

open RL Spec Relation

variable {T : Type}

/-- the messages were sent in the order `S` -/
def Sent [Zero T] [Add T] (progs : List (Prog T)) (len : Bool → Nat) (s : St T) (S : List (Msg T)) : Prop :=
  ∃ w q, Inv progs len s w q ∧ Ordered w q S

/-- when all tasks have ended the order stays -/
theorem Sent.ended [Zero T] [Add T] {progs : List (Prog T)} {len : Bool → Nat} (hr : InRange progs len) {n : Nat} {caller : Option Nat} {p p' : PSt T}
    (hs : ReflTransGen (PStep n caller) p p') {S : List (Msg T)} (h : Sent progs len p.data S) (he : ∀ t ∈ p.data.senders, t.Ended) :
    Sent progs len p'.data S ∧ p'.data.senders = p.data.senders := by
  induction hs with
  | refl => exact ⟨h, rfl⟩
  | tail _ h1 ih =>
    obtain ⟨⟨w, q, hi, ho⟩, e⟩ := ih
    rcases h1.data with h2 | ⟨a, h2⟩
    · rw [h2]; exact ⟨⟨w, q, hi, ho⟩, e⟩
    · obtain ⟨w', q', hi', hm⟩ := hi.moves hr h2
      cases hm with
      | ends _ m2 _ => rw [e] at m2; exact absurd (he _ (List.mem_of_getElem? m2)) id
      | sends _ m2 _ => rw [e] at m2; exact absurd (he _ (List.mem_of_getElem? m2)) id
      | writes m1 m2 m3 m4 =>
        subst m3
        exact ⟨⟨_, _, hi', ho.write m4⟩, m2.trans e⟩

/-- a worker executes the rest of a task without a break -/
theorem run_task [Zero T] [Add T] {progs : List (Prog T)} {len : Bool → Nat} (hr : InRange progs len) {n v i : Nat} (hv : v < n) :
    ∀ {ms : List (Msg T)} {p : PSt T} {S : List (Msg T)}, (p.worker v).cur = some (.sender i) → p.data.senders[i]? = some (.run ⟨ms, false⟩) →
      Sent progs len p.data S →
      ∃ p', ReflTransGen (PStep n none) p p' ∧ p'.main = p.main ∧ p'.injector = p.injector ∧
        p'.worker = Function.update p.worker v ⟨(p.worker v).deque, none⟩ ∧ p'.data.senders = p.data.senders.set i .done ∧
        Sent progs len p'.data (S ++ ms) := by
  intro ms
  induction ms with
  | nil =>
    intro p S hc hs ⟨w, q, hi, ho⟩
    obtain ⟨d, hd⟩ := Step.exists_sender hs
    obtain ⟨w', q', hi', hm⟩ := hi.moves hr hd
    cases hm with
    | @ends i' f m1 m2 m3 =>
      cases m1
      rw [hs] at m2
      cases m2
      refine ⟨_, .single (.senderEnd hv hc hd ?_), rfl, rfl, rfl, m3, ⟨_, _, hi', by simpa using ho⟩⟩
      intro t ht
      rw [m3, List.getElem?_set_self (List.getElem?_eq_some_iff.1 hs).1] at ht
      cases ht
      trivial
    | sends m1 m2 _ => cases m1; rw [hs] at m2; cases m2
    | writes m1 => cases m1
  | cons m ms ih =>
    intro p S hc hs ⟨w, q, hi, ho⟩
    obtain ⟨d, hd⟩ := Step.exists_sender hs
    obtain ⟨w', q', hi', hm⟩ := hi.moves hr hd
    cases hm with
    | ends m1 m2 _ => cases m1; rw [hs] at m2; cases m2
    | @sends i' m' ms' f m1 m2 m3 =>
      cases m1
      rw [hs] at m2
      cases m2
      have hlt := (List.getElem?_eq_some_iff.1 hs).1
      have h4 : d.senders[i]? = some (.run ⟨ms, false⟩) := by rw [m3, List.getElem?_set_self hlt]
      obtain ⟨p', r, e1, e2, e3, e4, e5⟩ := ih (p := { p with data := d }) (S := S ++ [m]) hc h4 ⟨_, _, hi', ho.send m⟩
      refine ⟨p', .head (.sender hv hc hd h4) r, e1, e2, e3, ?_, by simpa using e5⟩
      rw [e4, m3, List.set_set]
    | writes m1 => cases m1

/-- a free worker takes a task from the queue and executes it -/
theorem take_task [Zero T] [Add T] {progs : List (Prog T)} {len : Bool → Nat} (hr : InRange progs len) {n v i : Nat} (hv : v < n) {ms : List (Msg T)}
    {p : PSt T} {S : List (Msg T)} {rest : List Job} (hc : (p.worker v).cur = none) (hj : p.injector = .sender i :: rest)
    (hs : p.data.senders[i]? = some (.run ⟨ms, false⟩)) (h : Sent progs len p.data S) :
    ∃ p', ReflTransGen (PStep n none) p p' ∧ p'.main = p.main ∧ p'.injector = rest ∧ p'.worker = p.worker ∧
      p'.data.senders = p.data.senders.set i .done ∧ Sent progs len p'.data (S ++ ms) := by
  obtain ⟨p', r, e1, e2, e3, e4, e5⟩ := run_task hr hv (i := i) (ms := ms)
    (p := { p with injector := rest }.setWorker v { p.worker v with cur := some (Job.sender i).begin }) (S := S)
    (by simp [PSt.setWorker, Job.begin]) hs h
  refine ⟨p', .head (.take hv ⟨hc, by simp⟩ hj) r, e1, e2, ?_, e4, e5⟩
  rw [e3]
  simp only [PSt.setWorker, Function.update_self, Function.update_idem]
  conv_rhs => rw [← Function.update_eq_self v p.worker]
  congr 1
  rw [← hc]

/-- a free worker executes the tasks `i, …, i + k - 1`, one after the other -/
theorem take_tasks [Zero T] [Add T] {progs : List (Prog T)} {len : Bool → Nat} (hr : InRange progs len) (hf : ∀ pr ∈ progs, pr.fails = false) {n v : Nat}
    (hv : v < n) : ∀ {k i : Nat} {p : PSt T} {S : List (Msg T)} {rest : List Job}, i + k ≤ progs.length → (p.worker v).cur = none →
      p.injector = (List.range' i k).map .sender ++ rest → (∀ j, i ≤ j → j < i + k → p.data.senders[j]? = progs[j]?.map .run) → Sent progs len p.data S →
      ∃ p', ReflTransGen (PStep n none) p p' ∧ p'.main = p.main ∧ p'.injector = rest ∧ p'.worker = p.worker ∧
        (∀ j, i ≤ j → j < i + k → p'.data.senders[j]? = some .done) ∧ (∀ j, j < i ∨ i + k ≤ j → p'.data.senders[j]? = p.data.senders[j]?) ∧
        Sent progs len p'.data (S ++ ((progs.drop i).take k).flatMap (·.msgs)) := by
  intro k
  induction k with
  | zero =>
    intro i p S rest _ hc hj _ h
    exact ⟨p, .refl, rfl, by simpa using hj, rfl, fun j _ _ => by omega, fun _ _ => rfl, by simpa using h⟩
  | succ k ih =>
    intro i p S rest hk hc hj hs h
    have hi : i < progs.length := by omega
    have hsi : p.data.senders[i]? = some (.run ⟨progs[i].msgs, false⟩) := by
      rw [hs i le_rfl (by omega), List.getElem?_eq_getElem hi, Option.map_some, ← hf _ (List.getElem_mem hi)]
    rw [List.range'_succ, List.map_cons, List.cons_append] at hj
    obtain ⟨p1, r1, e1, e2, e3, e4, e5⟩ := take_task hr hv hc hj hsi h
    have hlt := (List.getElem?_eq_some_iff.1 hsi).1
    obtain ⟨p2, r2, f1, f2, f3, f4, f5, f6⟩ := ih (i := i + 1) (p := p1) (S := S ++ progs[i].msgs) (rest := rest) (by omega) (by rw [e3]; exact hc) e2
      (fun j h1 h2 => by rw [e4, List.getElem?_set_ne (by omega)]; exact hs j (by omega) (by omega)) e5
    refine ⟨p2, r1.trans r2, f1.trans e1, f2, f3.trans e3, fun j h1 h2 => ?_, fun j h1 => ?_, ?_⟩
    · by_cases hji : j = i
      · subst hji
        rw [f5 j (by omega), e4, List.getElem?_set_self hlt]
      · exact f4 j (by omega) (by omega)
    · rw [f5 j (by omega), e4, List.getElem?_set_ne (by omega)]
    · rw [List.drop_eq_getElem_cons hi, List.take_succ_cons, List.flatMap_cons, ← List.append_assoc]
      exact f6

/-- the calling thread spawns everything -/
theorem inject_all [Add T] {n : Nat} : ∀ {l : List Job} {p : PSt T}, p.main = l →
    ReflTransGen (PStep n none) p { p with main := [], injector := p.injector ++ l } := by
  intro l
  induction l with
  | nil =>
    intro p h
    rw [List.append_nil, ← h]
  | cons j l ih =>
    intro p h
    refine .head (.inject rfl h) ?_
    have := ih (p := { p with main := l, injector := p.injector ++ [j] }) rfl
    simpa using this

/-- with two workers there is a run in which task `i` is the last one to send its messages, after all others have sent theirs in the order in which they
were spawned -/
theorem delay_reach [Zero T] [Add T] {progs : List (Prog T)} {len : Bool → Nat} (hr : InRange progs len) (hf : ∀ pr ∈ progs, pr.fails = false) {n i : Nat}
    (hn : 2 ≤ n) (hi : i < progs.length) :
    ∃ p, ReflTransGen (PStep n none) (PSt.init progs len) p ∧ (∀ t ∈ p.data.senders, t = .done) ∧
      Sent progs len p.data ((progs.eraseIdx i).flatMap (·.msgs) ++ progs[i].msgs) := by
  have hS0 : Sent progs len (PSt.init progs len).data [] := ⟨[], [], Inv.init progs len, fun _ _ => rfl⟩
  set p0 : PSt T := { PSt.init progs len with main := [], injector := [] ++ mainJobs progs.length } with hp0
  have r0 : ReflTransGen (PStep n none) (PSt.init progs len) p0 := inject_all (p := PSt.init progs len) rfl
  have hsd : ∀ j : Nat, p0.data.senders[j]? = progs[j]?.map Sender.run := by intro j; simp [hp0, PSt.init, St.init]
  have hrange : List.range progs.length = List.range' 0 i ++ i :: List.range' (i + 1) (progs.length - i - 1) := by
    rw [List.range_eq_range', ← List.range'_succ, show progs.length = i + (progs.length - i - 1 + 1) by omega, ← List.range'_append_1, Nat.zero_add]
    congr 2
    omega
  have hj : p0.injector = (List.range' 0 i).map .sender ++ (.sender i :: ((List.range' (i + 1) (progs.length - i - 1)).map .sender ++ [.start true, .start false])) := by
    simp only [hp0, List.nil_append, mainJobs, hrange]
    simp
  obtain ⟨p1, r1, a1, a2, a3, a4, a5, a6⟩ := take_tasks hr hf (show 0 < n by omega) (i := 0) (k := i) (p := p0) (by omega) (by simp [hp0, PSt.init]) hj
    (fun j _ _ => hsd j) hS0
  set p2 : PSt T := { p1 with injector := (List.range' (i + 1) (progs.length - i - 1)).map Job.sender ++ [Job.start true, Job.start false] }.setWorker 1
    { p1.worker 1 with cur := some (Job.sender i).begin } with hp2
  have r2 : PStep n none p1 p2 := .take (by omega) ⟨by rw [a3]; rfl, by simp⟩ a2
  have hw0 : p2.worker 0 = p1.worker 0 := by simp [hp2, PSt.setWorker]
  have hd2 : p2.data = p1.data := rfl
  obtain ⟨p3, r3, b1, b2, b3, b4, b5, b6⟩ := take_tasks hr hf (show 0 < n by omega) (i := i + 1) (k := progs.length - i - 1) (p := p2)
    (S := [] ++ ((progs.drop 0).take i).flatMap (·.msgs)) (rest := [.start true, .start false]) (by omega)
    (by rw [hw0, a3]; rfl) rfl (fun j h1 _ => by rw [hd2, a5 j (by omega)]; exact hsd j) (by rw [hd2]; exact a6)
  have hsi : p3.data.senders[i]? = some (.run ⟨progs[i].msgs, false⟩) := by
    rw [b5 i (by omega), hd2, a5 i (by omega), hsd, List.getElem?_eq_getElem hi, Option.map_some, ← hf _ (List.getElem_mem hi)]
  obtain ⟨p4, r4, c1, c2, c3, c4, c5⟩ := run_task hr (show 1 < n by omega) (p := p3) (i := i) (by rw [b3]; simp [hp2, PSt.setWorker, Job.begin]) hsi b6
  refine ⟨p4, r0.trans (r1.trans ((ReflTransGen.head r2 r3).trans r4)), fun t ht => ?_, ?_⟩
  · obtain ⟨j, hj⟩ := List.getElem?_of_mem ht
    rw [c4] at hj
    by_cases hji : j = i
    · subst hji
      rw [List.getElem?_set_self (List.getElem?_eq_some_iff.1 hsi).1] at hj
      cases hj; rfl
    · rw [List.getElem?_set_ne (by omega)] at hj
      by_cases hlt : j < i
      · rw [b5 j (by omega), hd2, a4 j (by omega) (by omega)] at hj
        cases hj; rfl
      · by_cases hl : j < progs.length
        · rw [b4 j (by omega) (by omega)] at hj
          cases hj; rfl
        · rw [b5 j (by omega), hd2, a5 j (by omega), hsd, List.getElem?_eq_none (by omega)] at hj
          cases hj
  · have : (progs.eraseIdx i).flatMap (·.msgs) = [] ++ ((progs.drop 0).take i).flatMap (·.msgs) ++
        ((progs.drop (i + 1)).take (progs.length - i - 1)).flatMap (·.msgs) := by
      rw [List.eraseIdx_eq_take_drop_succ, List.flatMap_append, List.nil_append, List.drop_zero, List.take_of_length_le (l := progs.drop (i + 1))]
      rw [List.length_drop]
      omega
    rw [this]
    exact c5

/-- with any number of workers there is a run in which the tasks send their messages in the order in which they were spawned -/
theorem order_reach [Zero T] [Add T] {progs : List (Prog T)} {len : Bool → Nat} (hr : InRange progs len) (hf : ∀ pr ∈ progs, pr.fails = false) {n : Nat}
    (hn : 1 ≤ n) :
    ∃ p, ReflTransGen (PStep n none) (PSt.init progs len) p ∧ (∀ t ∈ p.data.senders, t = .done) ∧
      Sent progs len p.data (progs.flatMap (·.msgs)) := by
  have hS0 : Sent progs len (PSt.init progs len).data [] := ⟨[], [], Inv.init progs len, fun _ _ => rfl⟩
  set p0 : PSt T := { PSt.init progs len with main := [], injector := [] ++ mainJobs progs.length } with hp0
  have r0 : ReflTransGen (PStep n none) (PSt.init progs len) p0 := inject_all (p := PSt.init progs len) rfl
  have hsd : ∀ j : Nat, p0.data.senders[j]? = progs[j]?.map Sender.run := by intro j; simp [hp0, PSt.init, St.init]
  have hj : p0.injector = (List.range' 0 progs.length).map .sender ++ [.start true, .start false] := by
    simp only [hp0, List.nil_append, mainJobs, List.range_eq_range']
  obtain ⟨p1, r1, a1, a2, a3, a4, a5, a6⟩ := take_tasks hr hf (show 0 < n by omega) (i := 0) (k := progs.length) (p := p0) (by omega) (by simp [hp0, PSt.init]) hj
    (fun j _ _ => hsd j) hS0
  refine ⟨p1, r0.trans r1, fun t ht => ?_, by simpa using a6⟩
  obtain ⟨j, hj⟩ := List.getElem?_of_mem ht
  by_cases hl : j < progs.length
  · rw [a4 j (by omega) (by omega)] at hj
    cases hj; rfl
  · rw [a5 j (by omega), hsd, List.getElem?_eq_none (by omega)] at hj
    cases hj

/-- when everything has ended, the messages are written in the order in which they were sent -/
theorem Sent.complete [Zero T] [Add T] {progs : List (Prog T)} {len : Bool → Nat} (hr : InRange progs len) {n : Nat} {p : PSt T}
    (h : ReflTransGen (PStep n none) (PSt.init progs len) p) (hc : p.Complete n) (hd : ∀ t ∈ p.data.senders, t = .done) {S : List (Msg T)}
    (hS : Sent progs len p.data S) (hperm : S.Perm (progs.flatMap (·.msgs))) (side : Bool) :
    p.data.arr side = accum (List.replicate (len side) 0) (contribs side (len side) S) := by
  obtain ⟨w, q, hi, ho⟩ := hS
  obtain ⟨rfl, _, hp⟩ := hi.complete ((PReach.pinv (by simp) h).complete hi hc)
  have hf : Sender.failed ∉ p.data.senders := fun hm => by cases hd _ hm
  have hR : ∀ m ∈ progs.flatMap (·.msgs), m.globalIdx < len m.right := by
    intro m hm
    obtain ⟨pr, hpr, hm⟩ := List.mem_flatMap.1 hm
    exact hr pr hpr m hm
  rw [hi.arr, accum_ordered ho (fun m hm => hR m ((hp hf).mem_iff.1 hm)) fun m hm => hR m (hperm.mem_iff.1 hm)]

end RL.SplitWriter
