import Verif.Lemmas.Pool

/-! Helper lemmas: a pool with one worker, called from outside, runs the tasks one after the other -/

namespace RL.SplitWriter

open RL Spec

variable {T : Type}

/-- the messages sent so far in the order of sending; each channel keeps this order -/
def Ordered (w q S : List (Msg T)) : Prop := ∀ side seg, w.filter (Dest side seg) ++ q.filter (Dest side seg) = S.filter (Dest side seg)

theorem Ordered.send {w q S : List (Msg T)} (h : Ordered w q S) (m : Msg T) : Ordered w (q ++ [m]) (S ++ [m]) := by
  intro side seg
  rw [List.filter_append, List.filter_append, ← List.append_assoc, h]

theorem Ordered.write {w q1 q2 S : List (Msg T)} {m : Msg T} (h : Ordered w (q1 ++ m :: q2) S)
    (hm : ∀ x ∈ q1, ¬ Dest m.right (m.globalIdx / 32) x = true) : Ordered (w ++ [m]) (q1 ++ q2) S := by
  intro side seg
  rw [← h, List.filter_append, List.filter_append, List.filter_append, List.filter_cons]
  by_cases hd : Dest side seg m = true
  · have hd' := hd
    simp only [Dest, Bool.and_eq_true, beq_iff_eq] at hd'
    obtain ⟨rfl, rfl⟩ := hd'
    have : q1.filter (Dest m.right (m.globalIdx / 32)) = [] := List.filter_eq_nil_iff.2 hm
    simp [hd, this]
  · simp [hd]

/-- what holds for the only worker; `S` are the messages sent so far -/
structure Phase (progs : List (Prog T)) (p : PSt T) (S : List (Msg T)) : Prop where
  deque : ∀ i, Job.sender i ∉ (p.worker 0).deque
  now : (∃ i, (∀ r, (p.worker 0).cur = some r → ¬ r.IsSender) ∧ p.injector ++ p.main = (mainJobs progs.length).drop i ∧
      S = (progs.take i).flatMap (·.msgs) ∧ ∀ j, i ≤ j → p.data.senders[j]? = progs[j]?.map .run) ∨
    (∃ i pr sent rest, (p.worker 0).cur = some (.sender i) ∧ p.injector ++ p.main = (mainJobs progs.length).drop (i + 1) ∧
      progs[i]? = some pr ∧ pr.msgs = sent ++ rest ∧ p.data.senders[i]? = some (.run ⟨rest, pr.fails⟩) ∧
      S = (progs.take i).flatMap (·.msgs) ++ sent ∧ ∀ j, i < j → p.data.senders[j]? = progs[j]?.map .run)

theorem mainJobs_getElem? (n i : Nat) : (mainJobs n)[i]? =
    if i < n then some (.sender i) else if i = n then some (.start true) else if i = n + 1 then some (.start false) else none := by
  unfold mainJobs
  rw [List.getElem?_append]
  simp only [List.length_map, List.length_range]
  split
  · rename_i h
    simp [h]
  · rename_i h
    obtain ⟨d, rfl⟩ : ∃ d, i = n + d := ⟨i - n, by omega⟩
    match d with
    | 0 => simp
    | 1 => simp
    | d + 2 => simp

theorem Phase.init [Zero T] (progs : List (Prog T)) (len : Bool → Nat) : Phase progs (PSt.init progs len) [] := by
  refine ⟨by simp [PSt.init], .inl ⟨0, by simp [PSt.init], by simp [PSt.init], by simp, ?_⟩⟩
  intro j _
  simp [PSt.init, St.init]

theorem begin_isSender {j : Job} : j.begin.IsSender ↔ ∃ i, j = .sender i := by
  cases j <;> simp [Job.begin, Running.IsSender]

theorem flatMap_take_succ {progs : List (Prog T)} {i : Nat} {pr : Prog T} (h : progs[i]? = some pr) :
    (progs.take (i + 1)).flatMap (·.msgs) = (progs.take i).flatMap (·.msgs) ++ pr.msgs := by
  rw [List.take_add_one, h]
  simp

theorem one_step [Zero T] [Add T] {progs : List (Prog T)} {len : Bool → Nat} (hr : InRange progs len) {p p' : PSt T}
    (hs : PStep 1 none p p') {w q S : List (Msg T)} (hi : Inv progs len p.data w q) (ho : Ordered w q S) (hp : Phase progs p S) :
    ∃ w' q' S', Inv progs len p'.data w' q' ∧ Ordered w' q' S' ∧ Phase progs p' S' := by
  have hw : ∀ {w : Nat}, w < 1 → w = 0 := by omega
  cases hs with
  | @inject j rest h1 h2 =>
    refine ⟨w, q, S, hi, ho, hp.deque, ?_⟩
    have he : (p.injector ++ [j]) ++ rest = p.injector ++ p.main := by rw [h2]; simp
    simp only [he]
    exact hp.now
  | push _ h _ => cases h
  | @pop w0 j rest h1 h2 h3 =>
    cases hw h1
    have hns : ∀ i, j ≠ .sender i := by
      rintro i rfl
      exact hp.deque i (by rw [h3]; simp)
    refine ⟨w, q, S, hi, ho, ?_, ?_⟩
    · intro i hm
      simp only [PSt.setWorker, Function.update_self] at hm
      exact hp.deque i (by rw [h3]; simp [hm])
    · rcases hp.now with ⟨i, e1, e2, e3, e4⟩ | ⟨i, pr, sent, rs, e1, _⟩
      · refine .inl ⟨i, ?_, e2, e3, e4⟩
        intro r hr' hs
        simp only [PSt.setWorker, Function.update_self, Option.some.injEq] at hr'
        subst hr'
        obtain ⟨i, hi⟩ := begin_isSender.1 hs
        exact hns i hi
      · rw [h2.1] at e1
        cases e1
  | steal h1 h2 h3 _ _ => exact absurd ((hw h1).trans (hw h2).symm) h3
  | @take w0 j rest h1 h2 h3 =>
    cases hw h1
    rcases hp.now with ⟨i, e1, e2, e3, e4⟩ | ⟨i, pr, sent, rs, e1, _⟩
    · rw [h3] at e2
      have hj : (mainJobs progs.length)[i]? = some j := by
        have := congrArg (fun l : List Job => l[0]?) e2
        simp only [List.cons_append, List.getElem?_cons_zero, List.getElem?_drop, Nat.add_zero] at this
        exact this.symm
      have hrest : rest ++ p.main = (mainJobs progs.length).drop (i + 1) := by
        rw [← List.drop_drop, ← e2]
        simp
      refine ⟨w, q, S, hi, ho, ?_, ?_⟩
      · intro k hm
        simp only [PSt.setWorker, Function.update_self] at hm
        exact hp.deque k hm
      · by_cases hlt : i < progs.length
        · rw [mainJobs_getElem?, if_pos hlt] at hj
          cases hj
          refine .inr ⟨i, progs[i], [], progs[i].msgs, ?_, hrest, List.getElem?_eq_getElem hlt, rfl, ?_, by simpa using e3, ?_⟩
          · simp [PSt.setWorker, Job.begin]
          · change p.data.senders[i]? = _
            rw [e4 i (Nat.le_refl _), List.getElem?_eq_getElem hlt]
            rfl
          · intro j hj
            exact e4 j (by omega)
        · refine .inl ⟨i + 1, ?_, hrest, ?_, fun j hj => e4 j (by omega)⟩
          · intro r hr' hs
            simp only [PSt.setWorker, Function.update_self, Option.some.injEq] at hr'
            subst hr'
            obtain ⟨k, rfl⟩ := begin_isSender.1 hs
            rw [mainJobs_getElem?, if_neg hlt] at hj
            split at hj
            · cases hj
            · split at hj <;> cases hj
          · rw [e3, List.take_of_length_le (by omega), List.take_of_length_le (by omega)]
    · rw [h2.1] at e1
      cases e1
  | @sender w0 k d rest h1 h2 h3 h4 =>
    cases hw h1
    rcases hp.now with ⟨i, e1, _⟩ | ⟨i, pr, sent, rs, e1, e2, e3, e4, e5, e6, e7⟩
    · exact absurd trivial (e1 _ h2)
    · rw [h2] at e1
      cases e1
      obtain ⟨w', q', hi', hm⟩ := hi.moves hr h3
      cases hm with
      | @ends i' f' m1 m2 m3 =>
        cases m1
        rw [m3, List.getElem?_set_self (List.getElem?_eq_some_iff.1 m2).1] at h4
        cases f' <;> simp at h4
      | @sends i' m ms f' m1 m2 m3 =>
        cases m1
        rw [e5] at m2
        cases m2
        refine ⟨_, _, _, hi', ho.send m, hp.deque, .inr ⟨k, pr, sent ++ [m], ms, h2, e2, e3, by simp [e4], ?_, by simp [e6], ?_⟩⟩
        · change d.senders[k]? = _
          rw [m3, List.getElem?_set_self (List.getElem?_eq_some_iff.1 e5).1]
        · intro j hj
          change d.senders[j]? = _
          rw [m3, List.getElem?_set_ne (by omega)]
          exact e7 j hj
      | writes m1 _ _ _ => cases m1
  | @senderEnd w0 k d h1 h2 h3 h4 =>
    cases hw h1
    rcases hp.now with ⟨i, e1, _⟩ | ⟨i, pr, sent, rs, e1, e2, e3, e4, e5, e6, e7⟩
    · exact absurd trivial (e1 _ h2)
    · rw [h2] at e1
      cases e1
      obtain ⟨w', q', hi', hm⟩ := hi.moves hr h3
      cases hm with
      | @ends i' f' m1 m2 m3 =>
        cases m1
        rw [e5] at m2
        cases m2
        refine ⟨_, _, S, hi', ho, ?_, .inl ⟨k + 1, ?_, e2, ?_, ?_⟩⟩
        · intro i hm
          simp only [PSt.setWorker, Function.update_self] at hm
          exact hp.deque i hm
        · intro r hr'
          simp [PSt.setWorker] at hr'
        · rw [e6, flatMap_take_succ e3, e4]
          simp
        · intro j hj
          change d.senders[j]? = _
          rw [m3, List.getElem?_set_ne (by omega)]
          exact e7 j (by omega)
      | @sends i' m ms f' m1 m2 m3 =>
        cases m1
        exact False.elim (h4 (.run ⟨ms, f'⟩) (by rw [m3, List.getElem?_set_self (List.getElem?_eq_some_iff.1 m2).1]))
      | writes m1 _ _ _ => cases m1
  | @spawnReceiver w0 next side h1 h2 h3 =>
    cases hw h1
    refine ⟨w, q, S, hi, ho, ?_, ?_⟩
    · intro i hm
      simp only [PSt.setWorker, Function.update_self, List.mem_cons, reduceCtorEq, false_or] at hm
      exact hp.deque i hm
    · rcases hp.now with ⟨i, e1, e2⟩ | ⟨i, pr, sent, rs, e1, _⟩
      · refine .inl ⟨i, ?_, e2⟩
        intro r hr'
        simp only [PSt.setWorker, Function.update_self, Option.some.injEq] at hr'
        subst hr'
        exact id
      · rw [h2] at e1
        cases e1
  | @startEnd w0 next side h1 h2 h3 =>
    cases hw h1
    refine ⟨w, q, S, hi, ho, ?_, ?_⟩
    · intro i hm
      simp only [PSt.setWorker, Function.update_self] at hm
      exact hp.deque i hm
    · rcases hp.now with ⟨i, e1, e2⟩ | ⟨i, pr, sent, rs, e1, _⟩
      · refine .inl ⟨i, ?_, e2⟩
        intro r hr'
        simp [PSt.setWorker] at hr'
      · rw [h2] at e1
        cases e1
  | @receiver w0 seg side d h1 h2 h3 =>
    cases hw h1
    obtain ⟨w', q', hi', hm⟩ := hi.moves hr h3
    cases hm with
    | ends m1 _ _ => cases m1
    | sends m1 _ _ => cases m1
    | writes m1 m2 m3 m4 =>
      subst m3
      refine ⟨_, _, S, hi', ho.write m4, hp.deque, ?_⟩
      simp only [m2]
      exact hp.now
  | @receiverEnd w0 seg side h1 h2 h3 h4 =>
    cases hw h1
    refine ⟨w, q, S, hi, ho, ?_, ?_⟩
    · intro i hm
      simp only [PSt.setWorker, Function.update_self] at hm
      exact hp.deque i hm
    · rcases hp.now with ⟨i, e1, e2⟩ | ⟨i, pr, sent, rs, e1, _⟩
      · refine .inl ⟨i, ?_, e2⟩
        intro r hr'
        simp [PSt.setWorker] at hr'
      · rw [h2] at e1
        cases e1

theorem one_reach [Zero T] [Add T] {progs : List (Prog T)} {len : Bool → Nat} (hr : InRange progs len) {p : PSt T}
    (h : Relation.ReflTransGen (PStep 1 none) (PSt.init progs len) p) :
    ∃ w q S, Inv progs len p.data w q ∧ Ordered w q S ∧ Phase progs p S := by
  induction h with
  | refl => exact ⟨[], [], [], Inv.init progs len, fun _ _ => rfl, Phase.init progs len⟩
  | tail _ hs ih =>
    obtain ⟨w, q, S, h1, h2, h3⟩ := ih
    exact one_step hr hs h1 h2 h3

/-- the order of messages for different segments does not matter -/
theorem accum_ordered [Add T] {w S : List (Msg T)} {len : Bool → Nat} (ho : Ordered w [] S) (hw : ∀ m ∈ w, m.globalIdx < len m.right)
    (hS : ∀ m ∈ S, m.globalIdx < len m.right) (arr : List T) (side : Bool) :
    accum arr (contribs side (len side) w) = accum arr (contribs side (len side) S) := by
  apply List.ext_getElem?
  intro k
  rw [accum_getElem?, accum_getElem?]
  congr 2
  funext x
  congr 1
  simp only [contribs, List.filter_map, List.filter_filter]
  congr 1
  have key : ∀ g, g < len side → segPos (len side) g = k → ∀ l : List (Msg T), (∀ m ∈ l, m.globalIdx < len m.right) →
      l.filter (fun m => ((fun c : Nat × T => decide (c.1 = k)) ∘ fun m : Msg T => (segPos (len side) m.globalIdx, m.val)) m &&
        (m.right == side)) = (l.filter (Dest side (g / 32))).filter fun m => m.globalIdx == g := by
    intro g hg hk l hl
    rw [List.filter_filter]
    refine List.filter_congr fun m hm => ?_
    have := hl m hm
    by_cases hsd : m.right = side
    · rw [hsd] at this
      by_cases he : m.globalIdx = g
      · simp [hsd, he, hk, Dest]
      · have hne : segPos (len side) m.globalIdx ≠ k := fun e => he (segPos_inj this hg (e.trans hk.symm))
        simp [he, hne]
    · have : (m.right == side) = false := by simpa using hsd
      simp [this, Dest]
  by_cases hex : ∃ g, g < len side ∧ segPos (len side) g = k
  · obtain ⟨g, hg, hk⟩ := hex
    rw [key g hg hk w hw, key g hg hk S hS, ← ho side (g / 32)]
    simp
  · have hnil : ∀ l : List (Msg T), (∀ m ∈ l, m.globalIdx < len m.right) →
      l.filter (fun m => ((fun c : Nat × T => decide (c.1 = k)) ∘ fun m : Msg T => (segPos (len side) m.globalIdx, m.val)) m &&
        (m.right == side)) = [] := by
      intro l hl
      rw [List.filter_eq_nil_iff]
      intro m hm hc
      simp at hc
      have := hl m hm
      rw [hc.2] at this
      exact hex ⟨_, this, hc.1⟩
    rw [hnil w hw, hnil S hS]

/-- at the end the messages are written as if the tasks had run one after the other -/
theorem one_complete [Zero T] [Add T] {progs : List (Prog T)} {len : Bool → Nat} (hr : InRange progs len) {p : PSt T}
    (h : Relation.ReflTransGen (PStep 1 none) (PSt.init progs len) p) (hc : p.Complete 1) (hf : Sender.failed ∉ p.data.senders)
    (side : Bool) : p.data.arr side = accum (List.replicate (len side) 0) (contribs side (len side) (progs.flatMap (·.msgs))) := by
  obtain ⟨w, q, S, h1, h2, h3⟩ := one_reach hr h
  obtain ⟨rfl, _, hperm⟩ := h1.complete ((PReach.pinv (by simp) h).complete h1 hc)
  rcases h3.now with ⟨i, e1, e2, e3, e4⟩ | ⟨i, pr, sent, rs, e1, _⟩
  · rw [hc.injector, hc.main] at e2
    have hl := congrArg List.length e2
    simp [mainJobs] at hl
    rw [List.take_of_length_le (by omega)] at e3
    subst e3
    have hS : ∀ m ∈ progs.flatMap (·.msgs), m.globalIdx < len m.right := by
      intro m hm
      obtain ⟨pr, hpr, hm⟩ := List.mem_flatMap.1 hm
      exact hr pr hpr m hm
    rw [h1.arr, accum_ordered h2 (fun m hm => hS m ((hperm hf).mem_iff.1 hm)) hS]
  · rw [hc.cur 0 (by decide)] at e1
    cases e1

end RL.SplitWriter
