import Verif.Lemmas.Pool

/-! Helper definitions: an executable scheduler for the pool, to exhibit runs -/

namespace RL.SplitWriter

open RL

variable {T : Type}

instance : DecidablePred (Sender.Ended (T := T)) := fun s => match s with
  | .run _ => isFalse id
  | .done => isTrue trivial
  | .failed => isTrue trivial

/-- the step of a task -/
def sendAct (s : St T) (i : Nat) : Option (St T) :=
  match s.senders[i]? with
  | some (.run ⟨m :: ms, f⟩) =>
    match senderOf (s.arr m.right).length m.globalIdx with
    | .ok seg => some { s with
        senders := s.senders.set i (.run ⟨ms, f⟩)
        chan := fun side sg => if side = m.right ∧ sg = seg then s.chan side sg ++ [(m.globalIdx, m.val)] else s.chan side sg }
    | .error _ => some { s with senders := s.senders.set i .failed }
  | some (.run ⟨[], false⟩) => some { s with senders := s.senders.set i .done }
  | some (.run ⟨[], true⟩) => some { s with senders := s.senders.set i .failed }
  | _ => none

theorem sendAct_step [Add T] {s s' : St T} {i : Nat} (h : sendAct s i = some s') : Step (.sender i) s s' := by
  unfold sendAct at h
  split at h
  · rename_i m ms f hs
    split at h
    · rename_i seg hseg
      cases h
      exact .send hs hseg
    · rename_i e he
      cases h
      exact .sendFail hs he
  · rename_i hs; cases h; exact .finish hs
  · rename_i hs; cases h; exact .fail hs
  · cases h

/-- the step of a receiver that has a message -/
def recvAct [Add T] (s : St T) (side : Bool) (seg : Nat) : Option (St T) :=
  if seg < s.nseg side then
    match s.chan side seg with
    | (g, v) :: q =>
      match segmentWrite (s.arr side) seg g v with
      | .ok a => some { s with
          chan := fun sd sg => if sd = side ∧ sg = seg then q else s.chan sd sg
          arr := fun sd => if sd = side then a else s.arr sd }
      | .error _ => none
    | [] => none
  else none

theorem recvAct_step [Add T] {s s' : St T} {side : Bool} {seg : Nat} (h : recvAct s side seg = some s') :
    Step (.receiver side seg) s s' := by
  unfold recvAct at h
  split at h
  · rename_i hl
    split at h
    · rename_i g v q hq
      split at h
      · rename_i a ha
        cases h
        exact .recv hl hq ha
      · cases h
    · cases h
  · cases h

/-- what the scheduler lets happen: the caller injects a job, a worker takes an injected job or one of its own, a worker goes on -/
inductive Cmd where
  | inject
  | take (w : Nat)
  | pop (w : Nat)
  | go (w : Nat)
deriving DecidableEq

/-- a command, for a call from outside of a pool with `n` workers -/
def Cmd.exec [Add T] (n : Nat) (p : PSt T) : Cmd → Option (PSt T)
  | .inject => match p.main with
    | j :: rest => some { p with main := rest, injector := p.injector ++ [j] }
    | [] => none
  | .take w => if w < n ∧ (p.worker w).cur = none then
      match p.injector with
      | j :: rest => some ({ p with injector := rest }.setWorker w { p.worker w with cur := some j.begin })
      | [] => none
    else none
  | .pop w => if w < n ∧ (p.worker w).cur = none then
      match (p.worker w).deque with
      | j :: rest => some (p.setWorker w ⟨rest, some j.begin⟩)
      | [] => none
    else none
  | .go w => if w < n then
      match (p.worker w).cur with
      | none => none
      | some (.sender i) => match sendAct p.data i with
        | none => none
        | some d => match d.senders[i]? with
          | some (.run _) => some { p with data := d }
          | some .done => some ({ p with data := d }.setWorker w { p.worker w with cur := none })
          | some .failed => some ({ p with data := d }.setWorker w { p.worker w with cur := none })
          | none => none
      | some (.start side next) =>
        if next < p.data.nseg side then some (p.setWorker w ⟨.receiver side next :: (p.worker w).deque, some (.start side (next + 1))⟩)
        else some (p.setWorker w { p.worker w with cur := none })
      | some (.receiver side seg) => match recvAct p.data side seg with
        | some d => some { p with data := d }
        | none => if p.data.chan side seg = [] ∧ (∀ t ∈ p.data.senders, t.Ended) ∧ Job.start side ∉ p.main then
            some (p.setWorker w { p.worker w with cur := none })
          else none
    else none

theorem Cmd.exec_step [Add T] {n : Nat} {p p' : PSt T} {c : Cmd} (h : c.exec n p = some p') : PStep n none p p' := by
  cases c with
  | inject =>
    simp only [Cmd.exec] at h
    split at h
    · rename_i j rest hm
      cases h
      exact .inject rfl hm
    · cases h
  | take w =>
    simp only [Cmd.exec] at h
    split at h
    · rename_i hw
      split at h
      · rename_i j rest hm
        cases h
        exact .take hw.1 ⟨hw.2, by simp⟩ hm
      · cases h
    · cases h
  | pop w =>
    simp only [Cmd.exec] at h
    split at h
    · rename_i hw
      split at h
      · rename_i j rest hm
        cases h
        exact .pop hw.1 ⟨hw.2, by simp⟩ hm
      · cases h
    · cases h
  | go w =>
    simp only [Cmd.exec] at h
    split at h
    · rename_i hw
      split at h
      · cases h
      · rename_i i hc
        split at h
        · cases h
        · rename_i d hd
          have hs := sendAct_step hd
          split at h
          · rename_i r hr; cases h; exact .sender hw hc hs hr
          · rename_i hr; cases h; exact .senderEnd hw hc hs (fun t ht => by rw [hr] at ht; cases ht; trivial)
          · rename_i hr; cases h; exact .senderEnd hw hc hs (fun t ht => by rw [hr] at ht; cases ht; trivial)
          · cases h
      · rename_i side next hc
        split at h
        · rename_i hn; cases h; exact .spawnReceiver hw hc hn
        · rename_i hn; cases h; exact .startEnd hw hc hn
      · rename_i side seg hc
        split at h
        · rename_i d hd; cases h; exact .receiver hw hc (recvAct_step hd)
        · split at h
          · rename_i hcl; cases h; exact .receiverEnd hw hc hcl.1 hcl.2
          · cases h
    · cases h

/-- a list of commands -/
def execAll [Add T] (n : Nat) (p : PSt T) : List Cmd → Option (PSt T)
  | [] => some p
  | c :: cs => (c.exec n p).bind fun p => execAll n p cs

theorem execAll_reach [Add T] {n : Nat} {cs : List Cmd} : ∀ {p p' : PSt T}, execAll n p cs = some p' →
    Relation.ReflTransGen (PStep n none) p p' := by
  induction cs with
  | nil => rintro p p' ⟨⟩; exact .refl
  | cons c cs ih =>
    intro p p' h
    obtain ⟨p1, h1, h2⟩ := Option.bind_eq_some_iff.1 h
    exact .head (Cmd.exec_step h1) (ih h2)

/-- a run of the commands that leaves the scope with these arrays -/
def ranTo [Add T] [DecidableEq T] (n : Nat) (p : PSt T) (cs : List Cmd) (l r : List T) : Bool :=
  match execAll n p cs with
  | none => false
  | some p => decide (p.main = [] ∧ p.injector = [] ∧ (∀ w < n, (p.worker w).deque = []) ∧ (∀ w < n, (p.worker w).cur = none) ∧
      p.data.arr false = l ∧ p.data.arr true = r)

theorem ranTo_reach [Add T] [DecidableEq T] {n : Nat} {p : PSt T} {cs : List Cmd} {l r : List T} (h : ranTo n p cs l r = true) :
    ∃ p', Relation.ReflTransGen (PStep n none) p p' ∧ p'.Complete n ∧ p'.data.arr false = l ∧ p'.data.arr true = r := by
  unfold ranTo at h
  split at h
  · cases h
  · rename_i p' hp
    obtain ⟨h1, h2, h3, h4, h5, h6⟩ := of_decide_eq_true h
    exact ⟨p', execAll_reach hp, ⟨h1, h2, h3, h4⟩, h5, h6⟩

end RL.SplitWriter
