import Verif.Model.PoolMany
import Verif.Lemmas.BmmJvp
import Mathlib.Logic.Relation

/-!
# How the workers of a pool block each other: lemmas for C62
-/

namespace RL.SplitWriter

open RL Relation

variable {T : Type} [Zero T] [Add T] [Mul T] {n K : Nat} {place : Nat → Option Nat}

/-- `q` differs from `p` at most in thread `t` and worker `w`, which are now these -/
structure Only (p q : MSt T) (t w : Nat) (th : Thread T) (k : MWorker) : Prop where
  thread : q.thread t = th
  worker : q.worker w = k
  threads : ∀ s, s ≠ t → q.thread s = p.thread s
  workers : ∀ v, v ≠ w → q.worker v = p.worker v

theorem Only.trans {p q r : MSt T} {t w : Nat} {th th' : Thread T} {k k' : MWorker} (h : Only p q t w th k) (h' : Only q r t w th' k') :
    Only p r t w th' k' :=
  ⟨h'.thread, h'.worker, fun s hs => (h'.threads s hs).trans (h.threads s hs), fun v hv => (h'.workers v hv).trans (h.workers v hv)⟩

theorem only_thread {p : MSt T} {t : Nat} (w : Nat) (th : Thread T) : Only p (p.setThread t th) t w th (p.worker w) :=
  ⟨by simp [MSt.setThread], rfl, fun s hs => by simp [MSt.setThread, hs], fun _ _ => rfl⟩

theorem only_worker {p : MSt T} {w : Nat} (t : Nat) (k : MWorker) : Only p (p.setWorker w k) t w (p.thread t) k :=
  ⟨rfl, by simp [MSt.setWorker], fun _ _ => rfl, fun v hv => by simp [MSt.setWorker, hv]⟩

/-- a thread in the pool spawns all its jobs -/
theorem pushes {t w : Nat} (ht : t < K) (hw : w < n) (hp : place t = some w) (js : List Job) : ∀ (p : MSt T), (p.thread t).rest = js →
    ∃ q, ReflTransGen (MStep n K place) p q ∧
      Only p q t w { p.thread t with rest := [] } { p.worker w with deque := (js.map (t, ·)).reverse ++ (p.worker w).deque } := by
  induction js with
  | nil =>
    intro p hr
    refine ⟨p, .refl, ?_, rfl, fun _ _ => rfl, fun _ _ => rfl⟩
    rw [← hr]
  | cons j js ih =>
    intro p hr
    have hs := MStep.push (n := n) (K := K) (place := place) (p := p) ht hw hp hr
    have h1 := (only_thread (p := p) (t := t) w { p.thread t with rest := js }).trans
      (only_worker (p := p.setThread t { p.thread t with rest := js }) (w := w) t { p.worker w with deque := (t, j) :: (p.worker w).deque })
    obtain ⟨q, h2, h3⟩ := ih _ (by rw [h1.thread]; simp [MSt.setThread])
    refine ⟨q, .head hs h2, ?_⟩
    have h4 := h1.trans h3
    rw [h1.thread, h1.worker] at h4
    simpa [MSt.setThread] using h4

/-- a worker spawns all receivers of a side -/
theorem spawns {t w : Nat} {side : Bool} (hw : w < n) (m : Nat) : ∀ (p : MSt T) (next : Nat) (dq : List (Nat × Job)),
    next + m = (p.thread t).data.nseg side → p.worker w = ⟨dq, some (t, .start side next)⟩ →
    ∃ q dq', ReflTransGen (MStep n K place) p q ∧ Only p q t w (p.thread t) ⟨dq', none⟩ ∧
      (m = 0 ∧ dq' = dq ∨ ∃ seg dq'', dq' = (t, .receiver side seg) :: dq'') := by
  induction m with
  | zero =>
    intro p next dq hm hk
    have hs := MStep.startEnd (n := n) (K := K) (place := place) (p := p) (t := t) (next := next) (side := side) hw (by rw [hk]) (by omega)
    refine ⟨_, dq, .single hs, ?_, .inl ⟨rfl, rfl⟩⟩
    have h1 := only_worker (p := p) (w := w) t { p.worker w with cur := none }
    rwa [show ({ p.worker w with cur := none } : MWorker) = ⟨dq, none⟩ by rw [hk]] at h1 ⊢
  | succ m ih =>
    intro p next dq hm hk
    have hs := MStep.spawnReceiver (n := n) (K := K) (place := place) (p := p) (t := t) (next := next) (side := side) hw (by rw [hk]) (by omega)
    have h1 := only_worker (p := p) (w := w) t ⟨(t, .receiver side next) :: (p.worker w).deque, some (t, .start side (next + 1))⟩
    obtain ⟨q, dq', h2, h3, h4⟩ := ih (p.setWorker w ⟨(t, .receiver side next) :: (p.worker w).deque, some (t, .start side (next + 1))⟩) (next + 1)
      ((t, .receiver side next) :: (p.worker w).deque) (by rw [h1.thread]; omega) h1.worker
    refine ⟨q, dq', .head hs h2, ?_, .inr ?_⟩
    · have h5 := h1.trans h3
      rwa [h1.thread] at h5
    · rcases h4 with ⟨_, rfl⟩ | h4
      · exact ⟨_, _, rfl⟩
      · exact h4

/-- the worker of thread `t` executes a receiver of its own call that waits for a task of the same call -/
structure Blocked (p : MSt T) (t w : Nat) : Prop where
  active : (p.thread t).active = true
  rest : (p.thread t).rest = []
  chan : ∀ seg, (p.thread t).data.chan false seg = []
  running : ∃ s ∈ (p.thread t).data.senders, ¬ s.Ended
  cur : ∃ seg, (p.worker w).cur = some (t, .receiver false seg)
  results : (p.thread t).results = []

/-- the next call of a thread passes its checks and has something to do -/
def HasWork (th : Thread T) : Prop :=
  th.active = false ∧ th.results = [] ∧ ∃ c more sh progs, th.todo = c :: more ∧ IsScope c.left c.right c.jac sh progs ∧ progs ≠ [] ∧ 0 < sh.leftOutput.prod

/-- a thread and its worker, before the call, can get blocked -/
theorem block {p : MSt T} {t w : Nat} (ht : t < K) (hw : w < n) (hp : place t = some w) (hk : p.worker w = ⟨[], none⟩) (hh : HasWork (p.thread t))
    (ho : ∀ s < K, place s = some w → s ≠ t → (p.thread s).rest = [] ∧ (p.thread s).todo = []) :
    ∃ q th k, ReflTransGen (MStep n K place) p q ∧ Only p q t w th k ∧ Blocked q t w := by
  obtain ⟨ha, hres, c, more, sh, progs, hc, hsc, hne, hpos⟩ := hh
  have s1 := MStep.enter (n := n) (K := K) (place := place) (p := p) ht ha hc hsc
  obtain ⟨th, hth⟩ : ∃ th : Thread T, th = { p.thread t with
    data := St.init progs (lens sh), shapes := sh, rest := mainJobs progs.length, active := true, todo := more } := ⟨_, rfl⟩
  rw [← hth] at s1
  have h1 := only_thread (p := p) (t := t) w th
  obtain ⟨q2, r2, h2⟩ := pushes ht hw hp (mainJobs progs.length) (p.setThread t th) (by rw [h1.thread, hth])
  have h12 := h1.trans h2
  rw [h1.thread, h1.worker, hk] at h12
  obtain ⟨dq, hdq⟩ : ∃ dq, ((mainJobs progs.length).map (t, ·)).reverse ++ [] = (t, Job.start false) :: dq := by simp [mainJobs]
  simp only [hdq] at h12
  have free : ∀ {q : MSt T} {k : MWorker}, Only p q t w { th with rest := [] } k → k.cur = none → q.Free K place w := by
    intro q k h hk'
    refine ⟨by rw [h.worker, hk'], fun s hs hsw => ?_⟩
    by_cases e : s = t
    · subst e
      rw [h.thread]
      exact ⟨rfl, .inl (by rw [hth])⟩
    · rw [h.threads s e]
      exact ⟨(ho s hs hsw e).1, .inr (ho s hs hsw e).2⟩
  have s3 := MStep.pop (n := n) (K := K) (place := place) (p := q2) hw (free h12 rfl) (by rw [h12.worker])
  have h3 := h12.trans (only_worker (w := w) t ⟨dq, some (t, Job.begin (.start false))⟩)
  rw [h12.thread] at h3
  have hseg : 0 < ((q2.setWorker w ⟨dq, some (t, Job.begin (.start false))⟩).thread t).data.nseg false := by
    rw [h3.thread, hth]
    change 0 < (rchunks (List.replicate (lens sh false) (0 : T)).length).length
    rw [rchunks_length_iff]
    simpa [lens] using hpos
  obtain ⟨q4, dq', r4, h4, h4'⟩ := spawns (K := K) (place := place) (t := t) (side := false) hw _ _ 0 dq (Nat.zero_add _) h3.worker
  obtain ⟨seg, dq'', rfl⟩ := h4'.resolve_left fun h => absurd h.1 (by omega)
  have h34 := h3.trans h4
  rw [h3.thread] at h34
  have s5 := MStep.pop (n := n) (K := K) (place := place) (p := q4) hw (free h34 rfl) (by rw [h34.worker])
  have h5 := h34.trans (only_worker (w := w) t ⟨dq'', some (t, Job.begin (.receiver false seg))⟩)
  rw [h34.thread] at h5
  refine ⟨_, _, _, ((ReflTransGen.head s1 r2).tail s3).trans (r4.tail s5), h5, ?_, ?_, ?_, ?_, ?_, ?_⟩
  · rw [h5.thread, hth]
  · rw [h5.thread]
  · rw [h5.thread, hth]
    intro seg
    rfl
  · rw [h5.thread, hth]
    cases progs with
    | nil => exact absurd rfl hne
    | cons x xs => exact ⟨.run x, by simp [St.init], id⟩
  · exact ⟨seg, by rw [h5.worker]; rfl⟩
  · rw [h5.thread, hth]
    exact hres

/-- all workers are blocked by the threads `f` -/
structure Stuck (n K : Nat) (place : Nat → Option Nat) (f : Nat → Nat) (p : MSt T) : Prop where
  blocked : ∀ w < n, Blocked p (f w) w
  idle : ∀ t < K, ∀ w, place t = some w → t ≠ f w → (p.thread t).rest = [] ∧ (p.thread t).todo = [] ∧ (p.thread t).active = false

variable {f : Nat → Nat}

/-- threads outside of the pool do not change this -/
theorem Stuck.outside {p q : MSt T} {t : Nat} (h : Stuck n K place f p) (hf : ∀ w < n, place (f w) = some w) (ht : place t = none)
    (hq : ∀ s, s ≠ t → q.thread s = p.thread s) (hw : q.worker = p.worker) : Stuck n K place f q := by
  have hne : ∀ {s w}, place s = some w → s ≠ t := fun hs e => by rw [e, ht] at hs; cases hs
  refine ⟨fun w hwn => ?_, fun s hs w hsw hsf => ?_⟩
  · obtain ⟨h1, h2, h3, h4, h5, h6⟩ := h.blocked w hwn
    have := hq (f w) (hne (hf w hwn))
    exact ⟨by rw [this]; exact h1, by rw [this]; exact h2, by rw [this]; exact h3, by rw [this]; exact h4, by rw [hw]; exact h5, by rw [this]; exact h6⟩
  · rw [hq s (hne hsw)]
    exact h.idle s hs w hsw hsf

theorem Stuck.step {p q : MSt T} (hpl : ∀ t < K, ∀ c, place t = some c → c < n) (hf : ∀ w < n, place (f w) = some w) (h : Stuck n K place f p)
    (hs : MStep n K place p q) : Stuck n K place f q := by
  have set : ∀ {t : Nat} {th : Thread T}, ∀ s, s ≠ t → (p.setThread t th).thread s = p.thread s := fun s hs => by simp [MSt.setThread, hs]
  have h1 : ∀ {t c more}, t < K → (p.thread t).active = false → (p.thread t).todo = c :: more → place t = none := by
    intro t c more ht ha hc
    cases hpt : place t with
    | none => rfl
    | some w =>
      by_cases e : t = f w
      · rw [e, (h.blocked w (hpl t ht w hpt)).active] at ha; cases ha
      · rw [(h.idle t ht w hpt e).2.1] at hc; cases hc
  have h2 : ∀ {t}, t < K → (p.thread t).active = true → p.Gone n t → place t = none := by
    intro t ht ha hg
    cases hpt : place t with
    | none => rfl
    | some w =>
      by_cases e : t = f w
      · obtain ⟨_, h1⟩ := (h.blocked w (hpl t ht w hpt)).cur
        exact absurd e.symm (hg.cur w (hpl t ht w hpt) _ h1)
      · rw [(h.idle t ht w hpt e).2.2] at ha; cases ha
  have h3 : ∀ {t w j rest}, t < K → w < n → place t = some w → (p.thread t).rest ≠ j :: rest := by
    intro t w j rest ht hw hp hr
    by_cases e : t = f w
    · rw [e, (h.blocked w hw).rest] at hr; cases hr
    · rw [(h.idle t ht w hp e).1] at hr; cases hr
  cases hs with
  | enter ht ha hc _ => exact h.outside hf (h1 ht ha hc) set rfl
  | refuse ht ha hc _ => exact h.outside hf (h1 ht ha hc) set rfl
  | inject ht hp _ => exact h.outside hf hp (fun s hs => by simp [MSt.setThread, hs]) rfl
  | push ht hw hp hr => exact absurd hr (h3 ht hw hp)
  | pop hw hfr _ => obtain ⟨_, h1⟩ := (h.blocked _ hw).cur; rw [hfr.1] at h1; cases h1
  | steal hw _ _ hfr _ => obtain ⟨_, h1⟩ := (h.blocked _ hw).cur; rw [hfr.1] at h1; cases h1
  | take hw hfr _ => obtain ⟨_, h1⟩ := (h.blocked _ hw).cur; rw [hfr.1] at h1; cases h1
  | sender hw hc _ _ => obtain ⟨_, h1⟩ := (h.blocked _ hw).cur; rw [hc] at h1; cases h1
  | senderEnd hw hc _ _ => obtain ⟨_, h1⟩ := (h.blocked _ hw).cur; rw [hc] at h1; cases h1
  | spawnReceiver hw hc _ => obtain ⟨_, h1⟩ := (h.blocked _ hw).cur; rw [hc] at h1; cases h1
  | startEnd hw hc _ => obtain ⟨_, h1⟩ := (h.blocked _ hw).cur; rw [hc] at h1; cases h1
  | receiver hw hc hst =>
    obtain ⟨_, h1⟩ := (h.blocked _ hw).cur
    rw [hc] at h1
    cases h1
    have h2 := (h.blocked _ hw).chan
    cases hst with
    | recv _ h3 _ => rw [h2] at h3; cases h3
    | recvFail _ h3 _ => rw [h2] at h3; cases h3
  | receiverEnd hw hc _ hcl =>
    obtain ⟨_, h1⟩ := (h.blocked _ hw).cur
    rw [hc] at h1
    cases h1
    obtain ⟨s, h2, h3⟩ := (h.blocked _ hw).running
    exact absurd (hcl.1 s h2) h3
  | leave ht ha _ hg _ _ _ => exact h.outside hf (h2 ht ha hg) set rfl
  | leaveFail ht ha _ hg _ _ => exact h.outside hf (h2 ht ha hg) set rfl

theorem Stuck.forever {p q : MSt T} (hpl : ∀ t < K, ∀ c, place t = some c → c < n) (hf : ∀ w < n, place (f w) = some w) (h : Stuck n K place f p)
    (hs : ReflTransGen (MStep n K place) p q) : Stuck n K place f q := by
  induction hs with
  | refl => exact h
  | tail _ h1 ih => exact ih.step hpl hf h1

/-- all workers get blocked, one after the other -/
theorem block_all (hf : ∀ w < n, f w < K ∧ place (f w) = some w) {p : MSt T} (hk : ∀ w < n, p.worker w = ⟨[], none⟩)
    (hh : ∀ w < n, HasWork (p.thread (f w)))
    (ho : ∀ t < K, ∀ w, place t = some w → t ≠ f w → (p.thread t).rest = [] ∧ (p.thread t).todo = [] ∧ (p.thread t).active = false) :
    ∀ m ≤ n, ∃ q, ReflTransGen (MStep n K place) p q ∧ (∀ w < m, Blocked q (f w) w) ∧ (∀ w < n, m ≤ w → q.worker w = p.worker w) ∧
      ∀ t, (∀ w < m, t ≠ f w) → q.thread t = p.thread t := by
  intro m
  induction m with
  | zero => exact fun _ => ⟨p, .refl, by simp, fun _ _ _ => rfl, fun _ _ => rfl⟩
  | succ m ih =>
    intro hm
    obtain ⟨q, h1, h2, h3, h4⟩ := ih (by omega)
    have inj : ∀ {v w}, v < n → w < n → f v = f w → v = w := fun hv hw e => by
      have := (hf _ hv).2
      rw [e, (hf _ hw).2] at this
      exact (Option.some.inj this).symm
    have hmn : m < n := by omega
    have hq : q.thread (f m) = p.thread (f m) := h4 _ fun w hw e => by have := inj hmn (by omega) e; omega
    obtain ⟨r, th, k, h5, h6, h7⟩ := block (p := q) (hf m hmn).1 hmn (hf m hmn).2 (by rw [h3 m hmn le_rfl]; exact hk m hmn) (by rw [hq]; exact hh m hmn)
      (fun s hs hsm hne => by
        rw [h4 s fun w hw e => by
          rw [e, (hf w (by omega)).2] at hsm
          cases hsm
          omega]
        exact ⟨(ho s hs m hsm hne).1, (ho s hs m hsm hne).2.1⟩)
    refine ⟨r, h1.trans h5, fun w hw => ?_, fun w hw hmw => ?_, fun t ht => ?_⟩
    · by_cases e : w = m
      · subst e; exact h7
      · obtain ⟨a1, a2, a3, a4, a5, a6⟩ := h2 w (by omega)
        have e1 : r.thread (f w) = q.thread (f w) := h6.threads _ fun e' => e (inj (by omega) hmn e')
        have e2 : r.worker w = q.worker w := h6.workers _ e
        exact ⟨by rw [e1]; exact a1, by rw [e1]; exact a2, by rw [e1]; exact a3, by rw [e1]; exact a4, by rw [e2]; exact a5, by rw [e1]; exact a6⟩
    · rw [h6.workers w (by omega)]
      exact h3 w hw (by omega)
    · rw [h6.threads t (ht m (by omega))]
      exact h4 t fun w hw => ht w (by omega)

/-- without workers a thread that has entered a scope never leaves it -/
theorem no_workers {p q : MSt T} {t : Nat} (hs : ReflTransGen (MStep 0 K place) p q)
    (h : (p.thread t).active = true ∧ ((p.thread t).rest ≠ [] ∨ ∃ x ∈ p.injector, x.1 = t)) :
    (q.thread t).active = true ∧ ((q.thread t).rest ≠ [] ∨ ∃ x ∈ q.injector, x.1 = t) := by
  induction hs with
  | refl => exact h
  | @tail b c _ h1 ih =>
    obtain ⟨ih1, ih2⟩ := ih
    have other : ∀ {s th}, t ≠ s → ((b.setThread s th).thread t).active = true ∧ (((b.setThread s th).thread t).rest ≠ [] ∨ ∃ x ∈ b.injector, x.1 = t) :=
      fun {s th} e => by
        rw [show (b.setThread s th).thread t = b.thread t by simp [MSt.setThread, e]]
        exact ⟨ih1, ih2⟩
    have h2 : ∀ {s}, (b.thread s).active = false → t ≠ s := fun ha e => by rw [← e, ih1] at ha; cases ha
    have h3 : ∀ {s}, (b.thread s).rest = [] → b.Gone 0 s → t ≠ s := by
      rintro s hr hg rfl
      rcases ih2 with h2 | ⟨x, hx, h2⟩
      · exact h2 hr
      · exact hg.injector x hx h2
    have h4 : ∀ {s j rest}, (b.thread s).rest = j :: rest → (((b.setThread s { b.thread s with rest }).thread t).active = true ∧
        (((b.setThread s { b.thread s with rest }).thread t).rest ≠ [] ∨ ∃ x ∈ b.injector ++ [(s, j)], x.1 = t)) := by
      intro s j rest _
      by_cases e : t = s
      · subst e
        simp [MSt.setThread, ih1]
      · refine ⟨(other e).1, (other e).2.imp id ?_⟩
        rintro ⟨x, hx, h⟩
        exact ⟨x, by simp [hx], h⟩
    cases h1 with
    | enter ht ha hc _ => exact other (h2 ha)
    | refuse ht ha hc _ => exact other (h2 ha)
    | inject ht hp hr => exact h4 hr
    | push _ hw _ _ => omega
    | pop hw _ _ => omega
    | steal hw _ _ _ _ => omega
    | take hw _ _ => omega
    | sender hw _ _ _ => omega
    | senderEnd hw _ _ _ => omega
    | spawnReceiver hw _ _ => omega
    | startEnd hw _ _ => omega
    | receiver hw _ _ => omega
    | receiverEnd hw _ _ _ => omega
    | leave ht ha hr hg _ _ _ => exact other (h3 hr hg)
    | leaveFail ht ha hr hg _ _ => exact other (h3 hr hg)

end RL.SplitWriter
