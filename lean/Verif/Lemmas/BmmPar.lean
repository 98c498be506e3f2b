import Verif.Model.BmmPar
import Verif.Lemmas.Bmm
import Mathlib.Logic.Relation

/-! Helper lemmas: the task machine of `bmm_raw` -/

namespace RL.BmmPar

open RL Spec

variable {T : Type} [Zero T] [Add T] [Mul T]

/-- the value of the first `k` iterations -/
def partialFold (J : Job T) (p : Nat × Nat) (j k : Nat) : R T :=
  (List.range k).foldlM (init := (0 : T)) (fun val k => do
    let f ← J.factors p j k
    return val + f.1 * f.2)

theorem partialFold_zero (J : Job T) (p : Nat × Nat) (j : Nat) : partialFold J p j 0 = .ok 0 := rfl

theorem partialFold_succ (J : Job T) (p : Nat × Nat) (j k : Nat) :
    partialFold J p j (k + 1) = (do
      let val ← partialFold J p j k
      let f ← J.factors p j k
      return val + f.1 * f.2) := by
  unfold partialFold
  rw [List.range_succ, List.foldlM_append]
  simp

theorem partialFold_error (J : Job T) (p : Nat × Nat) (j k : Nat) {e : Fail} (h : J.factors p j k = .error e) :
    ∀ n, k < n → ∃ e', partialFold J p j n = .error e' := by
  intro n
  induction n with
  | zero => intro h; omega
  | succ n ih =>
    intro hk
    rw [partialFold_succ]
    by_cases hkn : k = n
    · subst hkn
      cases hp : partialFold J p j k with
      | error e' => exact ⟨e', rfl⟩
      | ok v => exact ⟨e, by simp [h]⟩
    · obtain ⟨e', he⟩ := ih (by omega)
      exact ⟨e', by rw [he]; rfl⟩

/-- the value the task of a slot computes -/
def slotVal (J : Job T) (p : Nat × Nat) (j : Nat) : R T := partialFold J p j J.inner

/-- what holds in every reachable state -/
structure Inv (J : Job T) (s : St T) : Prop where
  row_le : s.row ≤ J.rows.length
  len : s.arr.length = J.rows.length * J.ncol
  tlen : s.tasks.length ≤ J.ncol
  old : ∀ q p, q < s.row → J.rows[q]? = some p → ∀ j < J.ncol, ∃ v, slotVal J p j = .ok v ∧
    s.arr[q * J.ncol + j]? = some v
  cur : ∀ p, J.rows[s.row]? = some p → ∀ (j : Nat) (t : Task T), s.tasks[j]? = some t →
    match t with
    | .run k val => k ≤ J.inner ∧ partialFold J p j k = .ok val
    | .done => ∃ v, slotVal J p j = .ok v ∧ s.arr[s.row * J.ncol + j]? = some v
    | .failed => ∃ e, slotVal J p j = .error e
  tasks_nil : s.row = J.rows.length → s.tasks = []
  panic : s.panicked = true → ∃ p ∈ J.rows, ∃ j < J.ncol, ∃ e, slotVal J p j = .error e

theorem Inv.init (J : Job T) : Inv J (St.init J) where
  row_le := Nat.zero_le _
  len := by simp [St.init]
  tlen := by simp [St.init]
  old := by intro q p h; simp [St.init] at h
  cur := by intro p _ j t h; simp [St.init] at h
  tasks_nil := fun _ => rfl
  panic := by simp [St.init]

theorem Inv.step {J : Job T} {s s' : St T} (hs : Inv J s) (h : Step J s s') : Inv J s' := by
  cases h with
  | spawn hp hr ht =>
    refine { hs with tlen := by simp; omega, cur := ?_, tasks_nil := by intro h; simp only at h; omega }
    intro p hrow j t hj
    simp only at hj
    rw [List.getElem?_append] at hj
    split at hj
    · exact hs.cur p hrow j t hj
    · rw [List.getElem?_singleton] at hj
      split at hj
      · simp only [Option.some.injEq] at hj
        subst hj
        exact ⟨Nat.zero_le _, rfl⟩
      · cases hj
  | iter p j k val a b hp hr ht hk hf =>
    refine { hs with tlen := by simpa using hs.tlen, cur := ?_, tasks_nil := ?_ }
    · intro p' hrow j' t hj
      simp only at hrow hj
      rw [hr, Option.some.injEq] at hrow
      subst hrow
      rw [List.getElem?_set] at hj
      split at hj
      · rename_i he
        subst he
        split at hj
        · simp only [Option.some.injEq] at hj
          subst hj
          have := hs.cur p hr j _ ht
          refine ⟨by omega, ?_⟩
          rw [partialFold_succ, this.2, R.bind_ok, hf]
          rfl
        · cases hj
      · exact hs.cur p hr j' t hj
    · intro h
      have := hs.tasks_nil h
      rw [this] at ht
      simp at ht
  | fail p j k val e hp hr ht hk hf =>
    refine { hs with tlen := by simpa using hs.tlen, cur := ?_, tasks_nil := ?_ }
    · intro p' hrow j' t hj
      simp only at hrow hj
      rw [hr, Option.some.injEq] at hrow
      subst hrow
      rw [List.getElem?_set] at hj
      split at hj
      · rename_i he
        subst he
        split at hj
        · simp only [Option.some.injEq] at hj
          subst hj
          exact partialFold_error J p j k hf _ hk
        · cases hj
      · exact hs.cur p hr j' t hj
    · intro h
      have := hs.tasks_nil h
      rw [this] at ht
      simp at ht
  | write j val hp hr ht =>
    have hjlt : j < s.tasks.length := (List.getElem?_eq_some_iff.1 ht).1
    have hjn : j < J.ncol := Nat.lt_of_lt_of_le hjlt hs.tlen
    have hpos : s.row * J.ncol + j < s.arr.length := by
      rw [hs.len]
      calc s.row * J.ncol + j < s.row * J.ncol + J.ncol := by omega
        _ = (s.row + 1) * J.ncol := by rw [Nat.succ_mul]
        _ ≤ J.rows.length * J.ncol := Nat.mul_le_mul_right _ hr
    refine { hs with len := by simpa using hs.len, tlen := by simpa using hs.tlen, old := ?_, cur := ?_,
                     tasks_nil := by intro h; simp only at h; omega }
    · intro q p hq hrow j' hj'
      obtain ⟨v, h1, h2⟩ := hs.old q p hq hrow j' hj'
      refine ⟨v, h1, ?_⟩
      simp only
      rw [List.getElem?_set, if_neg]
      · exact h2
      · simp only at hq
        have : (q + 1) * J.ncol ≤ s.row * J.ncol := Nat.mul_le_mul_right _ hq
        rw [Nat.succ_mul] at this
        omega
    · intro p hrow j' t hj
      simp only at hrow hj
      rw [List.getElem?_set] at hj
      split at hj
      · rename_i he
        subst he
        simp only [Option.some.injEq] at hj
        subst hj
        refine ⟨val, (hs.cur p hrow j _ ht).2, ?_⟩
        simp [hpos]
      · rename_i hne
        have := hs.cur p hrow j' t hj
        cases t with
        | run k v => exact this
        | failed => exact this
        | done =>
          obtain ⟨v, h1, h2⟩ := this
          refine ⟨v, h1, ?_⟩
          simp only
          rw [List.getElem?_set, if_neg (by omega)]
          exact h2
  | join hp hr hl hd =>
    refine { hs with row_le := hr, tlen := by simp, old := ?_, cur := by intro p _ j t h; simp at h,
                     tasks_nil := fun _ => rfl }
    intro q p hq hrow j hj
    simp only at hq
    by_cases hlt : q < s.row
    · exact hs.old q p hlt hrow j hj
    · have he : q = s.row := by omega
      subst he
      have hjl : j < s.tasks.length := by omega
      have ht : s.tasks[j]? = some s.tasks[j] := List.getElem?_eq_getElem hjl
      have hc := hs.cur p hrow j _ ht
      have hdj := hd _ (List.getElem_mem hjl)
      generalize s.tasks[j] = t at *
      cases t with
      | run k v => simp [Task.isDone] at hdj
      | failed => simp [Task.isDone] at hdj
      | done => exact hc
  | joinFail hp hr hl hn hx =>
    refine { hs with panic := fun _ => ?_ }
    obtain ⟨t, htm, htd⟩ := hx
    obtain ⟨j, hj, rfl⟩ := List.mem_iff_getElem.1 htm
    have ht : s.tasks[j]? = some s.tasks[j] := List.getElem?_eq_getElem hj
    have hrun := hn _ htm
    refine ⟨J.rows[s.row], List.getElem_mem hr, j, by omega, ?_⟩
    have hc := hs.cur J.rows[s.row] (List.getElem?_eq_getElem hr) j _ ht
    generalize s.tasks[j] = t at *
    cases t with
    | run k v => simp [Task.isRun] at hrun
    | done => simp [Task.isDone] at htd
    | failed => exact hc

theorem Inv.reach {J : Job T} {s : St T} (h : Relation.ReflTransGen (Step J) (St.init J) s) : Inv J s := by
  induction h with
  | refl => exact Inv.init J
  | tail _ hst ih => exact ih.step hst

/-! ### progress -/

/-- remaining work of a task -/
def Task.cost (n : Nat) : Task T → Nat
  | .run k _ => n - k + 1
  | _ => 0

def St.measure (J : Job T) (s : St T) : Nat :=
  if s.panicked then 0
  else if s.row < J.rows.length then
    2 + (J.rows.length - s.row - 1) * (J.ncol * (J.inner + 2) + 2) + (J.ncol - s.tasks.length) * (J.inner + 2)
      + (s.tasks.map (Task.cost J.inner)).sum
  else 0

theorem sum_map_set {α : Type _} (f : α → Nat) (l : List α) (j : Nat) (a b : α) (h : l[j]? = some a) :
    ((l.set j b).map f).sum + f a = (l.map f).sum + f b := by
  induction l generalizing j with
  | nil => simp at h
  | cons x l ih =>
    cases j with
    | zero => simp at h; subst h; simp; omega
    | succ j =>
      simp only [List.getElem?_cons_succ] at h
      have := ih j h
      simp only [List.set_cons_succ, List.map_cons, List.sum_cons]
      omega

theorem Step.measure_lt {J : Job T} {s s' : St T} (h : Step J s s') : s'.measure J < s.measure J := by
  cases h with
  | spawn hp hr ht =>
    simp only [St.measure, hp, hr, if_true, Bool.false_eq_true, if_false, List.map_append, List.sum_append,
      List.length_append, List.length_singleton, List.map_singleton, List.sum_singleton, Task.cost]
    have : J.ncol - s.tasks.length = (J.ncol - (s.tasks.length + 1)) + 1 := by omega
    rw [this, Nat.succ_mul]
    omega
  | iter p j k val a b hp hr ht hk hf =>
    have hr' : s.row < J.rows.length := (List.getElem?_eq_some_iff.1 hr).1
    have := sum_map_set (Task.cost J.inner) s.tasks j _ (.run (k + 1) (val + a * b)) ht
    simp only [Task.cost] at this
    simp only [St.measure, hp, hr', if_true, Bool.false_eq_true, if_false, List.length_set]
    omega
  | fail p j k val e hp hr ht hk hf =>
    have hr' : s.row < J.rows.length := (List.getElem?_eq_some_iff.1 hr).1
    have := sum_map_set (Task.cost J.inner) s.tasks j _ .failed ht
    simp only [Task.cost] at this
    simp only [St.measure, hp, hr', if_true, Bool.false_eq_true, if_false, List.length_set]
    omega
  | write j val hp hr ht =>
    have := sum_map_set (Task.cost J.inner) s.tasks j _ .done ht
    simp only [Task.cost] at this
    simp only [St.measure, hp, hr, if_true, Bool.false_eq_true, if_false, List.length_set]
    omega
  | join hp hr hl hd =>
    simp only [St.measure, hp, hr, if_true, Bool.false_eq_true, if_false]
    split
    · have : J.rows.length - s.row - 1 = (J.rows.length - (s.row + 1) - 1) + 1 := by omega
      rw [this, Nat.succ_mul]
      simp
      omega
    · omega
  | joinFail hp hr hl hn hx =>
    simp only [St.measure, hp, hr, if_true, Bool.false_eq_true, if_false]
    omega

theorem Inv.progress {J : Job T} {s : St T} (hs : Inv J s) (hp : s.panicked = false) (hf : ¬ s.Finished J) :
    ∃ s', Step J s s' := by
  have hr : s.row < J.rows.length := by
    have := hs.row_le
    by_contra hc
    exact hf ⟨by omega, hp⟩
  by_cases ht : s.tasks.length < J.ncol
  · exact ⟨_, .spawn s hp hr ht⟩
  have hl : s.tasks.length = J.ncol := by have := hs.tlen; omega
  by_cases hrun : ∀ t ∈ s.tasks, t.isRun = false
  · by_cases hdone : ∀ t ∈ s.tasks, t.isDone = true
    · exact ⟨_, .join s hp hr hl hdone⟩
    · refine ⟨_, .joinFail s hp hr hl hrun ?_⟩
      push Not at hdone
      obtain ⟨t, h1, h2⟩ := hdone
      exact ⟨t, h1, by simpa using h2⟩
  · push Not at hrun
    obtain ⟨t, htm, ht'⟩ := hrun
    obtain ⟨j, hj, rfl⟩ := List.mem_iff_getElem.1 htm
    have ht : s.tasks[j]? = some s.tasks[j] := List.getElem?_eq_getElem hj
    have hrow : J.rows[s.row]? = some J.rows[s.row] := List.getElem?_eq_getElem hr
    have hc := hs.cur _ hrow j _ ht
    generalize s.tasks[j] = t at *
    cases t with
    | done => simp [Task.isRun] at ht'
    | failed => simp [Task.isRun] at ht'
    | run k val =>
      by_cases hk : k < J.inner
      · cases hfac : J.factors J.rows[s.row] j k with
        | ok f => exact ⟨_, .iter s _ j k val f.1 f.2 hp hrow ht hk hfac⟩
        | error e => exact ⟨_, .fail s _ j k val e hp hrow ht hk hfac⟩
      · have : k = J.inner := by have := hc.1; omega
        subst this
        exact ⟨_, .write s j val hp hr ht⟩

/-! ### the sequential program -/

theorem foldlM_append_rows {α β : Type _} (g : α → R (List β)) (l : List α) (acc : List β) :
    l.foldlM (fun acc a => do let v ← g a; return acc ++ v) acc
      = (do let r ← l.mapM g; return acc ++ r.flatten) := by
  induction l generalizing acc with
  | nil => simp
  | cons a l ih =>
    rw [List.foldlM_cons, List.mapM_cons]
    cases h : g a with
    | error e => rfl
    | ok v =>
      simp only [R.bind_ok]
      refine (ih _).trans ?_
      cases l.mapM g <;> simp

theorem foldlM_nested {α β γ σ : Type _} (f : σ → γ → R σ) (h : α → β → γ) (bs : List β) (as : List α) (s : σ) :
    as.foldlM (fun s a => bs.foldlM (fun s b => f s (h a b)) s) s
      = (as.flatMap (fun a => bs.map (fun b => h a b))).foldlM f s := by
  induction as generalizing s with
  | nil => rfl
  | cons a as ih =>
    rw [List.foldlM_cons, List.flatMap_cons, List.foldlM_append, List.foldlM_map]
    congr 1
    funext s
    exact ih s

theorem bmmEntry_slotVal (l r : TL T) (nb nrow ncol inner : Nat) (p : Nat × Nat) (j : Nat) :
    bmmEntry l r (bmmLeftIndex l p.1 p.2) r.shape inner j = slotVal (job l r nb nrow ncol inner) p j := by
  unfold bmmEntry slotVal partialFold job
  simp only
  congr 1
  funext val k
  cases unwrapR (l.get ((bmmLeftIndex l p.1 p.2).set ((bmmLeftIndex l p.1 p.2).length - 1) k)) with
  | error e => rfl
  | ok a =>
    simp only [R.bind_ok]
    cases unwrapR (r.get ((r.shape.set 1 j).set 0 k)) <;> rfl

/-- `bmm_raw` in terms of the slots -/
theorem bmmRaw_slots {l r : TL T} {nb nrow ncol inner : Nat} (hc : bmmChecks l r = .ok ())
    (hs : bmmShape l r = .ok [nb, nrow, ncol]) (hi : idxR r.shape 0 = .ok inner) :
    bmmRaw l r = (do
      let rows ← (job l r nb nrow ncol inner).rows.mapM (fun p =>
        (List.range ncol).mapM (fun j => slotVal (job l r nb nrow ncol inner) p j))
      return { array := rows.flatten, shape := if l.shape.length = 2 then [nrow, ncol] else [nb, nrow, ncol] }) := by
  unfold bmmRaw
  rw [hc, hs, hi]
  simp only [R.bind_ok]
  simp only [R.bind_ok, idxR, List.getElem?_cons_zero, List.getElem?_cons_succ]
  have h1 := foldlM_nested (σ := List T) (fun (acc : List T) (p : Nat × Nat) => do
    let row ← (List.range ncol).mapM (fun j => bmmEntry l r (bmmLeftIndex l p.1 p.2) r.shape inner j)
    return acc ++ row) (fun b i => (b, i)) (List.range nrow) (List.range nb) []
  simp only at h1
  rw [h1]
  simp only [bmmEntry_slotVal l r nb nrow ncol inner]
  rw [foldlM_append_rows (fun p => (List.range ncol).mapM (fun j => slotVal (job l r nb nrow ncol inner) p j))]
  rw [show (job l r nb nrow ncol inner).rows = (List.range nb).flatMap (fun b => (List.range nrow).map (fun i => (b, i)))
    from rfl]
  generalize ((List.range nb).flatMap (fun b => (List.range nrow).map (fun i => (b, i)))).mapM
    (fun p => (List.range ncol).mapM (fun j => slotVal (job l r nb nrow ncol inner) p j)) = rs
  cases rs with
  | error e => rfl
  | ok rows =>
    simp only [R.bind_ok, R.pure_eq, List.nil_append, List.drop_succ_cons, List.drop_zero]
    split <;> rfl

/-- the slots in order, from a result -/
theorem slots_ok {J : Job T} {rows : List (List T)}
    (h : J.rows.mapM (fun p => (List.range J.ncol).mapM (fun j => slotVal J p j)) = .ok rows) :
    rows.flatten.length = J.rows.length * J.ncol ∧
    ∀ q p, J.rows[q]? = some p → ∀ j < J.ncol, ∃ v, slotVal J p j = .ok v ∧
      rows.flatten[q * J.ncol + j]? = some v := by
  have h' := mapM_ok_iff.1 h
  have hw : ∀ row ∈ rows, row.length = J.ncol := by
    intro row hrow
    obtain ⟨q, hq, rfl⟩ := List.mem_iff_getElem.1 hrow
    have := (List.forall₂_iff_get.1 h').2 q (by rw [h'.length_eq]; exact hq) hq
    have := (mapM_ok_iff.1 this).length_eq
    simpa using this.symm
  have hflat : rows.flatten = rows.flatMap id := by simp [List.flatMap_id]
  constructor
  · rw [h'.length_eq, List.length_flatten]
    clear h h' hflat
    induction rows with
    | nil => simp
    | cons a rows ih =>
      simp only [List.map_cons, List.sum_cons, List.length_cons, Nat.succ_mul]
      rw [ih (fun row hr => hw row (by simp [hr])), hw a (by simp)]
      omega
  · intro q p hp j hj
    obtain ⟨hq, rfl⟩ := List.getElem?_eq_some_iff.1 hp
    have hq' : q < rows.length := by rw [← h'.length_eq]; exact hq
    have := (List.forall₂_iff_get.1 h').2 q hq hq'
    have h2 := mapM_ok_iff.1 this
    have hlen := h2.length_eq
    have hj1 : j < (List.range J.ncol).length := by simpa using hj
    have hj2 : j < (rows.get ⟨q, hq'⟩).length := by rw [← hlen]; exact hj1
    have h3 := (List.forall₂_iff_get.1 h2).2 j hj1 hj2
    refine ⟨(rows.get ⟨q, hq'⟩).get ⟨j, hj2⟩, ?_, ?_⟩
    · simpa using h3
    · rw [hflat, flatMap_getElem? _ _ J.ncol (by simpa using hw) _ _ hj]
      simp [hq']

theorem slots_all_ok {J : Job T} (h : ∀ p ∈ J.rows, ∀ j < J.ncol, ∃ v, slotVal J p j = .ok v) :
    ∃ rows, J.rows.mapM (fun p => (List.range J.ncol).mapM (fun j => slotVal J p j)) = .ok rows := by
  apply mapM_exists
  intro p hp
  apply mapM_exists
  intro j hj
  exact h p hp j (List.mem_range.1 hj)

end RL.BmmPar
