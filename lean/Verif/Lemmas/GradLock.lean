import Verif.Lemmas.Accum
import Verif.SpecGraph
import Mathlib.Data.List.Perm.Subperm

/-! Helper lemmas: gradient updates by several threads -/

namespace RL.GradLock

open RL Spec

variable {T : Type}

theorem addGrad_right_comm [AddCommMonoid T] {a b : Raw T} (h : a.shape = b.shape) (o : Option (Raw T)) :
    addGrad (addGrad o (some a)) (some b) = addGrad (addGrad o (some b)) (some a) := by
  cases o with
  | none =>
    simp only [addGrad]
    congr 2
    · apply List.zipWith_comm_of_comm
      intros
      exact add_comm _ _
  | some z =>
    simp only [addGrad]
    congr 2
    apply List.ext_getElem?
    intro k
    simp only [List.getElem?_zipWith]
    cases z.array[k]? <;> cases a.array[k]? <;> cases b.array[k]? <;> simp [add_right_comm]

theorem addAll_perm [AddCommMonoid T] {s : List Nat} {l l' : List (Raw T)} (h : l.Perm l') (hs : ∀ c ∈ l, c.shape = s)
    (o : Option (Raw T)) : addAll o l = addAll o l' := by
  unfold addAll
  refine h.foldl_eq' ?_ o
  intro x hx y hy z
  exact addGrad_right_comm ((hs x hx).trans (hs y hy).symm) z

/-- a gradient of this shape or none, if the shape is prescribed -/
def Fit (s : Option (List Nat)) (o : Option (Raw T)) : Prop := ∀ s', s = some s' → ∀ g, o = some g → g.shape = s' ∧ WF g

theorem Fit.addGrad [Add T] {s : Option (List Nat)} {o : Option (Raw T)} {c : Raw T} (ho : Fit s o) (hs : s = some c.shape) (hw : WF c) :
    Fit s (addGrad o (some c)) := by
  subst hs
  intro s' hs' g hg
  cases hs'
  cases o with
  | none =>
    cases hg
    exact ⟨rfl, hw⟩
  | some z =>
    cases hg
    obtain ⟨h1, h2⟩ := ho _ rfl z rfl
    refine ⟨h1, ?_⟩
    simp only [WF, List.length_zipWith] at *
    rw [h2, hw, h1, Nat.min_self]

theorem addGrad_assoc [AddCommMonoid T] (a b : Option (Raw T)) (c : Raw T) :
    addGrad (addGrad a b) (some c) = addGrad a (addGrad b (some c)) := by
  cases a with
  | none => cases b <;> rfl
  | some a =>
    cases b with
    | none => rfl
    | some b =>
      simp only [addGrad]
      congr 2
      apply List.ext_getElem?
      intro k
      simp only [List.getElem?_zipWith]
      cases a.array[k]? <;> cases b.array[k]? <;> cases c.array[k]? <;> simp [add_assoc]

theorem addGrad_none_right [Add T] (a : Option (Raw T)) : addGrad a none = a := by cases a <;> rfl

theorem addAll_eq [AddCommMonoid T] (o : Option (Raw T)) (l : List (Raw T)) : addAll o l = addGrad o (addAll none l) := by
  induction l using List.reverseRecOn with
  | nil => exact (addGrad_none_right o).symm
  | append_singleton l c ih =>
    simp only [addAll, List.foldl_append, List.foldl_cons, List.foldl_nil] at ih ⊢
    rw [ih, addGrad_assoc]

theorem addAll_append [Add T] (o : Option (Raw T)) (l l' : List (Raw T)) : addAll o (l ++ l') = addAll (addAll o l) l' := by
  simp [addAll]

/-- an update that fits -/
def FitUp (sh : Nat → Option (List Nat)) (u : Nat × Raw T) : Prop := sh u.1 = some u.2.shape ∧ WF u.2 ∧ Pos u.2.shape

theorem newGrad_fit [Zero T] [Add T] {s : Option (List Nat)} {o : Option (Raw T)} {c : Raw T} (ho : Fit s o) (hs : s = some c.shape)
    (hw : WF c) (hp : Pos c.shape) : ∃ v, newGrad o c = .ok v ∧ some v = addGrad o (some c) := by
  cases o with
  | none => exact ⟨c, rfl, rfl⟩
  | some z =>
    obtain ⟨h1, h2⟩ := ho _ hs z rfl
    exact ⟨_, addRaw_same h2 hw h1 (h1 ▸ hp), rfl⟩

def Thread.todo : Thread T → List (Nat × Raw T)
  | .run r => r
  | .reading t g r => (t, g) :: r
  | .computed t g _ r => (t, g) :: r
  | .panicked => []

theorem flatMap_set {α β : Type _} {f : α → List β} {l : List α} {i : Nat} {x : α} (h : l[i]? = some x) (y : α) :
    ∃ r, (l.flatMap f).Perm (f x ++ r) ∧ ((l.set i y).flatMap f).Perm (f y ++ r) := by
  obtain ⟨hi, rfl⟩ := List.getElem?_eq_some_iff.1 h
  have h1 := (List.getElem_cons_eraseIdx_perm hi).symm
  have h2 := (List.getElem_cons_eraseIdx_perm (l := l.set i y) (n := i) (by simpa using hi)).symm
  simp only [List.getElem_set_self, List.eraseIdx_set_eq] at h2
  refine ⟨(l.eraseIdx i).flatMap f, ?_, ?_⟩
  · simpa using h1.flatMap_right f
  · simpa using h2.flatMap_right f

theorem mem_set_cases {α : Type _} {l : List α} {i : Nat} {y z : α} (h : z ∈ l.set i y) : z = y ∨ z ∈ l := by
  rcases List.mem_or_eq_of_mem_set h with h | h
  · exact .inr h
  · exact .inl h

theorem contribsTo_perm {t : Nat} {l l' : List (Nat × Raw T)} (h : l.Perm l') : (contribsTo t l).Perm (contribsTo t l') :=
  (h.filter _).map _

/-- what holds in every reachable state; `W` are the contributions written so far -/
structure LInv [Zero T] [Add T] (sh : Nat → Option (List Nat)) (cell0 : Nat → Option (Raw T)) (ups : List (List (Nat × Raw T))) (s : LSt T)
    (W : Nat → List (Raw T)) : Prop where
  fit : ∀ t, Fit (sh t) (s.cell t)
  todo : ∀ x ∈ s.threads, ∀ u ∈ x.todo, FitUp sh u
  noPanic : Thread.panicked ∉ s.threads
  perm : ∀ t, (W t ++ contribsTo t (s.threads.flatMap Thread.todo)).Perm (contribsTo t ups.flatten)
  cell : ∀ t, ∃ S, S.Subperm (W t) ∧ (W t ≠ [] → S ≠ []) ∧ s.cell t = addAll (cell0 t) S
  comp : ∀ t g v rest, Thread.computed t g v rest ∈ s.threads → Fit (sh t) (some v) ∧ ∃ S, S.Subperm (W t) ∧
    some v = addAll (cell0 t) (S ++ [g])

theorem LInv.init [Zero T] [Add T] {sh : Nat → Option (List Nat)} {cell0 : Nat → Option (Raw T)} {ups : List (List (Nat × Raw T))}
    (hc : ∀ t, Fit (sh t) (cell0 t)) (hu : ∀ us ∈ ups, ∀ u ∈ us, FitUp sh u) :
    LInv sh cell0 ups (LSt.init cell0 ups) fun _ => [] where
  fit := hc
  todo x hx u hxu := by
    obtain ⟨us, h1, rfl⟩ := List.mem_map.1 hx
    exact hu us h1 u hxu
  noPanic h := by
    obtain ⟨us, h1, h2⟩ := List.mem_map.1 h
    cases h2
  perm t := by
    simp [LSt.init, List.flatMap_map, Thread.todo, List.flatMap_id']
  cell t := ⟨[], by simp, by simp, rfl⟩
  comp t g v rest h := by
    obtain ⟨us, h1, h2⟩ := List.mem_map.1 h
    cases h2

theorem LInv.step [Zero T] [Add T] {sh : Nat → Option (List Nat)} {cell0 : Nat → Option (Raw T)} {ups : List (List (Nat × Raw T))} {s s' : LSt T}
    {W : Nat → List (Raw T)} (h : LInv sh cell0 ups s W) (hs : LStep s s') : ∃ W', LInv sh cell0 ups s' W' := by
  have hperm : ∀ {i : Nat} {x y : Thread T}, s.threads[i]? = some x → y.todo = x.todo →
      ((s.threads.set i y).flatMap Thread.todo).Perm (s.threads.flatMap Thread.todo) := by
    intro i x y e hxy
    obtain ⟨r, h1, h2⟩ := flatMap_set (f := Thread.todo) e y
    rw [hxy] at h2
    exact h2.trans h1.symm
  have htodo : ∀ {i : Nat} {x y : Thread T}, s.threads[i]? = some x → (∀ u ∈ y.todo, u ∈ x.todo) →
      ∀ z ∈ s.threads.set i y, ∀ u ∈ z.todo, FitUp sh u := by
    intro i x y e hxy z hz u hu
    rcases mem_set_cases hz with rfl | hz
    · exact h.todo x (List.mem_of_getElem? e) u (hxy u hu)
    · exact h.todo z hz u hu
  cases hs with
  | @lock i t g rest e =>
    refine ⟨W, h.fit, htodo e (fun u hu => hu), ?_, ?_, h.cell, ?_⟩
    · intro hm
      rcases mem_set_cases hm with hm | hm
      · cases hm
      · exact h.noPanic hm
    · intro t'
      exact ((contribsTo_perm (hperm e (y := .reading t g rest) rfl)).append_left _).trans (h.perm t')
    · intro t' g' v' rest' hm
      rcases mem_set_cases hm with hm | hm
      · cases hm
      · exact h.comp t' g' v' rest' hm
  | @compute i t g v rest e hv =>
    have hf : FitUp sh (t, g) := h.todo _ (List.mem_of_getElem? e) (t, g) (by simp [Thread.todo])
    obtain ⟨v', h1, h2⟩ := newGrad_fit (h.fit t) hf.1 hf.2.1 hf.2.2
    rw [hv] at h1
    cases h1
    refine ⟨W, h.fit, htodo e (fun u hu => hu), ?_, ?_, h.cell, ?_⟩
    · intro hm
      rcases mem_set_cases hm with hm | hm
      · cases hm
      · exact h.noPanic hm
    · intro t'
      exact ((contribsTo_perm (hperm e (y := .computed t g v rest) rfl)).append_left _).trans (h.perm t')
    · intro t' g' v' rest' hm
      rcases mem_set_cases hm with hm | hm
      · cases hm
        obtain ⟨S, h3, _, h5⟩ := h.cell t
        refine ⟨?_, S, h3, ?_⟩
        · rw [h2]
          exact (h.fit t).addGrad hf.1 hf.2.1
        · rw [h2, h5, addAll_append]
          rfl
      · exact h.comp t' g' v' rest' hm
  | @panic i t g rest er e hv =>
    have hf : FitUp sh (t, g) := h.todo _ (List.mem_of_getElem? e) (t, g) (by simp [Thread.todo])
    obtain ⟨v', h1, _⟩ := newGrad_fit (h.fit t) hf.1 hf.2.1 hf.2.2
    rw [hv] at h1
    cases h1
  | @write i t g v rest e hnr =>
    obtain ⟨hfit, S, hS, hv⟩ := h.comp t g v rest (List.mem_of_getElem? e)
    refine ⟨Function.update W t (W t ++ [g]), ?_, htodo e (fun u hu => by simp [Thread.todo]; exact .inr hu), ?_, ?_, ?_, ?_⟩
    · intro t'
      by_cases htt : t' = t
      · subst htt
        simpa using hfit
      · simpa [Function.update_of_ne htt] using h.fit t'
    · intro hm
      rcases mem_set_cases hm with hm | hm
      · cases hm
      · exact h.noPanic hm
    · intro t'
      refine List.Perm.trans ?_ (h.perm t')
      obtain ⟨r, h1, h2⟩ := flatMap_set (f := Thread.todo) e (.run rest)
      simp only [Thread.todo] at h1 h2
      have h1' := contribsTo_perm (t := t') h1
      have h2' := contribsTo_perm (t := t') h2
      refine ((h2'.append_left _).trans ?_).trans (h1'.append_left _).symm
      by_cases htt : t' = t
      · subst htt
        simp [contribsTo]
      · simp [Function.update_of_ne htt, contribsTo, Ne.symm htt]
    · intro t'
      by_cases htt : t' = t
      · subst htt
        refine ⟨S ++ [g], ?_, by simp, by simpa using hv⟩
        simp only [Function.update_self]
        exact (List.subperm_append_right [g]).2 hS
      · simpa [Function.update_of_ne htt] using h.cell t'
    · intro t' g' v' rest' hm
      rcases mem_set_cases hm with hm | hm
      · cases hm
      · obtain ⟨h1, S', h2, h3⟩ := h.comp t' g' v' rest' hm
        refine ⟨h1, S', ?_, h3⟩
        by_cases htt : t' = t
        · subst htt
          simp only [Function.update_self]
          exact h2.trans (List.sublist_append_left _ _).subperm
        · simpa [Function.update_of_ne htt] using h2

theorem LReach.inv [Zero T] [Add T] {sh : Nat → Option (List Nat)} {cell0 : Nat → Option (Raw T)} {ups : List (List (Nat × Raw T))} {s : LSt T}
    (hc : ∀ t, Fit (sh t) (cell0 t)) (hu : ∀ us ∈ ups, ∀ u ∈ us, FitUp sh u)
    (h : Relation.ReflTransGen LStep (LSt.init cell0 ups) s) : ∃ W, LInv sh cell0 ups s W := by
  induction h with
  | refl => exact ⟨_, LInv.init hc hu⟩
  | tail _ hs ih =>
    obtain ⟨W, hi⟩ := ih
    exact hi.step hs

theorem LInv.done [Zero T] [Add T] {sh : Nat → Option (List Nat)} {cell0 : Nat → Option (Raw T)} {ups : List (List (Nat × Raw T))} {s : LSt T}
    {W : Nat → List (Raw T)} (h : LInv sh cell0 ups s W) (hd : s.Done) (t : Nat) : (W t).Perm (contribsTo t ups.flatten) := by
  have h1 := h.perm t
  have h2 : s.threads.flatMap Thread.todo = [] := by
    rw [List.flatMap_eq_nil_iff]
    intro x hx
    rw [hd x hx]
    rfl
  rw [h2] at h1
  simpa [contribsTo] using h1

/-- with exclusive sections nothing is lost -/
structure XInv [Zero T] [Add T] (sh : Nat → Option (List Nat)) (cell0 : Nat → Option (Raw T)) (ups : List (List (Nat × Raw T))) (s : LSt T)
    (W : Nat → List (Raw T)) : Prop extends LInv sh cell0 ups s W where
  excl : s.Exclusive
  all : ∀ t, s.cell t = addAll (cell0 t) (W t)
  fresh : ∀ t g v rest, Thread.computed t g v rest ∈ s.threads → some v = addGrad (s.cell t) (some g)

theorem XInv.init [Zero T] [Add T] {sh : Nat → Option (List Nat)} {cell0 : Nat → Option (Raw T)} {ups : List (List (Nat × Raw T))}
    (hc : ∀ t, Fit (sh t) (cell0 t)) (hu : ∀ us ∈ ups, ∀ u ∈ us, FitUp sh u) :
    XInv sh cell0 ups (LSt.init cell0 ups) fun _ => [] where
  toLInv := LInv.init hc hu
  excl i j t x y hx _ hxt _ := by
    obtain ⟨us, _, rfl⟩ := List.mem_map.1 (List.mem_of_getElem? hx)
    exact hxt.elim
  all _ := rfl
  fresh t g v rest h := by
    obtain ⟨us, h1, h2⟩ := List.mem_map.1 h
    cases h2

theorem XInv.step [Zero T] [Add T] {sh : Nat → Option (List Nat)} {cell0 : Nat → Option (Raw T)} {ups : List (List (Nat × Raw T))} {s s' : LSt T}
    {W : Nat → List (Raw T)} (h : XInv sh cell0 ups s W) (hs : XStep s s') : ∃ W', XInv sh cell0 ups s' W' := by
  obtain ⟨hs, hx⟩ := hs
  have hstep := h.toLInv.step hs
  cases hs with
  | @lock i t g rest e =>
    refine ⟨W, ⟨?_, hx, h.all, ?_⟩⟩
    · obtain ⟨W', hW⟩ := hstep
      have hp : ((s.threads.set i (.reading t g rest)).flatMap Thread.todo).Perm (s.threads.flatMap Thread.todo) := by
        obtain ⟨r, h1, h2⟩ := flatMap_set (f := Thread.todo) e (.reading t g rest)
        exact h2.trans h1.symm
      exact ⟨hW.fit, hW.todo, hW.noPanic, fun t' => ((contribsTo_perm hp).append_left _).trans (h.perm t'), h.cell, fun t' g' v' r' hm => by
        rcases mem_set_cases hm with hm | hm
        · cases hm
        · exact h.comp t' g' v' r' hm⟩
    · intro t' g' v' r' hm
      rcases mem_set_cases hm with hm | hm
      · cases hm
      · exact h.fresh t' g' v' r' hm
  | @compute i t g v rest e hv =>
    have hf : FitUp sh (t, g) := h.todo _ (List.mem_of_getElem? e) (t, g) (by simp [Thread.todo])
    obtain ⟨v', h1, h2⟩ := newGrad_fit (h.fit t) hf.1 hf.2.1 hf.2.2
    rw [hv] at h1
    cases h1
    refine ⟨W, ⟨?_, hx, h.all, ?_⟩⟩
    · obtain ⟨W', hW⟩ := hstep
      have hp : ((s.threads.set i (.computed t g v rest)).flatMap Thread.todo).Perm (s.threads.flatMap Thread.todo) := by
        obtain ⟨r, h1, h2⟩ := flatMap_set (f := Thread.todo) e (.computed t g v rest)
        exact h2.trans h1.symm
      exact ⟨hW.fit, hW.todo, hW.noPanic, fun t' => ((contribsTo_perm hp).append_left _).trans (h.perm t'), h.cell, fun t' g' v' r' hm => by
        rcases mem_set_cases hm with hm | hm
        · cases hm
          refine ⟨(hW.comp t g v rest (List.mem_of_getElem? (i := i) (List.getElem?_set_self (List.getElem?_eq_some_iff.1 e).1))).1, W t,
            List.Subperm.refl _, ?_⟩
          rw [h2, h.all t, addAll_append]
          rfl
        · exact h.comp t' g' v' r' hm⟩
    · intro t' g' v' r' hm
      rcases mem_set_cases hm with hm | hm
      · cases hm
        exact h2
      · exact h.fresh t' g' v' r' hm
  | @panic i t g rest er e hv =>
    have hf : FitUp sh (t, g) := h.todo _ (List.mem_of_getElem? e) (t, g) (by simp [Thread.todo])
    obtain ⟨v', h1, _⟩ := newGrad_fit (h.fit t) hf.1 hf.2.1 hf.2.2
    rw [hv] at h1
    cases h1
  | @write i t g v rest e hnr =>
    have hfr := h.fresh t g v rest (List.mem_of_getElem? e)
    have hother : ∀ g' v' r', Thread.computed t g' v' r' ∉ s.threads.set i (.run rest) := by
      intro g' v' r' hm
      obtain ⟨j, hj⟩ := List.getElem?_of_mem hm
      by_cases hij : i = j
      · subst hij
        rw [List.getElem?_set_self (List.getElem?_eq_some_iff.1 e).1] at hj
        cases hj
      · rw [List.getElem?_set_ne hij] at hj
        exact hij (h.excl i j t _ _ e hj rfl rfl)
    refine ⟨Function.update W t (W t ++ [g]), ⟨?_, hx, ?_, ?_⟩⟩
    · obtain ⟨W', hW⟩ := hstep
      refine ⟨hW.fit, hW.todo, hW.noPanic, ?_, ?_, ?_⟩
      · intro t'
        refine List.Perm.trans ?_ (h.perm t')
        obtain ⟨r, h1, h2⟩ := flatMap_set (f := Thread.todo) e (.run rest)
        simp only [Thread.todo] at h1 h2
        have h1' := contribsTo_perm (t := t') h1
        have h2' := contribsTo_perm (t := t') h2
        refine ((h2'.append_left _).trans ?_).trans (h1'.append_left _).symm
        by_cases htt : t' = t
        · subst htt
          simp [contribsTo]
        · simp [Function.update_of_ne htt, contribsTo, Ne.symm htt]
      · intro t'
        by_cases htt : t' = t
        · subst htt
          refine ⟨W t' ++ [g], by simpa using List.Subperm.refl _, by simp, ?_⟩
          simp only [Function.update_self]
          rw [hfr, h.all t', addAll_append]
          rfl
        · simpa [Function.update_of_ne htt] using h.cell t'
      · intro t' g' v' r' hm
        by_cases htt : t' = t
        · subst htt
          exact absurd hm (hother g' v' r')
        · rcases mem_set_cases hm with hm | hm
          · cases hm
          · simpa [Function.update_of_ne htt] using h.comp t' g' v' r' hm
    · intro t'
      by_cases htt : t' = t
      · subst htt
        simp only [Function.update_self]
        rw [hfr, h.all t', addAll_append]
        rfl
      · simpa [Function.update_of_ne htt] using h.all t'
    · intro t' g' v' r' hm
      by_cases htt : t' = t
      · subst htt
        exact absurd hm (hother g' v' r')
      · rcases mem_set_cases hm with hm | hm
        · cases hm
        · simpa [Function.update_of_ne htt] using h.fresh t' g' v' r' hm

theorem XReach.inv [Zero T] [Add T] {sh : Nat → Option (List Nat)} {cell0 : Nat → Option (Raw T)} {ups : List (List (Nat × Raw T))} {s : LSt T}
    (hc : ∀ t, Fit (sh t) (cell0 t)) (hu : ∀ us ∈ ups, ∀ u ∈ us, FitUp sh u)
    (h : Relation.ReflTransGen XStep (LSt.init cell0 ups) s) : ∃ W, XInv sh cell0 ups s W := by
  induction h with
  | refl => exact ⟨_, XInv.init hc hu⟩
  | tail _ hs ih =>
    obtain ⟨W, hi⟩ := ih
    exact hi.step hs

/-- as long as a thread has something to do, some step is possible -/
theorem LSt.progress [Zero T] [Add T] {s : LSt T} (hn : Thread.panicked ∉ s.threads) (hd : ¬ s.Done) : ∃ s', LStep s s' := by
  by_cases h1 : ∃ t g rest, Thread.reading t g rest ∈ s.threads
  · obtain ⟨t, g, rest, hm⟩ := h1
    obtain ⟨i, hi⟩ := List.getElem?_of_mem hm
    cases hv : newGrad (s.cell t) g with
    | ok v => exact ⟨_, .compute hi hv⟩
    | error e => exact ⟨_, .panic hi hv⟩
  · push Not at h1
    by_cases h2 : ∃ t g v rest, Thread.computed t g v rest ∈ s.threads
    · obtain ⟨t, g, v, rest, hm⟩ := h2
      obtain ⟨i, hi⟩ := List.getElem?_of_mem hm
      refine ⟨_, .write hi ?_⟩
      intro x hx hr
      cases x with
      | reading t' g' r' => exact h1 t' g' r' hx
      | _ => exact hr
    · push Not at h2
      unfold LSt.Done at hd
      push Not at hd
      obtain ⟨x, hx, hne⟩ := hd
      obtain ⟨i, hi⟩ := List.getElem?_of_mem hx
      match x, hx, hne, hi with
      | .run [], _, hne, _ => exact absurd rfl hne
      | .run ((t, g) :: rest), _, _, hi => exact ⟨_, .lock hi⟩
      | .reading t g r, hx, _, _ => exact absurd hx (h1 t g r)
      | .computed t g v r, hx, _, _ => exact absurd hx (h2 t g v r)
      | .panicked, hx, _, _ => exact absurd hx hn

def tweight : Thread T → Nat
  | .run r => 3 * r.length
  | .reading _ _ r => 3 * r.length + 2
  | .computed _ _ _ r => 3 * r.length + 1
  | .panicked => 0

theorem tweight_set {l : List (Thread T)} {i : Nat} {x : Thread T} (h : l[i]? = some x) (y : Thread T) (hlt : tweight y < tweight x) :
    ((l.set i y).map tweight).sum < (l.map tweight).sum := by
  obtain ⟨hi, rfl⟩ := List.getElem?_eq_some_iff.1 h
  have h1 := (List.getElem_cons_eraseIdx_perm hi).symm
  have h2 := (List.getElem_cons_eraseIdx_perm (l := l.set i y) (n := i) (by simpa using hi)).symm
  simp only [List.getElem_set_self, List.eraseIdx_set_eq] at h2
  rw [(h1.map tweight).sum_eq, (h2.map tweight).sum_eq]
  simp
  exact hlt

theorem LStep.weight_lt [Zero T] [Add T] {s s' : LSt T} (h : LStep s s') :
    (s'.threads.map tweight).sum < (s.threads.map tweight).sum := by
  cases h with
  | lock e => exact tweight_set e _ (by simp [tweight]; omega)
  | compute e _ => exact tweight_set e _ (by simp [tweight])
  | panic e _ => exact tweight_set e _ (by simp [tweight])
  | write e _ => exact tweight_set e _ (by simp [tweight])

end RL.GradLock
