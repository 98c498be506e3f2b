import Verif.Lemmas.GradLock2

/-! Helper lemmas: particular interleavings of gradient updates -/

namespace RL.GradLock

open RL Spec

variable {T : Type}

/-- no thread holds a read lock -/
def NoReads (l : List (Thread T)) : Prop := ∀ x ∈ l, ∀ t, ¬ x.Reads t

theorem NoReads.set {l : List (Thread T)} (h : NoReads l) (i : Nat) {x : Thread T} (hx : ∀ t, ¬ x.Reads t) : NoReads (l.set i x) := by
  intro y hy t
  rcases mem_set_cases hy with rfl | hy
  · exact hx t
  · exact h y hy t

theorem noReads_run (ups : List (List (Nat × Raw T))) : NoReads (ups.map Thread.run) := by
  intro x hx t
  obtain ⟨_, _, rfl⟩ := List.mem_map.1 hx
  exact fun h => h

section
variable [Zero T] [Add T] {sh : Nat → Option (List Nat)}

/-- a thread performs one update, the others wait -/
theorem reach_one {c : Nat → Option (Raw T)} {l : List (Thread T)} {i t : Nat} {g : Raw T} {rest : List (Nat × Raw T)} (hl : NoReads l)
    (hi : l[i]? = some (.run ((t, g) :: rest))) (hg : FitUp sh (t, g)) (hc : Fit (sh t) (c t)) :
    Relation.ReflTransGen LStep ⟨c, l⟩ ⟨Function.update c t (addGrad (c t) (some g)), l.set i (.run rest)⟩ := by
  have hlen := (List.getElem?_eq_some_iff.1 hi).1
  obtain ⟨v, h1, h2⟩ := newGrad_fit hc hg.1 hg.2.1 hg.2.2
  refine .head (.lock (s := ⟨c, l⟩) hi) ?_
  refine .head (.compute (i := i) (t := t) (g := g) (rest := rest) (v := v) (by simp [hlen]) h1) ?_
  refine .head (.write (i := i) (t := t) (g := g) (rest := rest) (v := v) (by simp [hlen]) ?_) ?_
  · intro x hx
    simp only [List.set_set] at hx
    exact (hl.set i (x := .computed t g v rest) (fun _ h => h)) x hx t
  · simp only [List.set_set, h2]
    exact .refl

theorem contribsTo_cons_eq (t : Nat) (g : Raw T) (us : List (Nat × Raw T)) : contribsTo t ((t, g) :: us) = g :: contribsTo t us := by
  simp [contribsTo]

theorem contribsTo_cons_ne {t t' : Nat} (h : t' ≠ t) (g : Raw T) (us : List (Nat × Raw T)) : contribsTo t ((t', g) :: us) = contribsTo t us := by
  simp [contribsTo, h]

theorem fit_update {c : Nat → Option (Raw T)} (hc : ∀ t, Fit (sh t) (c t)) {t : Nat} {g : Raw T} (hg : FitUp sh (t, g)) :
    ∀ t', Fit (sh t') (Function.update c t (addGrad (c t) (some g)) t') := by
  intro t'
  by_cases h : t' = t
  · subst h
    rw [Function.update_self]
    exact (hc t').addGrad hg.1 hg.2.1
  · rw [Function.update_of_ne h]
    exact hc t'

/-- a thread performs several updates, the others wait -/
theorem reach_many {rest : List (Nat × Raw T)} {i : Nat} : ∀ {us : List (Nat × Raw T)} {c : Nat → Option (Raw T)} {l : List (Thread T)}, NoReads l →
    l[i]? = some (.run (us ++ rest)) → (∀ u ∈ us, FitUp sh u) → (∀ t, Fit (sh t) (c t)) →
    Relation.ReflTransGen LStep ⟨c, l⟩ ⟨fun t => addAll (c t) (contribsTo t us), l.set i (.run rest)⟩ ∧
      ∀ t, Fit (sh t) (addAll (c t) (contribsTo t us)) := by
  intro us
  induction us with
  | nil =>
    intro c l _ hi _ hc
    refine ⟨?_, hc⟩
    have : l.set i (.run rest) = l := by
      obtain ⟨h1, h2⟩ := List.getElem?_eq_some_iff.1 hi
      rw [List.nil_append] at h2
      rw [← h2, List.set_getElem_self]
    rw [this]
    exact .refl
  | cons u us ih =>
    obtain ⟨t, g⟩ := u
    intro c l hl hi hu hc
    have hlen := (List.getElem?_eq_some_iff.1 hi).1
    have hg := hu (t, g) (by simp)
    obtain ⟨h1, h2⟩ := ih (c := Function.update c t (addGrad (c t) (some g))) (l := l.set i (.run (us ++ rest))) (hl.set i fun _ h => h)
      (by simp [hlen]) (fun u hu' => hu u (by simp [hu'])) (fit_update hc hg)
    have he : ∀ t', addAll (Function.update c t (addGrad (c t) (some g)) t') (contribsTo t' us) = addAll (c t') (contribsTo t' ((t, g) :: us)) := by
      intro t'
      by_cases h : t' = t
      · subst h
        rw [Function.update_self, contribsTo_cons_eq]
        rfl
      · rw [Function.update_of_ne h, contribsTo_cons_ne (Ne.symm h)]
    simp only [he, List.set_set] at h1 h2
    exact ⟨(reach_one hl hi hg (hc t)).trans h1, h2⟩

/-- the threads finish one after the other -/
theorem reach_finish : ∀ {ups : List (List (Nat × Raw T))} {c : Nat → Option (Raw T)} {pre : List (Thread T)}, (∀ x ∈ pre, x = .run []) →
    (∀ us ∈ ups, ∀ u ∈ us, FitUp sh u) → (∀ t, Fit (sh t) (c t)) →
    ∃ s, Relation.ReflTransGen LStep ⟨c, pre ++ ups.map .run⟩ s ∧ s.Done ∧ ∀ t, s.cell t = addAll (c t) (contribsTo t ups.flatten) := by
  intro ups
  induction ups with
  | nil =>
    intro c pre hp _ _
    exact ⟨_, .refl, fun x hx => hp x (by simpa using hx), fun _ => rfl⟩
  | cons us ups ih =>
    intro c pre hp hu hc
    have hl : NoReads (pre ++ (us :: ups).map Thread.run) := by
      intro x hx t
      rcases List.mem_append.1 hx with hx | hx
      · rw [hp x hx]
        exact fun h => h
      · exact noReads_run _ x hx t
    obtain ⟨h1, h2⟩ := reach_many (i := pre.length) (rest := []) (us := us) hl (by simp) (hu us (by simp)) hc
    have h3 : (pre ++ (us :: ups).map Thread.run).set pre.length (.run []) = (pre ++ [.run []]) ++ ups.map Thread.run := by
      simp
    rw [h3] at h1
    obtain ⟨s, h4, h5, h6⟩ := ih (c := fun t => addAll (c t) (contribsTo t us)) (pre := pre ++ [.run []])
      (by
        intro x hx
        rcases List.mem_append.1 hx with hx | hx
        · exact hp x hx
        · simpa using hx)
      (fun us' hus => hu us' (by simp [hus])) h2
    refine ⟨s, h1.trans h4, h5, fun t => ?_⟩
    rw [h6 t, List.flatten_cons, ← addAll_append]
    simp [contribsTo]

/-- two threads update the same tensor: with and without a lost update -/
theorem reach_two {c : Nat → Option (Raw T)} {ups : List (List (Nat × Raw T))} {i j t : Nat} {g d : Raw T} {p q p' q' : List (Nat × Raw T)} (hij : i ≠ j)
    (hi : ups[i]? = some (p ++ (t, g) :: q)) (hj : ups[j]? = some (p' ++ (t, d) :: q')) (hu : ∀ us ∈ ups, ∀ u ∈ us, FitUp sh u)
    (hc : ∀ t, Fit (sh t) (c t)) :
    ∃ (y : Option (Raw T)) (R : List (Raw T)) (s₁ s₂ : LSt T), Fit (sh t) y ∧
      (∀ r ∈ R, sh t = some r.shape ∧ WF r) ∧
      Relation.ReflTransGen LStep (LSt.init c ups) s₁ ∧ s₁.Done ∧ s₁.cell t = addAll (addGrad (addGrad y (some g)) (some d)) R ∧
      Relation.ReflTransGen LStep (LSt.init c ups) s₂ ∧ s₂.Done ∧ s₂.cell t = addAll (addGrad y (some g)) R := by
  have hilt := (List.getElem?_eq_some_iff.1 hi).1
  have hjlt := (List.getElem?_eq_some_iff.1 hj).1
  have hui := hu _ (List.mem_of_getElem? hi)
  have huj := hu _ (List.mem_of_getElem? hj)
  have hg : FitUp sh (t, g) := hui _ (by simp)
  have hd : FitUp sh (t, d) := huj _ (by simp)
  obtain ⟨a1, f1⟩ := reach_many (i := i) (rest := (t, g) :: q) (us := p) (noReads_run ups) (by simp [hi]) (fun u h => hui u (by simp [h])) hc
  have n1 := (noReads_run ups).set i (x := .run ((t, g) :: q)) fun _ h => h
  obtain ⟨a2, f2⟩ := reach_many (i := j) (rest := (t, d) :: q') (us := p') n1 (by simp [List.getElem?_set_ne hij, hj]) (fun u h => huj u (by simp [h])) f1
  have n2 := n1.set j (x := .run ((t, d) :: q')) fun _ h => h
  generalize hc2 : (fun t => addAll (addAll (c t) (contribsTo t p)) (contribsTo t p')) = c2 at a2
  replace f2 : ∀ t, Fit (sh t) (c2 t) := fun t => hc2 ▸ f2 t
  generalize hl2 : ((ups.map Thread.run).set i (.run ((t, g) :: q))).set j (.run ((t, d) :: q')) = l2 at a2 n2
  have hl2i : l2[i]? = some (.run ((t, g) :: q)) := by
    rw [← hl2, List.getElem?_set_ne (Ne.symm hij)]
    simp [hilt]
  have hl2j : l2[j]? = some (.run ((t, d) :: q')) := by
    rw [← hl2]
    simp [hjlt]
  have hi2 := (List.getElem?_eq_some_iff.1 hl2i).1
  have hj2 := (List.getElem?_eq_some_iff.1 hl2j).1
  -- the rest
  let ups' := (ups.set i q).set j q'
  have hrest : (l2.set i (.run q)).set j (.run q') = ups'.map Thread.run := by
    rw [← hl2]
    simp only [ups', List.map_set]
    rw [List.set_comm _ _ hij.symm, List.set_set, List.set_set]
  have hu' : ∀ us ∈ ups', ∀ u ∈ us, FitUp sh u := by
    intro us hus u hu1
    rcases mem_set_cases hus with rfl | hus
    · exact huj u (by simp [hu1])
    · rcases mem_set_cases hus with rfl | hus
      · exact hui u (by simp [hu1])
      · exact hu us hus u hu1
  -- one after the other
  have b1 := reach_one n2 hl2i hg (f2 t)
  have fb1 := fit_update f2 hg
  have b2 := reach_one (c := Function.update c2 t (addGrad (c2 t) (some g))) (n2.set i (x := .run q) fun _ h => h)
    ((List.getElem?_set_ne hij).trans hl2j) hd (fb1 t)
  have fb2 := fit_update fb1 hd
  rw [hrest] at b2
  obtain ⟨s₁, e1, e2, e3⟩ := reach_finish (pre := []) (ups := ups') (by simp) hu' fb2
  -- a lost update
  obtain ⟨v, v1, v2⟩ := newGrad_fit (f2 t) hg.1 hg.2.1 hg.2.2
  have n3 := n2.set i (x := .computed t g v q) fun _ h => h
  have d1 : Relation.ReflTransGen LStep ⟨c2, l2⟩ ⟨c2, l2.set i (.computed t g v q)⟩ := by
    refine .head (.lock (s := ⟨c2, l2⟩) hl2i) ?_
    refine .head (.compute (i := i) (t := t) (g := g) (rest := q) (v := v) (by simp [hi2]) v1) ?_
    simp only [List.set_set]
    exact .refl
  have d2 := reach_one n3 ((List.getElem?_set_ne hij).trans hl2j) hd (f2 t)
  have d3 : LStep ⟨Function.update c2 t (addGrad (c2 t) (some d)), (l2.set i (.computed t g v q)).set j (.run q')⟩
      ⟨Function.update c2 t (addGrad (c2 t) (some g)), ups'.map Thread.run⟩ := by
    have := LStep.write (s := ⟨Function.update c2 t (addGrad (c2 t) (some d)), (l2.set i (.computed t g v q)).set j (.run q')⟩) (i := i) (t := t) (g := g)
      (v := v) (rest := q) (by rw [List.getElem?_set_ne hij.symm]; simp [hi2])
      (fun x hx => (n3.set j (x := .run q') fun _ h => h) x hx t)
    simp only [Function.update_idem, v2] at this
    rwa [List.set_comm _ _ hij.symm, List.set_set, hrest] at this
  obtain ⟨s₂, g1, g2, g3⟩ := reach_finish (pre := []) (ups := ups') (by simp) hu' fb1
  refine ⟨c2 t, contribsTo t ups'.flatten, s₁, s₂, f2 t, ?_, ?_, e2, ?_, ?_, g2, ?_⟩
  · intro r hr
    obtain ⟨⟨a, c'⟩, hm, rfl⟩ := List.mem_map.1 hr
    obtain ⟨hm, ha⟩ := List.mem_filter.1 hm
    obtain ⟨us, h1, h2⟩ := List.mem_flatten.1 hm
    simp only [beq_iff_eq] at ha
    subst ha
    have := hu' us h1 _ h2
    exact ⟨this.1, this.2.1⟩
  · exact ((((a1.trans a2).trans b1).trans b2)).trans e1
  · rw [e3 t, Function.update_self, Function.update_self]
  · exact ((((a1.trans a2).trans d1).trans d2).tail d3).trans g1
  · rw [g3 t, Function.update_self]

/-- only thread `p` updates `t` -/
structure OneInv (t p : Nat) (goal : Option (Raw T)) (s : LSt T) : Prop where
  others : ∀ i x, s.threads[i]? = some x → i ≠ p → contribsTo t x.todo = []
  here : ∃ x, s.threads[p]? = some x ∧ addAll (s.cell t) (contribsTo t x.todo) = goal
  fresh : ∀ g v rest, s.threads[p]? = some (Thread.computed t g v rest) → some v = addGrad (s.cell t) (some g)

theorem OneInv.init {t p : Nat} {c : Nat → Option (Raw T)} {ups : List (List (Nat × Raw T))} {us : List (Nat × Raw T)} (hp : ups[p]? = some us)
    (ho : ∀ i us, ups[i]? = some us → i ≠ p → contribsTo t us = []) : OneInv t p (addAll (c t) (contribsTo t us)) (LSt.init c ups) where
  others i x hx hi := by
    simp only [LSt.init, List.getElem?_map, Option.map_eq_some_iff] at hx
    obtain ⟨us', h1, rfl⟩ := hx
    exact ho i us' h1 hi
  here := ⟨.run us, by simp [LSt.init, hp], rfl⟩
  fresh g v rest h := by
    simp [LSt.init] at h

theorem getElem?_set_cases {α : Type _} {l : List α} {i j : Nat} {x y : α} (h : (l.set i y)[j]? = some x) : i = j ∧ x = y ∨ i ≠ j ∧ l[j]? = some x := by
  by_cases hij : i = j
  · subst hij
    left
    rw [List.getElem?_set] at h
    simp only [if_true] at h
    split at h
    · exact ⟨rfl, (Option.some.inj h).symm⟩
    · cases h
  · exact .inr ⟨hij, by rwa [List.getElem?_set_ne hij] at h⟩

theorem OneInv.step {t p : Nat} {goal : Option (Raw T)} {s s' : LSt T} (h : OneInv t p goal s) (hfit : ∀ t, Fit (sh t) (s.cell t))
    (htodo : ∀ x ∈ s.threads, ∀ u ∈ x.todo, FitUp sh u) (hs : LStep s s') : OneInv t p goal s' := by
  have same : ∀ {i : Nat} {x y : Thread T}, s.threads[i]? = some x → y.todo = x.todo →
      (∀ j z, (s.threads.set i y)[j]? = some z → j ≠ p → contribsTo t z.todo = []) ∧
      ∃ z, (s.threads.set i y)[p]? = some z ∧ addAll (s.cell t) (contribsTo t z.todo) = goal := by
    intro i x y e hxy
    refine ⟨fun j z hz hj => ?_, ?_⟩
    · rcases getElem?_set_cases hz with ⟨rfl, rfl⟩ | ⟨_, hz⟩
      · rw [hxy]
        exact h.others _ x e hj
      · exact h.others j z hz hj
    · obtain ⟨z, h1, h2⟩ := h.here
      by_cases hi : i = p
      · subst hi
        rw [e] at h1
        cases h1
        exact ⟨y, by simp [(List.getElem?_eq_some_iff.1 e).1], by rw [hxy, h2]⟩
      · exact ⟨z, by rw [List.getElem?_set_ne hi, h1], h2⟩
  cases hs with
  | @lock i t' g rest e =>
    obtain ⟨h1, h2⟩ := same e (y := .reading t' g rest) rfl
    refine ⟨h1, h2, fun g' v' rest' hm => ?_⟩
    rcases getElem?_set_cases hm with ⟨_, h3⟩ | ⟨_, h3⟩
    · cases h3
    · exact h.fresh g' v' rest' h3
  | @compute i t' g v rest e hv =>
    obtain ⟨h1, h2⟩ := same e (y := .computed t' g v rest) rfl
    refine ⟨h1, h2, fun g' v' rest' hm => ?_⟩
    rcases getElem?_set_cases hm with ⟨_, h3⟩ | ⟨_, h3⟩
    · cases h3
      have hg : FitUp sh (t, g) := htodo _ (List.mem_of_getElem? e) (t, g) (by simp [Thread.todo])
      obtain ⟨v', h4, h5⟩ := newGrad_fit (hfit t) hg.1 hg.2.1 hg.2.2
      rw [hv] at h4
      cases h4
      exact h5
    · exact h.fresh g' v' rest' h3
  | @panic i t' g rest er e hv =>
    have hg : FitUp sh (t', g) := htodo _ (List.mem_of_getElem? e) (t', g) (by simp [Thread.todo])
    obtain ⟨v', h4, _⟩ := newGrad_fit (hfit t') hg.1 hg.2.1 hg.2.2
    rw [hv] at h4
    cases h4
  | @write i t' g v rest e hnr =>
    have hlen := (List.getElem?_eq_some_iff.1 e).1
    by_cases hi : i = p
    · subst hi
      refine ⟨fun j z hz hj => ?_, ⟨.run rest, by simp [hlen], ?_⟩, fun g' v' rest' hm => ?_⟩
      · rcases getElem?_set_cases hz with ⟨rfl, rfl⟩ | ⟨_, hz⟩
        · exact absurd rfl hj
        · exact h.others j z hz hj
      · obtain ⟨z, h1, h2⟩ := h.here
        rw [e] at h1
        cases h1
        by_cases ht : t' = t
        · subst ht
          simp only [Function.update_self, Thread.todo] at h2 ⊢
          rw [contribsTo_cons_eq] at h2
          rw [h.fresh g v rest e]
          exact h2
        · simp only [Thread.todo] at h2 ⊢
          rw [contribsTo_cons_ne ht] at h2
          rwa [Function.update_of_ne (Ne.symm ht)]
      · rcases getElem?_set_cases hm with ⟨_, h3⟩ | ⟨h3, _⟩
        · cases h3
        · exact absurd rfl h3
    · have h0 := h.others i _ e hi
      simp only [Thread.todo] at h0
      have ht : t' ≠ t := by
        rintro rfl
        rw [contribsTo_cons_eq] at h0
        cases h0
      rw [contribsTo_cons_ne ht] at h0
      refine ⟨fun j z hz hj => ?_, ?_, fun g' v' rest' hm => ?_⟩
      · rcases getElem?_set_cases hz with ⟨rfl, rfl⟩ | ⟨_, hz⟩
        · exact h0
        · exact h.others j z hz hj
      · obtain ⟨z, h1, h2⟩ := h.here
        refine ⟨z, by rw [List.getElem?_set_ne hi, h1], ?_⟩
        simp only [Function.update_of_ne (Ne.symm ht)]
        exact h2
      · rw [List.getElem?_set_ne hi] at hm
        simp only [Function.update_of_ne (Ne.symm ht)]
        exact h.fresh g' v' rest' hm

/-- a tensor that only one thread updates -/
theorem reach_single {c : Nat → Option (Raw T)} {ups : List (List (Nat × Raw T))} {us : List (Nat × Raw T)} {p t : Nat} {s : LSt T} (hp : ups[p]? = some us)
    (ho : ∀ i us, ups[i]? = some us → i ≠ p → contribsTo t us = []) (hu : ∀ us ∈ ups, ∀ u ∈ us, FitUp sh u) (hc : ∀ t, Fit (sh t) (c t))
    (hs : Relation.ReflTransGen LStep (LSt.init c ups) s) (hd : s.Done) : s.cell t = addAll (c t) (contribsTo t us) := by
  have : OneInv t p (addAll (c t) (contribsTo t us)) s := by
    clear hd
    induction hs with
    | refl => exact .init hp ho
    | tail h1 h2 ih =>
      obtain ⟨W, hi⟩ := LReach.inv hc hu h1
      exact ih.step hi.fit hi.todo h2
  obtain ⟨x, h1, h2⟩ := this.here
  rw [hd x (List.mem_of_getElem? h1)] at h2
  exact h2

theorem contribsTo_flatten_single {t : Nat} : ∀ {ups : List (List (Nat × Raw T))} {us : List (Nat × Raw T)} {p : Nat}, ups[p]? = some us →
    (∀ i us, ups[i]? = some us → i ≠ p → contribsTo t us = []) → contribsTo t ups.flatten = contribsTo t us := by
  have happ : ∀ l l' : List (Nat × Raw T), contribsTo t (l ++ l') = contribsTo t l ++ contribsTo t l' := by simp [contribsTo]
  intro ups
  induction ups with
  | nil => simp
  | cons vs ups ih =>
    intro us p hp ho
    rw [List.flatten_cons, happ]
    cases p with
    | zero =>
      cases hp
      have : contribsTo t ups.flatten = [] := by
        have h1 : ∀ vs ∈ ups, contribsTo t vs = [] := by
          intro ws hws
          obtain ⟨i, hi⟩ := List.getElem?_of_mem hws
          exact ho (i + 1) ws (by simpa using hi) (by omega)
        clear ih ho
        induction ups with
        | nil => rfl
        | cons ws ups ih =>
          rw [List.flatten_cons, happ, h1 ws (by simp), ih fun vs hvs => h1 vs (by simp [hvs])]
          rfl
      rw [this, List.append_nil]
    | succ p =>
      rw [ho 0 vs rfl (by omega), List.nil_append]
      exact ih (by simpa using hp) fun i us hi hne => ho (i + 1) us (by simpa using hi) (by omega)

end

section
variable [AddCommMonoid T]

theorem addGrad_zero_twice (o : Option (Raw T)) {z w : Raw T} (hz : ∀ v ∈ z.array, v = 0) (hw : ∀ v ∈ w.array, v = 0) (hs : z.shape = w.shape)
    (hl : z.array.length = w.array.length) : addGrad (addGrad o (some z)) (some w) = addGrad o (some z) := by
  have hzw : w.array = z.array := List.ext_getElem hl.symm fun i h1 h2 => by rw [hz _ (List.getElem_mem h2), hw _ (List.getElem_mem h1)]
  have h0 : ∀ (k : Nat) (v : T), z.array[k]? = some v → v = 0 := fun k v h => hz v (List.mem_of_getElem? h)
  cases o with
  | none =>
    simp only [addGrad, hzw]
    congr 1
    refine (Raw.mk.injEq ..).mpr ⟨List.ext_getElem? fun k => ?_, rfl⟩
    rw [List.getElem?_zipWith]
    cases h : z.array[k]? with
    | none => rfl
    | some v => simp [h0 k v h]
  | some o =>
    simp only [addGrad, hzw]
    congr 2
    refine List.ext_getElem? fun k => ?_
    simp only [List.getElem?_zipWith]
    cases h : z.array[k]? with
    | none => cases o.array[k]? <;> rfl
    | some v => cases o.array[k]? <;> simp [h0 k v h]

theorem addAll_zero {s : List Nat} (o : Option (Raw T)) {z : Raw T} (hz : ∀ v ∈ z.array, v = 0) (hsz : z.shape = s) (hwz : WF z) :
    ∀ {cs : List (Raw T)}, (∀ c ∈ cs, c.shape = s ∧ WF c ∧ ∀ v ∈ c.array, v = 0) → cs ≠ [] → addAll o cs = addGrad o (some z) := by
  intro cs hcs hne
  have heq : ∀ c ∈ cs, c = z := by
    intro c hc
    obtain ⟨h1, h2, h3⟩ := hcs c hc
    obtain ⟨a, sa⟩ := c
    obtain ⟨b, sb⟩ := z
    obtain rfl : sa = sb := h1.trans hsz.symm
    have hl : a.length = b.length := h2.trans hwz.symm
    congr 1
    exact List.ext_getElem hl fun i h4 h5 => by rw [h3 _ (List.getElem_mem h4), hz _ (List.getElem_mem h5)]
  rw [List.eq_replicate_iff.2 ⟨rfl, heq⟩]
  obtain ⟨n, hn⟩ : ∃ n, cs.length = n + 1 := ⟨cs.length - 1, by have := List.length_pos_iff.2 hne; omega⟩
  rw [hn]
  clear hn heq
  induction n with
  | zero => rfl
  | succ n ih =>
    rw [List.replicate_succ', addAll_append, ih]
    exact addGrad_zero_twice o hz hz rfl rfl

end

theorem lost_zero [AddCancelCommMonoid T] {s : List Nat} {y : Option (Raw T)} {g d : Raw T} {R : List (Raw T)} (hy : Fit (some s) y)
    (hg : g.shape = s ∧ WF g) (hd : d.shape = s ∧ WF d) (hR : ∀ r ∈ R, r.shape = s ∧ WF r)
    (e : addAll (addGrad (addGrad y (some g)) (some d)) R = addAll (addGrad y (some g)) R) : ∀ v ∈ d.array, v = 0 := by
  have h1 : addAll (addGrad (addGrad y (some g)) (some d)) R = addGrad (addAll (addGrad y (some g)) R) (some d) := by
    have hp : (d :: R).Perm (R ++ [d]) := (List.perm_append_singleton d R).symm
    have := addAll_perm (s := s) hp (by
      intro c hc
      rcases List.mem_cons.1 hc with rfl | hc
      · exact hd.1
      · exact (hR c hc).1) (addGrad y (some g))
    rw [addAll_append] at this
    exact this
  rw [h1] at e
  have hfit : ∀ {R : List (Raw T)} {o : Option (Raw T)}, (∀ r ∈ R, r.shape = s ∧ WF r) → Fit (some s) o → Fit (some s) (addAll o R) := by
    intro R
    induction R with
    | nil => exact fun _ h => h
    | cons r R ih =>
      intro o hr ho
      obtain ⟨h1, h2⟩ := hr r (by simp)
      exact ih (fun r' h' => hr r' (by simp [h'])) (ho.addGrad (by rw [h1]) h2)
  have h2 : Fit (some s) (addAll (addGrad y (some g)) R) := hfit hR (hy.addGrad (by rw [hg.1]) hg.2)
  cases hz : addAll (addGrad y (some g)) R with
  | none =>
    rw [hz] at e
    cases e
  | some z =>
    rw [hz] at e h2
    obtain ⟨h3, h4⟩ := h2 s rfl z rfl
    have h5 : List.zipWith (· + ·) z.array d.array = z.array := by
      have := Option.some.inj e
      exact congrArg Raw.array this
    have hl : z.array.length = d.array.length := by
      have h6 := hd.2
      simp only [WF] at h4 h6
      rw [h4, h6, h3, hd.1]
    intro v hv
    obtain ⟨k, hk, rfl⟩ := List.getElem_of_mem hv
    have h6 := congrArg (fun l => l[k]?) h5
    simp only [List.getElem?_zipWith, List.getElem?_eq_getElem hk, List.getElem?_eq_getElem (hl ▸ hk : k < z.array.length)] at h6
    simpa using h6

end RL.GradLock
