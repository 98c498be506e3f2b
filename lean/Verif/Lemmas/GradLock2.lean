import Verif.Lemmas.GradLock

/-! Helper lemmas: the updates of several `backward` calls -/

namespace RL

open Spec GradLock

variable {T : Type} [Zero T] [One T] [Add T] [Mul T] [Sub T] [Neg T] [LT T] [DecidableLT T] [LE T] [DecidableLE T] [RealFn T]

theorem backwardUpdates_ok {h : Heap T} {l : Nat} {us : List (Nat × Raw T)} : backwardUpdates h l = .ok us ↔
    ∃ n d, h[l]? = some n ∧ n.val.array.length = 1 ∧ n.gradFn = some d ∧ jvpUpdates (h.length + 1) h d [Raw.scalar 1] = .ok us := by
  simp only [backwardUpdates, R.bind_eq_ok, Heap.node_eq_ok, assertR_eq_ok, unwrapO_eq_ok]
  constructor
  · rintro ⟨n, hn, ⟨⟩, hl, d, hd, e⟩
    rw [assertR_eq_ok] at hl
    exact ⟨n, d, hn, by simpa using hl, hd, e⟩
  · rintro ⟨n, d, hn, hl, hd, e⟩
    exact ⟨n, hn, (), assertR_eq_ok.2 (by simpa using hl), d, hd, e⟩

theorem backward_updates_frame {h h1 k : Heap T} {l : Nat} {us : List (Nat × Raw T)} (hg : h.Good) (hf : Frame h h1) (hg1 : h1.Good)
    (e : backwardUpdates h l = .ok us) : backward h1 l = .ok k ↔ applyUpdates h1 us = .ok k := by
  obtain ⟨n, d, hln, hlen, hd, u1⟩ := backwardUpdates_ok.1 e
  obtain ⟨g, hln1⟩ := hf.get hln
  have hll := getElem?_lt hln
  have hin : ∀ i ∈ d.inputs, i < h.length := fun i hi => ((hg l n hln).older d hd i hi).trans hll
  have hin1 : ∀ i ∈ d.inputs, i < h1.length := fun i hi => (hin i hi).trans_le hf.len
  have u2 : jvpUpdates (h1.length + 1) h1 d [Raw.scalar 1] = .ok us := by
    rw [jvpUpdates_frame hf hg hin, ← u1]
    exact jvpUpdates_fuel hg _ _ fun i hi => by have := hin i hi; have := hf.len; omega
  simp only [backward, Heap.node_eq_ok.2 hln1, R.bind_ok, hd, unwrapO, hlen]
  refine (computeJvp_ok (Frame.refl h1) hin1 hg1).trans ⟨?_, fun h => ⟨us, u2, h⟩⟩
  rintro ⟨us', h1, h2⟩
  rw [u2] at h1
  cases h1
  exact h2

theorem backwards_updates {h : Heap T} (hg : h.Good) {ls : List Nat} {ups : List (List (Nat × Raw T))}
    (hu : List.Forall₂ (fun l us => backwardUpdates h l = .ok us) ls ups) : ∀ {h1 k : Heap T}, Frame h h1 → h1.Good →
    (runOps h1 (ls.map Op.backward) = .ok k ↔ applyUpdates h1 ups.flatten = .ok k) := by
  induction hu with
  | nil => intro h1 k _ _; exact Iff.rfl
  | @cons l us ls ups e _ ih =>
    intro h1 k hf hg1
    rw [List.map_cons, runOps_cons, R.bind_eq_ok, List.flatten_cons, applyUpdates_append, R.bind_eq_ok]
    constructor
    · rintro ⟨h2, e1, e2⟩
      obtain ⟨hf2, hg2⟩ := Op.run_frame hg1 e1
      exact ⟨h2, (backward_updates_frame hg hf hg1 e).1 e1, (ih (hf.trans hf2) hg2).1 e2⟩
    · rintro ⟨h2, e1, e2⟩
      have e1' := (backward_updates_frame hg hf hg1 e).2 e1
      obtain ⟨hf2, hg2⟩ := Op.run_frame (op := .backward l) hg1 e1'
      exact ⟨h2, e1', (ih (hf.trans hf2) hg2).2 e2⟩

theorem gradAccum_fit {s : List Nat} : ∀ {cs : List (Raw T)} {o o' : Option (Raw T)}, (∀ c ∈ cs, c.shape = s ∧ WF c) → Fit (some s) o →
    gradAccum o cs = .ok o' → o' = addAll o cs := by
  intro cs
  induction cs with
  | nil => intro o o' _ _ e; cases e; rfl
  | cons c cs ih =>
    intro o o' hc ho e
    rw [gradAccum_cons, R.bind_eq_ok] at e
    obtain ⟨q, e1, e2⟩ := e
    obtain ⟨hc1, hc2⟩ := hc c (by simp)
    have hq : q = addGrad o (some c) := by
      cases o with
      | none => cases e1; rfl
      | some p =>
        simp only [gradAccumStep, R.bind_eq_ok, R.pure_eq_ok] at e1
        obtain ⟨v, e1, rfl⟩ := e1
        obtain ⟨h1, h2⟩ := ho s rfl p rfl
        obtain ⟨_, rfl⟩ := addRaw_same_inv h2 hc2 (h1.trans hc1.symm) e1
        rfl
    subst hq
    exact ih (fun c hc' => hc c (by simp [hc'])) (ho.addGrad (by rw [hc1]) hc2) e2

theorem backwardUpdates_fit {h : Heap T} (hr : Reachable h) {ls : List Nat} (hfit : UpdatesFit h ls) {ups : List (List (Nat × Raw T))}
    (hu : List.Forall₂ (fun l us => backwardUpdates h l = .ok us) ls ups) :
    ∀ us ∈ ups, ∀ u ∈ us, ∃ n, h[u.1]? = some n ∧ u.2.shape = n.val.shape ∧ WF u.2 ∧ Pos n.val.shape ∧ GradFits h u.1 := by
  intro us hus u huu
  obtain ⟨l, hl, e⟩ : ∃ l ∈ ls, backwardUpdates h l = .ok us := by
    clear hfit
    induction hu with
    | nil => simp at hus
    | cons e _ ih =>
      rcases List.mem_cons.1 hus with rfl | hus
      · exact ⟨_, by simp, e⟩
      · obtain ⟨l, h1, h2⟩ := ih hus
        exact ⟨l, by simp [h1], h2⟩
  obtain ⟨n, d, hln, hlen, hd, u1⟩ := backwardUpdates_ok.1 e
  obtain ⟨m, hm, h3, h4⟩ := jvpUpdates_shape u1 u huu
  have hanc : Ancestor h u.1 l := by
    have h2 := jvpUpdates_paths hr.good hln hd u1
    have : u.1 ∈ (pathsOf (h.length + 1) h d).map Prod.fst := by rw [← h2]; exact List.mem_map_of_mem huu
    obtain ⟨⟨s, p⟩, hx, hx'⟩ := List.mem_map.1 this
    have hp := (mem_pathsOf hr.good hln hd (by have := getElem?_lt hln; omega)).1 hx
    rw [← hx']
    exact hp.ancestor
  obtain ⟨h5, h6⟩ := hfit l hl u.1 m.val hanc (by simp [dataOf, hm])
  refine ⟨m, hm, h3, h4, h5, ?_⟩
  intro m' g hm' hg
  rw [hm] at hm'
  cases hm'
  exact h6 g hg

open Classical in
/-- shapes of the tensors that are updated -/
noncomputable def updShape (h : Heap T) (ups : List (List (Nat × Raw T))) (t : Nat) : Option (List Nat) :=
  if ∃ us ∈ ups, ∃ u ∈ us, u.1 = t then h[t]?.map (·.val.shape) else none

theorem updShape_fit {h : Heap T} (hr : Reachable h) {ls : List Nat} (hfit : UpdatesFit h ls) {ups : List (List (Nat × Raw T))}
    (hu : List.Forall₂ (fun l us => backwardUpdates h l = .ok us) ls ups) :
    (∀ t, Fit (updShape h ups t) (gradOf h t)) ∧ ∀ us ∈ ups, ∀ u ∈ us, FitUp (updShape h ups) u := by
  have H := backwardUpdates_fit hr hfit hu
  constructor
  · intro t s hs g hg
    unfold updShape at hs
    split at hs
    · rename_i hx
      obtain ⟨us, h1, u, h2, rfl⟩ := hx
      obtain ⟨n, hn, _, _, _, h3⟩ := H us h1 u h2
      rw [hn] at hs
      cases hs
      exact h3 n g hn hg
    · cases hs
  · intro us h1 u h2
    obtain ⟨n, hn, h3, h4, h5, _⟩ := H us h1 u h2
    refine ⟨?_, h4, h3 ▸ h5⟩
    rw [updShape, if_pos ⟨us, h1, u, h2, rfl⟩, hn, h3]
    rfl

theorem contribs_fit {h : Heap T} {ups : List (List (Nat × Raw T))} (hu : ∀ us ∈ ups, ∀ u ∈ us, FitUp (updShape h ups) u) {t : Nat} :
    ∀ c ∈ contribsTo t ups.flatten, updShape h ups t = some c.shape ∧ WF c := by
  intro c hc
  obtain ⟨⟨a, c'⟩, hm, rfl⟩ := List.mem_map.1 hc
  obtain ⟨hm, ha⟩ := List.mem_filter.1 hm
  obtain ⟨us, h1, h2⟩ := List.mem_flatten.1 hm
  simp only [beq_iff_eq] at ha
  subst ha
  have := hu us h1 _ h2
  exact ⟨this.1, this.2.1⟩

theorem contribs_shape {h : Heap T} {ups : List (List (Nat × Raw T))} (hu : ∀ us ∈ ups, ∀ u ∈ us, FitUp (updShape h ups) u) {t : Nat} :
    ∃ s, ∀ c ∈ contribsTo t ups.flatten, c.shape = s ∧ WF c := by
  refine ⟨(updShape h ups t).getD [], fun c hc => ?_⟩
  obtain ⟨h1, h2⟩ := contribs_fit hu c hc
  rw [h1]
  exact ⟨rfl, h2⟩

end RL
