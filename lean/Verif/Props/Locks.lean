import Verif.Lemmas.GradLock2
import Verif.Lemmas.TestInt
import Mathlib.Algebra.Ring.Int.Defs
import Mathlib.Tactic.IntervalCases

/-!
# Gradient updates by several threads (C42)
-/

namespace RL

open Spec GradLock

variable {T : Type}

attribute [local instance] Test.intFn

section
variable [Zero T] [One T] [Add T] [Mul T] [Sub T] [Neg T] [LT T] [DecidableLT T] [LE T] [DecidableLE T] [RealFn T]

/-- C42: what the threads are started with: `backward` performs the updates of `backwardUpdates`, and these do not depend on what
other operations (such as `backward` in other threads) have done since. -/
theorem C42_updates (h h1 k : Heap T) (ops : List (Op T)) (l : Nat) (us : List (Nat × Raw T)) (hr : Reachable h)
    (e : runOps h ops = .ok h1) (hu : backwardUpdates h l = .ok us) : backward h1 l = .ok k ↔ performUpdates h1 us = .ok k := by
  obtain ⟨hf, hg1⟩ := runOps_frame hr.good e
  exact backward_updates_frame hr.good hf hg1 hu

/-- C42: a successful `backward` has updates. -/
theorem C42_updates_exist (h k : Heap T) (l : Nat) (hr : Reachable h) (e : backward h l = .ok k) :
    ∃ us, backwardUpdates h l = .ok us ∧ performUpdates h us = .ok k := by
  obtain ⟨n, d, us, hln, hlen, hd, u1, a1⟩ := backward_inv hr.good e
  exact ⟨us, backwardUpdates_ok.2 ⟨n, d, hln, hlen, hd, u1⟩, a1⟩

/-- C42: the losses one after the other: every tensor ends with all contributions. -/
theorem C42_sequential (h : Heap T) (ls : List Nat) (ups : List (List (Nat × Raw T))) (hr : Reachable h) (hfit : UpdatesFit h ls)
    (hu : List.Forall₂ (fun l us => backwardUpdates h l = .ok us) ls ups) :
    ∃ h', runOps h (ls.map Op.backward) = .ok h' ∧ ∀ t < h.length, gradOf h' t = addAll (gradOf h t) (contribsTo t ups.flatten) := by
  have H := backwardUpdates_fit hr hfit hu
  obtain ⟨hc, hf⟩ := updShape_fit hr hfit hu
  obtain ⟨h', e⟩ := applyUpdates_ok (us := ups.flatten) hr.good
    (by
      intro u hu
      obtain ⟨us, h1, h2⟩ := List.mem_flatten.1 hu
      obtain ⟨n, a, b, c, d, _⟩ := H us h1 u h2
      exact ⟨n, a, b, c, d⟩)
    (by
      intro u hu
      obtain ⟨us, h1, h2⟩ := List.mem_flatten.1 hu
      obtain ⟨_, _, _, _, _, h3⟩ := H us h1 u h2
      exact h3.takes)
  refine ⟨h', (backwards_updates hr.good hu (Frame.refl h) hr.good).2 e, fun t ht => ?_⟩
  have e1 := applyUpdates_grad hr.good ht e
  change gradAccum (gradOf h t) (contribsTo t ups.flatten) = _ at e1
  cases hcs : contribsTo t ups.flatten with
  | nil =>
    rw [hcs] at e1
    exact (Except.ok.inj e1).symm
  | cons c cs =>
    have hall := contribs_fit hf (t := t)
    have hsh := (hall c (by rw [hcs]; simp)).1
    rw [hcs] at e1 hall
    refine gradAccum_fit (s := c.shape) (fun d hd => ?_) (hsh ▸ hc t) e1
    obtain ⟨a, b⟩ := hall d hd
    rw [hsh] at a
    exact ⟨(Option.some.inj a).symm, b⟩

/-- C42: a run of the threads never gets stuck before all of them have finished, and no thread panics. -/
theorem C42_progress (h : Heap T) (ls : List Nat) (ups : List (List (Nat × Raw T))) (s : LSt T) (hr : Reachable h)
    (hfit : UpdatesFit h ls) (hu : List.Forall₂ (fun l us => backwardUpdates h l = .ok us) ls ups)
    (hs : Relation.ReflTransGen LStep (LSt.init (gradOf h) ups) s) : Thread.panicked ∉ s.threads ∧ (s.Done ∨ ∃ s', LStep s s') := by
  obtain ⟨hc, hf⟩ := updShape_fit hr hfit hu
  obtain ⟨W, hi⟩ := LReach.inv hc hf hs
  refine ⟨hi.noPanic, ?_⟩
  by_cases hd : s.Done
  · exact .inl hd
  · exact .inr (s.progress hi.noPanic hd)

/-- C42: there is no infinite run. -/
theorem C42_finite : WellFounded fun s' s : LSt T => LStep s s' := by
  refine Subrelation.wf (r := InvImage (· < ·) fun s : LSt T => (s.threads.map tweight).sum) ?_ (InvImage.wf _ Nat.lt_wfRel.wf)
  intro s' s h
  exact h.weight_lt

/-- C42: while some thread holds the read lock of a tensor, nobody changes its gradient; and a step changes the gradient of one tensor
at most. -/
theorem C42_stable (s s' : LSt T) (h : LStep s s') :
    (∀ t, (∃ x ∈ s.threads, x.Reads t) → s'.cell t = s.cell t) ∧ ∃ t, ∀ t', t' ≠ t → s'.cell t' = s.cell t' := by
  cases h with
  | lock h1 => exact ⟨fun _ _ => rfl, 0, fun _ _ => rfl⟩
  | compute h1 h2 => exact ⟨fun _ _ => rfl, 0, fun _ _ => rfl⟩
  | panic h1 h2 => exact ⟨fun _ _ => rfl, 0, fun _ _ => rfl⟩
  | @write i t g v rest h1 h2 =>
    refine ⟨fun t' ⟨x, hx, hr⟩ => Function.update_of_ne ?_ _ _, t, fun t' ht => Function.update_of_ne ht _ _⟩
    rintro rfl
    exact h2 x hx hr

/-- C42: whatever the interleaving, every contribution is counted at most once, and at least one is counted if there is one. -/
theorem C42_actual (h : Heap T) (ls : List Nat) (ups : List (List (Nat × Raw T))) (s : LSt T) (hr : Reachable h)
    (hfit : UpdatesFit h ls) (hu : List.Forall₂ (fun l us => backwardUpdates h l = .ok us) ls ups)
    (hs : Relation.ReflTransGen LStep (LSt.init (gradOf h) ups) s) (hd : s.Done) (t : Nat) :
    ∃ cs, cs.Subperm (contribsTo t ups.flatten) ∧ (contribsTo t ups.flatten ≠ [] → cs ≠ []) ∧ s.cell t = addAll (gradOf h t) cs := by
  obtain ⟨hc, hf⟩ := updShape_fit hr hfit hu
  obtain ⟨W, hi⟩ := LReach.inv hc hf hs
  have hp := hi.done hd t
  obtain ⟨S, h1, h2, h3⟩ := hi.cell t
  refine ⟨S, h1.trans hp.subperm, fun hne => h2 ?_, h3⟩
  rintro hw
  rw [hw] at hp
  exact hne hp.symm.eq_nil

/-- C42: tensors that receive at most one contribution are never affected by the interleaving. -/
theorem C42_single (h : Heap T) (ls : List Nat) (ups : List (List (Nat × Raw T))) (s : LSt T) (hr : Reachable h)
    (hfit : UpdatesFit h ls) (hu : List.Forall₂ (fun l us => backwardUpdates h l = .ok us) ls ups)
    (hs : Relation.ReflTransGen LStep (LSt.init (gradOf h) ups) s) (hd : s.Done) (t : Nat)
    (h1 : (contribsTo t ups.flatten).length ≤ 1) : s.cell t = addAll (gradOf h t) (contribsTo t ups.flatten) := by
  obtain ⟨cs, h2, h3, h4⟩ := C42_actual h ls ups s hr hfit hu hs hd t
  rw [h4]
  have hl := h2.length_le
  match hc : contribsTo t ups.flatten, cs with
  | [], [] => rfl
  | [], c :: cs => simp [hc] at hl
  | [c], [] => simp [hc] at h3
  | [c], [d] =>
    rw [hc] at h2
    rw [List.singleton_subperm_iff.1 h2 |> List.mem_singleton.1]
  | [c], d :: d' :: cs => simp [hc] at hl
  | c :: c' :: cs, _ => simp [hc] at h1

end

section
variable [AddCommMonoid T] [One T] [Mul T] [Sub T] [Neg T] [LT T] [DecidableLT T] [LE T] [DecidableLE T] [RealFn T]

/-- C42: if no two threads are inside of `update_grad` of the same tensor at the same time, nothing is lost: every complete run gives
every tensor the gradient that the losses give one after the other. Missing for the full statement: nothing in the code keeps threads
from being inside of `update_grad` of the same tensor at the same time, see `C42_false`. -/
theorem C42_partial (h h' : Heap T) (ls : List Nat) (ups : List (List (Nat × Raw T))) (s : LSt T) (hr : Reachable h)
    (hfit : UpdatesFit h ls) (hu : List.Forall₂ (fun l us => backwardUpdates h l = .ok us) ls ups)
    (e : runOps h (ls.map Op.backward) = .ok h') (hs : Relation.ReflTransGen XStep (LSt.init (gradOf h) ups) s) (hd : s.Done)
    (t : Nat) (ht : t < h.length) : s.cell t = gradOf h' t := by
  obtain ⟨k, e', hk⟩ := C42_sequential h ls ups hr hfit hu
  rw [e] at e'
  cases e'
  obtain ⟨hc, hf⟩ := updShape_fit hr hfit hu
  obtain ⟨W, hi⟩ := XReach.inv hc hf hs
  rw [hk t ht, hi.all t]
  have hp := hi.done hd t
  obtain ⟨sh, hsh⟩ := contribs_shape hf (t := t)
  exact addAll_perm hp (fun c hc => (hsh c (hp.subset hc)).1) _

end

/-- C42, as intended: several threads run `backward`, each on its own loss; when all have finished, every tensor has the gradient that
the losses give one after the other, whatever the interleaving. -/
def C42_statement (T : Type) [AddCommMonoid T] [One T] [Mul T] [Sub T] [Neg T] [LT T] [DecidableLT T] [LE T] [DecidableLE T]
    [RealFn T] : Prop :=
  ∀ (h h' : Heap T) (ls : List Nat) (ups : List (List (Nat × Raw T))) (s : LSt T), Reachable h → UpdatesFit h ls →
    List.Forall₂ (fun l us => backwardUpdates h l = .ok us) ls ups → runOps h (ls.map Op.backward) = .ok h' →
    Relation.ReflTransGen LStep (LSt.init (gradOf h) ups) s → s.Done → ∀ t < h.length, s.cell t = gradOf h' t

/-- the tensors of `x = [5]; x.sum(); x.sum()` -/
private def lostHeap : Heap Int :=
  [⟨⟨[5], [1]⟩, none, none⟩, ⟨⟨[1], [1]⟩, none, none⟩, ⟨⟨[5], []⟩, some 1, some ⟨[0], .sum⟩⟩,
    ⟨⟨[1], [1]⟩, none, none⟩, ⟨⟨[5], []⟩, some 3, some ⟨[0], .sum⟩⟩]

private theorem lostHeap_reachable : Reachable lostHeap := ⟨[.new [5] [1], .sum 0, .sum 0], rfl⟩

private theorem lostHeap_fit : UpdatesFit lostHeap [2, 4] := by
  intro l _ t v ht hv
  obtain ⟨c, ⟨n, d, hn, hd, hm⟩, _⟩ := Relation.TransGen.head'_iff.1 ht
  have : t = 0 := by
    have hc : c < 5 := (List.getElem?_eq_some_iff.1 hn).1
    interval_cases c <;> cases hn <;> cases hd <;> simpa using hm
  subst this
  cases hv
  refine ⟨by simp [Pos], fun p hp => by cases hp⟩

private theorem lostHeap_updates : List.Forall₂ (fun l us => backwardUpdates lostHeap l = .ok us) [2, 4]
    [[(0, ⟨[1], [1]⟩)], [(0, ⟨[1], [1]⟩)]] := .cons rfl (.cons rfl .nil)

/-- both threads read the missing gradient before one of them writes -/
private def lostEnd : LSt Int := ⟨Function.update (Function.update (gradOf lostHeap) 0 (some ⟨[1], [1]⟩)) 0 (some ⟨[1], [1]⟩),
  [.run [], .run []]⟩

private theorem lostEnd_reachable : Relation.ReflTransGen LStep
    (LSt.init (gradOf lostHeap) [[(0, ⟨[1], [1]⟩)], [(0, ⟨[1], [1]⟩)]]) lostEnd := by
  refine .head (.lock (i := 0) rfl) ?_
  refine .head (.lock (i := 1) rfl) ?_
  refine .head (.compute (i := 0) (v := ⟨[1], [1]⟩) rfl rfl) ?_
  refine .head (.compute (i := 1) (v := ⟨[1], [1]⟩) rfl rfl) ?_
  refine .head (.write (i := 0) rfl (by simp [LSt.init, Thread.Reads])) ?_
  refine .head (.write (i := 1) rfl (by simp [LSt.init, Thread.Reads])) ?_
  exact .refl

/-- C42 does not hold: the read lock is released before the write lock is taken, so that of two threads that both read before one
writes, one contribution is lost. -/
theorem C42_false : ¬ C42_statement Int := by
  intro H
  have e : runOps lostHeap ([2, 4].map Op.backward) = .ok _ := rfl
  have := H lostHeap _ [2, 4] _ lostEnd lostHeap_reachable lostHeap_fit lostHeap_updates e lostEnd_reachable
    (by simp [LSt.Done, lostEnd]) 0 (by simp [lostHeap])
  simp only [lostEnd, Function.update_self] at this
  exact absurd this (by decide)

/-- C42, test: with exclusive sections the same two losses give both contributions, in a run to the end. -/
example : ∃ s, Relation.ReflTransGen XStep (LSt.init (gradOf lostHeap) [[(0, ⟨[1], [1]⟩)], [(0, ⟨[1], [1]⟩)]]) s ∧ s.Done ∧
    s.cell 0 = some ⟨[2], [1]⟩ := by
  have hx : ∀ (i : Nat) (s : LSt Int), s.threads.length = 2 → (∀ j t x, s.threads[j]? = some x → x.Updates t → j = i) → s.Exclusive := by
    intro i s _ h a b t x y hx hy hxt hyt
    rw [h a t x hx hxt, h b t y hy hyt]
  have h2 : ∀ (i : Nat) (c : Nat → Option (Raw Int)) (x y : Thread Int), (i = 0 ∧ y = .run [] ∨ i = 0 ∧ y = .run [(0, ⟨[1], [1]⟩)] ∨
      i = 1 ∧ x = .run [] ∨ i = 1 ∧ x = .run [(0, ⟨[1], [1]⟩)]) → LSt.Exclusive ⟨c, [x, y]⟩ := by
    intro i c x y h
    refine hx i _ rfl ?_
    intro j t z hz hzt
    have hj : j < 2 := (List.getElem?_eq_some_iff.1 hz).1
    rcases h with ⟨rfl, rfl⟩ | ⟨rfl, rfl⟩ | ⟨rfl, rfl⟩ | ⟨rfl, rfl⟩ <;> interval_cases j <;> first | rfl | (cases hz; exact hzt.elim)
  refine ⟨⟨Function.update (Function.update (gradOf lostHeap) 0 (some ⟨[1], [1]⟩)) 0 (some ⟨[2], [1]⟩), [.run [], .run []]⟩, ?_, ?_, ?_⟩
  · refine .head ⟨.lock (i := 0) rfl, h2 0 _ _ _ (by simp)⟩ ?_
    refine .head ⟨.compute (i := 0) (v := ⟨[1], [1]⟩) rfl rfl, h2 0 _ _ _ (by simp)⟩ ?_
    refine .head ⟨.write (i := 0) rfl (by simp [LSt.init, Thread.Reads]), h2 0 _ _ _ (by simp)⟩ ?_
    refine .head ⟨.lock (i := 1) rfl, h2 1 _ _ _ (by simp)⟩ ?_
    refine .head ⟨.compute (i := 1) (v := ⟨[2], [1]⟩) rfl rfl, h2 1 _ _ _ (by simp)⟩ ?_
    refine .head ⟨.write (i := 1) rfl (by simp [LSt.init, Thread.Reads]), h2 1 _ _ _ (by simp)⟩ ?_
    exact .refl
  · simp [LSt.Done]
  · simp

/-- C42, test: the hypotheses of `C42_actual`, `C42_progress` and `C42_sequential` in the lost-update run; the result is one of the two
contributions. -/
example : Reachable lostHeap ∧ UpdatesFit lostHeap [2, 4] ∧ lostEnd.Done ∧ lostEnd.cell 0 = some ⟨[1], [1]⟩ ∧
    ∃ h', runOps lostHeap ([2, 4].map Op.backward) = .ok h' ∧ gradOf h' 0 = some ⟨[2], [1]⟩ :=
  ⟨lostHeap_reachable, lostHeap_fit, by simp [LSt.Done, lostEnd], by simp [lostEnd], _, rfl, rfl⟩

end RL
