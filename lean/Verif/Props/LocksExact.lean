import Verif.Lemmas.GradLock3
import Verif.Lemmas.TestInt
import Mathlib.Algebra.Ring.Int.Defs
import Mathlib.Tactic.IntervalCases
import Verif.Props.Locks

/-!
# Exactly when threads do not lose gradient updates (C42)
-/

namespace RL

open Spec GradLock

variable {T : Type} [AddCancelCommMonoid T] [One T] [Mul T] [Sub T] [Neg T] [LT T] [DecidableLT T] [LE T] [DecidableLE T] [RealFn T]

/-- C42, exactly: several threads run `backward`, each on its own loss. Every complete run gives every tensor the gradient that the losses give one after
the other, if and only if, whenever two threads update the same tensor, their contributions to it are 0. -/
theorem C42_exact (h h' : Heap T) (ls : List Nat) (ups : List (List (Nat × Raw T))) (hr : Reachable h) (hfit : UpdatesFit h ls)
    (hu : List.Forall₂ (fun l us => backwardUpdates h l = .ok us) ls ups) (e : runOps h (ls.map Op.backward) = .ok h') :
    (∀ s, Relation.ReflTransGen LStep (LSt.init (gradOf h) ups) s → s.Done → ∀ t < h.length, s.cell t = gradOf h' t) ↔
      ∀ (i j t : Nat) (us vs : List (Nat × Raw T)), i ≠ j → ups[i]? = some us → ups[j]? = some vs → (∃ g, (t, g) ∈ us) →
        ∀ c, (t, c) ∈ vs → ∀ v ∈ c.array, v = 0 := by
  obtain ⟨hc, hf⟩ := updShape_fit hr hfit hu
  obtain ⟨k, e', hk⟩ := C42_sequential h ls ups hr hfit hu
  rw [e] at e'
  cases e'
  constructor
  · intro H i j t us vs hij hi hj ⟨g, hg⟩ d hd
    obtain ⟨p, q, rfl⟩ := List.append_of_mem hg
    obtain ⟨p', q', rfl⟩ := List.append_of_mem hd
    obtain ⟨y, R, s₁, s₂, h1, h2, r1, d1, c1, r2, d2, c2⟩ := reach_two hij hi hj hf hc
    have hgf := hf _ (List.mem_of_getElem? hi) (t, g) (by simp)
    have hdf := hf _ (List.mem_of_getElem? hj) (t, d) (by simp)
    obtain ⟨n, hn, _⟩ := backwardUpdates_fit hr hfit hu _ (List.mem_of_getElem? hi) (t, g) (by simp)
    have ht : t < h.length := getElem?_lt hn
    have h3 : addAll (addGrad (addGrad y (some g)) (some d)) R = addAll (addGrad y (some g)) R := by
      rw [← c1, ← c2, H s₁ r1 d1 t ht, H s₂ r2 d2 t ht]
    have hsh : ∀ r : Raw T, updShape h ups t = some r.shape → r.shape = g.shape := fun r h4 => by
      rw [hgf.1] at h4
      exact (Option.some.inj h4).symm
    refine lost_zero (s := g.shape) ?_ ⟨rfl, hgf.2.1⟩ ⟨hsh d hdf.1, hdf.2.1⟩ (fun r hr => ⟨hsh r (h2 r hr).1, (h2 r hr).2⟩) h3
    rw [hgf.1] at h1
    exact h1
  · intro H s hs hd t ht
    rw [hk t ht]
    by_cases hone : ∃ (p : Nat) (us : List (Nat × Raw T)), ups[p]? = some us ∧ ∀ (i : Nat) (vs : List (Nat × Raw T)), ups[i]? = some vs → i ≠ p → contribsTo t vs = []
    · obtain ⟨p, us, h1, h2⟩ := hone
      rw [reach_single h1 h2 hf hc hs hd, contribsTo_flatten_single h1 h2]
    · obtain ⟨cs, h1, h2, h3⟩ := C42_actual h ls ups s hr hfit hu hs hd t
      rw [h3]
      cases hall : contribsTo t ups.flatten with
      | nil =>
        rw [hall] at h1
        rw [List.subperm_nil.1 h1]
      | cons z zs =>
        have hzero : ∀ c ∈ contribsTo t ups.flatten, ∀ v ∈ c.array, v = 0 := by
          intro c hc'
          obtain ⟨⟨a, c'⟩, hm, rfl⟩ := List.mem_map.1 hc'
          obtain ⟨hm, ha⟩ := List.mem_filter.1 hm
          obtain ⟨vs, h4, h5⟩ := List.mem_flatten.1 hm
          simp only [beq_iff_eq] at ha
          subst ha
          obtain ⟨j, hj⟩ := List.getElem?_of_mem h4
          push Not at hone
          obtain ⟨i, us, hi, hij, hne⟩ := hone j vs hj
          obtain ⟨g, hg⟩ := List.exists_mem_of_ne_nil _ hne
          obtain ⟨⟨b, g'⟩, hm', rfl⟩ := List.mem_map.1 hg
          obtain ⟨hm2, hb⟩ := List.mem_filter.1 hm'
          simp only [beq_iff_eq] at hb
          subst hb
          exact H i j b us vs hij hi hj ⟨g', hm2⟩ c' h5
        obtain ⟨sh, hsh⟩ := contribs_shape hf (t := t)
        have hzm : z ∈ contribsTo t ups.flatten := by rw [hall]; simp
        have hz := hzero z hzm
        obtain ⟨hz1, hz2⟩ := hsh z hzm
        rw [addAll_zero (gradOf h t) hz hz1 hz2 (fun c hc' => ⟨(hsh c (h1.subset hc')).1, (hsh c (h1.subset hc')).2, hzero c (h1.subset hc')⟩)
          (h2 (by rw [hall]; simp)), addAll_zero (gradOf h t) hz hz1 hz2 (fun c hc' => ?_) (by simp)]
        rw [← hall] at hc'
        exact ⟨(hsh c hc').1, (hsh c hc').2, hzero c hc'⟩

section
attribute [local instance] Test.intFn

/-- the tensors of `x = [-1]; x.relu().sum(); x.relu().sum()` -/
private def zeroHeap : Heap Int :=
  [⟨⟨[-1], [1]⟩, none, none⟩, ⟨⟨[0], [1]⟩, none, some ⟨[0], .relu⟩⟩, ⟨⟨[1], [1]⟩, none, none⟩, ⟨⟨[0], []⟩, some 2, some ⟨[1], .sum⟩⟩,
    ⟨⟨[0], [1]⟩, none, some ⟨[0], .relu⟩⟩, ⟨⟨[1], [1]⟩, none, none⟩, ⟨⟨[0], []⟩, some 5, some ⟨[4], .sum⟩⟩]

private theorem zeroHeap_fit : UpdatesFit zeroHeap [3, 6] := by
  intro l _ t v ht hv
  obtain ⟨c, ⟨n, d, hn, hd, hm⟩, _⟩ := Relation.TransGen.head'_iff.1 ht
  have : t = 0 ∨ t = 1 ∨ t = 4 := by
    have hc : c < 7 := (List.getElem?_eq_some_iff.1 hn).1
    interval_cases c <;> cases hn <;> cases hd <;> simp at hm <;> simp [hm]
  rcases this with rfl | rfl | rfl <;> cases hv <;> exact ⟨by simp [Pos], fun p hp => by cases hp⟩

/-- TEST of `C42_exact`: both threads add 0 to the gradient of `x`, and no interleaving changes the result. -/
example : ∃ h', Reachable zeroHeap ∧ runOps zeroHeap ([3, 6].map Op.backward) = .ok h' ∧ gradOf h' 0 = some ⟨[0], [1]⟩ ∧
    ∀ s, Relation.ReflTransGen LStep (LSt.init (gradOf zeroHeap) [[(1, ⟨[1], [1]⟩), (0, ⟨[0], [1]⟩)], [(4, ⟨[1], [1]⟩), (0, ⟨[0], [1]⟩)]]) s → s.Done →
      ∀ t < 7, s.cell t = gradOf h' t := by
  have hr : Reachable zeroHeap := ⟨[.new [-1] [1], .relu 0, .sum 1, .relu 0, .sum 4], rfl⟩
  refine ⟨_, hr, rfl, rfl, (C42_exact zeroHeap _ [3, 6]
    [[(1, ⟨[1], [1]⟩), (0, ⟨[0], [1]⟩)], [(4, ⟨[1], [1]⟩), (0, ⟨[0], [1]⟩)]] hr zeroHeap_fit (.cons rfl (.cons rfl .nil)) rfl).2 ?_⟩
  intro i j t us vs hij hi hj ⟨g, hg⟩ c hc v hv
  have h1 : i < 2 := (List.getElem?_eq_some_iff.1 hi).1
  have h2 : j < 2 := (List.getElem?_eq_some_iff.1 hj).1
  interval_cases i <;> interval_cases j <;> first | exact absurd rfl hij | (cases hi; cases hj; aesop)

end

end RL
