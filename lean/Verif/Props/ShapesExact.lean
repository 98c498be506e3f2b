import Verif.Lemmas.WfExact
import Verif.Props.Graph
import Verif.Props.Jvp

/-!
# Exactly when data lengths match shapes, and when the gradient of a sum is right (C09, C31)
-/

namespace RL

open Spec

variable {T : Type}

attribute [local instance] Test.intFn

section
variable [Zero T] [One T] [Add T] [Mul T] [Sub T] [Neg T] [LT T] [DecidableLT T] [LE T] [DecidableLE T] [RealFn T]

/-- C09, exactly: after a program that succeeds, all tensors have as many elements as their shape says if and only if the program never
used `RawTensor::default()` and never multiplied a scalar with a view that has fewer elements than its tensor. -/
theorem C09_exact (ops : List (Op T)) (h : Heap T) (e : runOps [] ops = .ok h) :
    (∀ t v, dataOf h t = some v → WF v) ↔ ∀ pre op post hp, ops = pre ++ op :: post → runOps [] pre = .ok hp → ¬ Misshapes hp op := by
  have hall : ∀ g : Heap T, (∀ t v, dataOf g t = some v → WF v) ↔ AllWF g := by
    intro g
    refine ⟨fun k i n hn => k i n.val (by simp [dataOf, hn]), fun k t v hv => ?_⟩
    simp only [dataOf, Option.map_eq_some_iff] at hv
    obtain ⟨n, hn, rfl⟩ := hv
    exact k t n hn
  rw [hall]
  constructor
  · rintro hw pre op post hp rfl hpre
    rw [runOps_append, hpre, R.bind_ok, runOps_cons, R.bind_eq_ok] at e
    obtain ⟨h1, e1, e2⟩ := e
    have hg := runOps_good hpre
    have f1 := Op.run_frame hg e1
    have f2 := runOps_frame f1.2 e2
    have hw1 : AllWF h1 := hw.of_frame f2.1
    exact (Op.run_wf_iff hg (hw1.of_frame f1.1) e1).1 hw1
  · intro hs
    suffices H : ∀ (ops pre : List (Op T)) (h0 h : Heap T), runOps [] pre = .ok h0 → AllWF h0 → runOps h0 ops = .ok h →
        (∀ pre' op post hp, pre ++ ops = pre' ++ op :: post → runOps [] pre' = .ok hp → ¬ Misshapes hp op) → AllWF h from
      H ops [] [] h rfl (by intro i n hn; simp at hn) e (by simpa using hs)
    intro ops
    induction ops with
    | nil => intro pre h0 h _ hw e _; cases e; exact hw
    | cons op ops ih =>
      intro pre h0 h e0 hw e hs
      rw [runOps_cons, R.bind_eq_ok] at e
      obtain ⟨h1, e1, e2⟩ := e
      refine ih (pre ++ [op]) h1 h (by rw [runOps_append, e0, R.bind_ok, runOps_cons, e1]; rfl) ?_ e2 (by simpa using hs)
      exact (Op.run_wf_iff (runOps_good e0) hw e1).2 (hs pre op ops h0 rfl e0)

/-- C09, test: twice a view of the whole tensor, reshaped, is fine; twice a part of it is not. -/
example : (do let h ← runOps [] [Op.new [1, 2, 3, 4] [4], .leftMul 2 (.view (.reshape (.view 0 [⟨0, 4⟩]) [2, 2]))]; return dataOf h 1) =
      (.ok (some ⟨[2, 4, 6, 8], [2, 2]⟩) : R (Option (Raw Int))) ∧
    viewedSize (.reshape (.view 0 [⟨0, 4⟩]) [2, 2]) = 4 ∧ viewedSize (.slice (.view 0 [⟨0, 4⟩]) [⟨1, 3⟩]) = 2 := by decide

end

/-- C31, exactly: the gradient of a sum is right if and only if the upstream gradient is 1 or there is nothing to sum. -/
theorem C31_exact [One T] (t : Raw T) (g : T) :
    (∃ a, onesJvp [t] [⟨[g], [1, 1]⟩] = .ok [a] ∧ a.shape = [1, t.shape.prod] ∧
      ∀ e, InRange t.shape e → Raw.elem? a [0, rowMajor t.shape e] = some g) ↔ g = 1 ∨ 0 ∈ t.shape := by
  obtain ⟨b, h1, h2, h3, h4⟩ := C31_actual t ⟨[g], [1, 1]⟩
  have h2' : b.shape = [1, t.shape.prod] := by simpa using h2
  have hel : ∀ e, InRange t.shape e → Raw.elem? b [0, rowMajor t.shape e] = some (1 : T) := by
    intro e he
    have hin : InRange b.shape [0, rowMajor t.shape e] := by rw [h2']; exact inRange2.2 ⟨by omega, rowMajor_lt he⟩
    obtain ⟨v, hv, _⟩ := Raw.get_ok h3 hin
    rw [hv]
    congr 1
    exact h4 v (List.mem_of_getElem? hv)
  constructor
  · rintro ⟨a, k1, k2, k3⟩
    rw [h1] at k1
    simp only [Except.ok.injEq, List.cons.injEq, and_true] at k1
    subst k1
    by_contra hc
    rw [not_or] at hc
    have h0 : InRange t.shape (List.replicate t.shape.length 0) :=
      inRange_zero fun d hd => Nat.pos_of_ne_zero fun hd0 => hc.2 (hd0 ▸ hd)
    have := k3 _ h0
    rw [hel _ h0] at this
    exact hc.1 (Option.some.inj this).symm
  · rintro (rfl | h0)
    · exact ⟨b, h1, h2', hel⟩
    · refine ⟨b, h1, h2', fun e he => absurd h0 ?_⟩
      clear hel h2 h2' h1 h0
      unfold InRange at he
      generalize t.shape = s at he
      induction he with
      | nil => simp
      | cons h _ ih =>
        rw [List.mem_cons, not_or]
        exact ⟨by omega, ih⟩

example : onesJvp [(⟨[], [0, 3]⟩ : Raw Int)] [⟨[-1], [1, 1]⟩] = .ok [⟨[], [1, 0]⟩] := by decide

end RL
