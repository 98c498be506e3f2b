import Verif.Lemmas.Panic
import Verif.Lemmas.TestInt

/-!
# What is left behind by a panic (C75)
-/

namespace RL

open Spec

section

variable {T : Type} [Zero T] [One T] [Add T] [Mul T] [Sub T] [Neg T] [LT T] [DecidableLT T] [LE T] [DecidableLE T] [RealFn T]

/-- C75, full statement: an operation that panics changes no tensor. It is false: see `C75_false`. -/
def C75_statement : Prop := ∀ (h h' : Heap T) (op : Op T) (e : Fail), Reachable h → op.runS h = (h', .error e) →
  ∀ t, t < h.length → dataOf h' t = dataOf h t ∧ historyOf h' t = historyOf h t ∧ gradOf h' t = gradOf h t

/-- C75: the model with the heap that is left behind computes the same results and fails in the same way. -/
theorem C75_model (h : Heap T) (op : Op T) : (∀ h', op.run h = .ok h' ↔ op.runS h = (h', .ok ())) ∧
    ∀ e, op.run h = .error e ↔ ∃ h', op.runS h = (h', .error e) := by
  rw [← forget_runS]
  rcases op.runS h with ⟨k, e | u⟩ <;> simp [forget]

/-- C75 for the data and history of all tensors, and the gradients of all tensors that the loss does not depend on. Missing: gradients of
tensors that the loss of a `backward` that panics depends on, for which it is false. -/
theorem C75_partial (h h' : Heap T) (op : Op T) (e : Fail) (hr : Reachable h) (hop : op.runS h = (h', .error e)) (t : Nat) (ht : t < h.length) :
    dataOf h' t = dataOf h t ∧ historyOf h' t = historyOf h t ∧
      ((∀ l, op = .backward l → ¬ Ancestor h t l) → gradOf h' t = gradOf h t) := by
  cases op with
  | backward l =>
    obtain ⟨us, h1, h2⟩ := backwardS_updates hr.good l
    have hop' : backwardS h l = (h', .error e) := hop
    rw [hop'] at h1
    have hn := List.getElem?_eq_getElem ht
    have hf := applyUpdates_frame h1
    obtain ⟨g, hg⟩ := hf.get hn
    refine ⟨by simp [dataOf, hn, hg], by simp [historyOf, hn, hg], fun ha => ?_⟩
    have ho := applyUpdates_other (t := t) (fun u hu hut => ha l rfl (hut ▸ (h2 u hu).1)) ht h1
    simp only [gradOf, ho, hn, Option.bind_some]
    cases hgr : (h[t]).grad with
    | none => rfl
    | some q =>
      have hq := (hr.good t _ hn).grad q hgr
      have hnq := List.getElem?_eq_getElem hq
      obtain ⟨g', hg'⟩ := hf.get hnq
      simp [hg', hnq]
  | _ =>
    obtain rfl := runS_other (by simp) hop
    exact ⟨rfl, rfl, fun _ => rfl⟩

/-- C75: what a `backward` has done before it panics are gradient updates of tensors that the loss depends on, with contributions of the
shape of the tensor. -/
theorem C75_updates (h h' : Heap T) (l : Nat) (r : R Unit) (hr : Reachable h) (e : (Op.backward l : Op T).runS h = (h', r)) :
    ∃ us : List (Nat × Raw T), performUpdates h us = .ok h' ∧
      ∀ u ∈ us, Ancestor h u.1 l ∧ (dataOf h u.1).map (·.shape) = some u.2.shape ∧ WF u.2 := by
  obtain ⟨us, h1, h2⟩ := backwardS_updates hr.good l
  have e' : backwardS h l = (h', r) := e
  rw [e'] at h1
  exact ⟨us, h1, h2⟩

/-- C75: a program that catches panics and goes on only meets states that a program without panics can meet, so what is proved about
these holds for it. -/
theorem C75_reachable (ops : List (Op T)) : Reachable (runCaught ([] : Heap T) ops) :=
  runCaught_reachable ⟨[], rfl⟩ ops

/-- C75: operations other than `backward` leave everything as it was. -/
theorem C75_other (h h' : Heap T) (op : Op T) (e : Fail) (ho : ∀ l, op ≠ .backward l) (hop : op.runS h = (h', .error e)) : h' = h :=
  runS_other ho hop

end

section

attribute [local instance] Test.intFn

/-- C75: `sum x + dot a b`. -/
def C75_witness : List (Op Int) := [.new [1, 2] [2], .sum 0, .new [3, 4] [2], .new [5, 6] [2], .dot 3 4, .add 2 5]

/-- C75 is false: `backward` has updated the gradient of `x` when it panics at the product. -/
theorem C75_false : ¬ C75_statement (T := Int) := by
  intro hs
  have h1 : ∃ h h' e, runOps [] C75_witness = .ok h ∧ (Op.backward 6 : Op Int).runS h = (h', .error e) ∧ 0 < h.length ∧ gradOf h 0 = none ∧
      gradOf h' 0 = some ⟨[1, 1], [2]⟩ := by
    have h2 : (match runOps [] C75_witness with
        | .ok h => (match (Op.backward 6 : Op Int).runS h with
          | (h', .error _) => decide (0 < h.length) && decide (gradOf h 0 = none) && decide (gradOf h' 0 = some ⟨[1, 1], [2]⟩)
          | _ => false)
        | _ => false) = true := by decide +kernel
    cases e1 : runOps [] C75_witness with
    | error f => rw [e1] at h2; cases h2
    | ok h =>
      rw [e1] at h2
      dsimp only at h2
      rcases e2 : (Op.backward 6 : Op Int).runS h with ⟨h', f | u⟩
      · rw [e2] at h2
        simp only [Bool.and_eq_true, decide_eq_true_eq] at h2
        exact ⟨h, h', f, rfl, e2, h2.1.1, h2.1.2, h2.2⟩
      · rw [e2] at h2
        cases h2
  obtain ⟨h, h', e, h2, h3, h4, h5, h6⟩ := h1
  have h7 := (hs h h' _ e ⟨_, h2⟩ h3 0 h4).2.2
  rw [h5, h6] at h7
  cases h7

/-- C75, test: the tensors can be used after the panic: the second loss adds to the gradient that was left behind. -/
example : gradOf (runCaught [] (C75_witness ++ [.backward 6])) 0 = some ⟨[1, 1], [2]⟩ ∧
    gradOf (runCaught [] (C75_witness ++ [.backward 6, .backward 2])) 0 = some ⟨[2, 2], [2]⟩ := by
  constructor <;> decide +kernel

/-- C75, test: an operation other than `backward` that panics. -/
example : ((Op.bmm 0 0 : Op Int).runS [leafNode ⟨[1, 2], [2]⟩]).1 = [leafNode ⟨[1, 2], [2]⟩] ∧
    ((Op.bmm 0 0 : Op Int).runS [leafNode ⟨[1, 2], [2]⟩]).2.toOption = none := by
  constructor <;> decide +kernel

end

end RL
