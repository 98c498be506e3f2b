import Verif.Lemmas.MachineFits2
import Verif.Lemmas.MachineQuiet
import Verif.Lemmas.TestInt
import Verif.Props.Graph

/-!
# Whole programs in the debug and release profiles (C84, C85)
-/

namespace RL

open Spec

section

variable {T : Type} [Zero T] [One T] [Add T] [Mul T] [Sub T] [Neg T] [LT T] [DecidableLT T] [LE T] [DecidableLE T] [RealFn T]

/-- C84 for programs that in the debug profile end neither with an overflow nor with a failed `debug_assert`: the outcome (tensors,
gradients, history, error or panic) is the same in the release profile, and with unbounded numbers. Missing: programs that end with
one of these two panics, for which it is false: see `C84_false` and `C84_false_assert`. -/
theorem C84_partial (ops : List (Op T)) :
    runOpsU .debug [] ops = .error (.panic .overflow) ∨ runOpsU .debug [] ops = .error (.panic .debugAssert) ∨
      (runOpsU .release [] ops = runOpsU .debug [] ops ∧ runOps [] ops = runOpsU .debug [] ops) := by
  have hn := runOpsU_nat (T := T) [] ops
  have hp := runOpsU_into (T := T) .release [] ops
  cases h : runOpsU .debug [] ops with
  | ok a => exact .inr (.inr ⟨hp.ok a h, hn.ok a h⟩)
  | error e =>
    rcases hn.err e h with (rfl | rfl) | h1
    · exact .inl rfl
    · exact .inr (.inl rfl)
    · rcases hp.err e h with ((rfl | rfl) | rfl) | h2
      · exact .inl rfl
      · exact .inr (.inl rfl)
      · exact absurd h1 (C35_terminates ops)
      · exact .inr (.inr ⟨h2, h1⟩)

/-- C84: what a program computes in the debug profile it also computes in the release profile and with unbounded numbers. -/
theorem C84_ok (ops : List (Op T)) (h : Heap T) (hr : runOpsU .debug [] ops = .ok h) :
    runOpsU .release [] ops = .ok h ∧ runOps [] ops = .ok h := by
  rcases C84_partial ops with h1 | h1 | h1
  · rw [h1] at hr; cases hr
  · rw [h1] at hr; cases hr
  · rwa [hr] at h1

/-- C84: the same for a program that is continued from any tensors. -/
theorem C84_from (h : Heap T) (ops : List (Op T)) (h' : Heap T) (hr : runOpsU .debug h ops = .ok h') :
    runOpsU .release h ops = .ok h' ∧ runOps h ops = .ok h' :=
  ⟨(runOpsU_into .release h ops).ok _ hr, (runOpsU_nat h ops).ok _ hr⟩

/-- C84: no program loops forever in the debug profile. -/
theorem C84_terminates (ops : List (Op T)) : runOpsU .debug [] ops ≠ .error (.panic .diverge) := by
  intro h
  rcases C84_partial ops with h1 | h1 | ⟨_, h1⟩
  · rw [h1] at h; cases h
  · rw [h1] at h; cases h
  · rw [h] at h1; exact C35_terminates ops h1

/-- C84: in the release profile no program, from any tensors, ends with an overflow or a failed `debug_assert`. -/
theorem C84_release (h : Heap T) (ops : List (Op T)) : runOpsU .release h ops ≠ .error (.panic .overflow) ∧
    runOpsU .release h ops ≠ .error (.panic .debugAssert) := runOpsU_quiet h ops

/-- C85: if a program computes something with unbounded numbers and all tensors it makes (gradients included) fit, it computes the same in both
profiles: nothing overflows, no `debug_assert` fails, no result is wrapped. -/
theorem C85 (ops : List (Op T)) (h : Heap T) (hr : runOps [] ops = .ok h) (hf : GraphFits h) (ho : ∀ op ∈ ops, OpFits op) :
    runOpsU .debug [] ops = .ok h ∧ runOpsU .release [] ops = .ok h := by
  have h1 := runOpsU_ok Heap.good_nil hr hf ho
  exact ⟨h1, (C84_ok ops h h1).1⟩

/-- C85: for tensors that fit, computing them in the debug profile and with unbounded numbers is the same. -/
theorem C85_iff (ops : List (Op T)) (h : Heap T) (hf : GraphFits h) (ho : ∀ op ∈ ops, OpFits op) :
    runOpsU .debug [] ops = .ok h ↔ runOps [] ops = .ok h :=
  ⟨fun h1 => (C84_ok ops h h1).2, fun h1 => (C85 ops h h1 hf ho).1⟩

/-- C85: tensors whose nonzero dimensions have a product less than 2^32 fit. -/
theorem C85_small (ops : List (Op T)) (h : Heap T) (hr : runOps [] ops = .ok h)
    (hs : ∀ (i : Nat) (t : Raw T), dataOf h i = some t → (t.shape.map (max 1)).prod < 2 ^ 32) (ho : ∀ op ∈ ops, OpFits op) :
    runOpsU .debug [] ops = .ok h ∧ runOpsU .release [] ops = .ok h := by
  refine C85 ops h hr ⟨fun i t ht => lt_trans (hs i t ht) (by decide), fun i j t _ hj => ?_⟩ ho
  exact lt_of_le_of_lt (prod_le_prod_max _) (hs j t hj)

/-- C85: the same for a program that is continued from tensors made earlier. -/
theorem C85_from (before ops : List (Op T)) (h0 h : Heap T) (hb : runOps [] before = .ok h0) (hr : runOps h0 ops = .ok h) (hf : GraphFits h)
    (ho : ∀ op ∈ ops, OpFits op) : runOpsU .debug h0 ops = .ok h ∧ runOpsU .release h0 ops = .ok h := by
  have h1 := runOpsU_ok (runOps_good hb) hr hf ho
  exact ⟨h1, (C84_from h0 ops h h1).1⟩

end

section

attribute [local instance] Test.intFn

/-- C84, full statement: a program has the same outcome in both profiles. -/
def C84_statement : Prop := ∀ ops : List (Op Int), runOpsU .debug [] ops = runOpsU .release [] ops

/-- C84 is false: a wrapped product passes the check of `new`. -/
theorem C84_false : ¬ C84_statement := by
  intro h
  exact absurd (h [.new [] [2 ^ 32, 2 ^ 32]]) (by decide +kernel)

/-- C84 is false also for tensors of two elements: the gradient of `dot` of tensors of rank 3, one of which is the output of `relu`,
fails a `debug_assert` in the debug profile; in the release profile there are gradients. -/
theorem C84_false_assert : runOpsU .debug [] [Op.new [3, -4] [1, 1, 2], .relu 0, .dot 1 0, .backward (2 : Nat)] =
      (.error (.panic .debugAssert) : R (Heap Int)) ∧
    (do
      let h ← runOpsU .release [] [Op.new [(3 : Int), -4] [1, 1, 2], .relu 0, .dot 1 0, .backward 2]
      return (← (gradOf h 0 : Option (Raw Int)).elim (R.panic .unwrap) pure)) = (.ok ⟨[6, 0], [1, 1, 2]⟩ : R (Raw Int)) := by
  constructor <;> decide +kernel

/-- TEST of the hypothesis of `C84_ok`: a program with a broadcast, a product of matrices and `backward`. -/
example : (do
    let h ← runOpsU .debug [] [Op.new [(1 : Int), 2, 3, 4] [2, 2], .new [5, 6, 7, 8] [2, 2], .bmm 0 1, .new [1, -1] [1, 2],
      .add 2 3, .relu 4, .sum 5, .backward 7]
    return (h.length, (gradOf h 1).map Raw.array)) = (.ok (14, some [4, 4, 6, 6]) : R (Nat × Option (List Int))) := by decide +kernel

/-- TEST of the hypotheses of `C85`: a program with a reshaped view, `tanh` and `backward`. -/
example : ∃ h, runOps [] [Op.new [(1 : Int), 2, 3, 4] [2, 2], .viewToTensor (.reshape (.view 0 [⟨0, 2⟩, ⟨0, 2⟩]) [2, 2]), .tanh 1, .sum 2, .backward 4] = .ok h ∧
    GraphFits h ∧ OpFits (Op.viewToTensor (T := Int) (.reshape (.view 0 [⟨0, 2⟩, ⟨0, 2⟩]) [2, 2])) := by
  have h1 : (do
      let h ← runOps [] [Op.new [(1 : Int), 2, 3, 4] [2, 2], .viewToTensor (.reshape (.view 0 [⟨0, 2⟩, ⟨0, 2⟩]) [2, 2]), .tanh 1, .sum 2, .backward 4]
      return h.map (·.val.shape)) = (.ok [[2, 2], [2, 2], [2, 2], [2, 2], [], [2, 2], [2, 2]] : R (List (List Nat))) := by decide +kernel
  rw [R.bind_eq_ok] at h1
  obtain ⟨h, hr, h1⟩ := h1
  rw [R.pure_eq_ok] at h1
  have h2 : ∀ (i : Nat) (t : Raw Int), dataOf h i = some t → t.shape = [2, 2] ∨ t.shape = [] := by
    intro i t ht
    simp only [dataOf, Option.map_eq_some_iff] at ht
    obtain ⟨n, hn, rfl⟩ := ht
    have h3 : n.val.shape ∈ h.map (·.val.shape) := List.mem_map_of_mem (List.mem_of_getElem? hn)
    rw [h1] at h3
    simp at h3
    tauto
  refine ⟨h, hr, ⟨fun i t ht => ?_, fun i j t _ ht => ?_⟩, trivial, by simp [Fits]⟩
  · rcases h2 i t ht with h3 | h3 <;> simp [h3, Fits]
  · rcases h2 j t ht with h3 | h3 <;> simp [h3]

/-- TEST that `GraphFits` cannot be dropped from `C85`: an empty tensor with dimensions whose product wraps. -/
example : (do let h ← runOps [] [Op.new ([] : List Int) [2 ^ 32, 2 ^ 32, 0]]; return h.length) = (.ok 1 : R Nat) ∧
    runOpsU .debug [] [Op.new ([] : List Int) [2 ^ 32, 2 ^ 32, 0]] = .error (.panic .overflow) := by
  constructor <;> decide +kernel

/-- TEST that `OpFits` cannot be dropped from `C85`: the `dot` of an empty view with itself, reshaped to dimensions whose product wraps. -/
example : (do
      let h ← runOps [] [Op.new ([] : List Int) [0], .rawBin .dot (.view (.reshape (.view 0 [⟨0, 0⟩]) [2 ^ 32, 2 ^ 32, 0]))
        (.view (.reshape (.view 0 [⟨0, 0⟩]) [2 ^ 32, 2 ^ 32, 0]))]
      return h.map (·.val.shape)) = (.ok [[0], [1]] : R (List (List Nat))) ∧
    runOpsU .debug [] [Op.new ([] : List Int) [0], .rawBin .dot (.view (.reshape (.view 0 [⟨0, 0⟩]) [2 ^ 32, 2 ^ 32, 0]))
        (.view (.reshape (.view 0 [⟨0, 0⟩]) [2 ^ 32, 2 ^ 32, 0]))] = .error (.panic .overflow) := by
  constructor <;> decide +kernel

end

end RL
