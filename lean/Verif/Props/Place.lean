import Verif.Lemmas.Place
import Verif.Lemmas.TestInt

/-!
# C95, C96: what a program computes does not depend on the other tensors there are
-/

namespace RL

open Spec

variable {T : Type} [Zero T] [One T] [Add T] [Mul T] [Sub T] [Neg T] [LT T] [DecidableLT T] [LE T] [DecidableLE T] [RealFn T]

/-- C95. The same operations on tensors that are somewhere else, among others, have the same outcome: the same error or panic, or tensors
with the same data, gradients and histories at the corresponding places. No other tensor changes. -/
theorem C95_place {w : Nat → Nat} {b g h : Heap T} (hg : Reachable g) (hp : Placed w b g h) (ops : List (Op T)) :
    SameOutcome (Placed w b) (runOps g ops) (runOps h (ops.map (movedOp w))) :=
  runOps_at hp hg.good ops

/-- C95, from the start of a program: whatever tensors `h` there are before, it fails as it does when there are none, or makes the same
tensors, and those before stay as they are. -/
theorem C95_fresh (h : Heap T) (ops : List (Op T)) :
    (∀ g, runOps [] ops = .ok g → ∃ h', runOps h (ops.map (movedOp fun i => h.length + i)) = .ok h' ∧ h'.length = h.length + g.length ∧
      Held (List.range' h.length g.length) g h' ∧ ∀ p < h.length, h'[p]? = h[p]?) ∧
    ∀ e, runOps [] ops = .error e ↔ runOps h (ops.map (movedOp fun i => h.length + i)) = .error e := by
  have hp : Placed (fun i => h.length + i) h ([] : Heap T) h :=
    ⟨fun i _ => rfl, fun i j e => Nat.add_left_cancel e, fun i n hn => by simp at hn, fun _ _ => rfl⟩
  have h1 := runOps_at hp Heap.good_nil ops
  cases e1 : runOps ([] : Heap T) ops with
  | error x =>
    rw [e1] at h1
    cases e2 : runOps h (ops.map (movedOp fun i => h.length + i)) with
    | error y =>
      rw [e2] at h1
      cases h1
      exact ⟨(fun _ e => nomatch e), fun _ => Iff.rfl⟩
    | ok y => rw [e2] at h1; exact h1.elim
  | ok g =>
    rw [e1] at h1
    cases e2 : runOps h (ops.map (movedOp fun i => h.length + i)) with
    | error y => rw [e2] at h1; exact h1.elim
    | ok h' =>
      rw [e2] at h1
      have h2 : Placed (fun i => h.length + i) h g h' := h1
      have hl : h.length + g.length = h'.length := by simpa using h2.next g.length (le_refl _)
      refine ⟨fun g' e => ?_, fun e => ⟨(fun e => nomatch e), fun e => nomatch e⟩⟩
      cases e
      refine ⟨h', rfl, hl.symm, ?_, fun p hp' => h2.rest p fun i => by omega⟩
      have hw : placeOf (List.range' h.length g.length) h'.length = fun i => h.length + i := by
        have := placeOf_append (ws := []) (n := h.length) (k := g.length)
        rw [List.nil_append, hl] at this
        rw [this]
        funext i
        rw [placeOf_ge (Nat.zero_le _)]
        rfl
      refine At.held ⟨by simp, ?_, Reachable.good ⟨ops, e1⟩⟩
      rw [hw]
      exact ⟨h2.next, h2.inj, h2.same, fun _ _ => rfl⟩

/-- C96. Two programs that take turns in any order, each using its own tensors only: if no operation fails then each program alone runs
through, and each has made the tensors it makes alone, with the same data, gradients and histories. The two share no tensor, and no tensor
from before changes. -/
theorem C96_turns (h : Heap T) (turns : List (Op T ⊕ Op T)) (s : Mix T) (e : Mix.run ⟨h, [], []⟩ turns = .ok s) :
    ∃ a c, runOps [] (turns.filterMap Sum.getLeft?) = .ok a ∧ runOps [] (turns.filterMap Sum.getRight?) = .ok c ∧
      Held s.first a s.heap ∧ Held s.second c s.heap ∧ (∀ p ∈ s.first, p ∉ s.second) ∧
      (∀ p, p < s.heap.length ↔ p < h.length ∨ p ∈ s.first ∨ p ∈ s.second) ∧ ∀ p < h.length, s.heap[p]? = h[p]? := by
  obtain ⟨a, c, h1, h2, h3⟩ := ((Both.start h).runs turns).1 s e
  refine ⟨a, c, h1, h2, h3.first.held, h3.second.held, h3.disjoint, fun p => ⟨fun hp => ?_, fun hp => ?_⟩, h3.keeps⟩
  · exact (Nat.lt_or_ge p h.length).imp id fun hl => h3.all p hl hp
  · rcases hp with hp | hp | hp
    · exact hp.trans_le h3.len
    · exact h3.first.lt hp
    · exact h3.second.lt hp

/-- C96: taking turns fails only where one of the programs fails alone, and in the same way. -/
theorem C96_fails (h : Heap T) (turns : List (Op T ⊕ Op T)) (x : Fail) (e : Mix.run ⟨h, [], []⟩ turns = .error x) :
    runOps ([] : Heap T) (turns.filterMap Sum.getLeft?) = .error x ∨ runOps ([] : Heap T) (turns.filterMap Sum.getRight?) = .error x :=
  ((Both.start h).runs turns).2 x e

/-- C96: two programs can take turns in every order if and only if both run through alone. -/
theorem C96_succeeds (h : Heap T) (turns : List (Op T ⊕ Op T)) :
    (∃ s, Mix.run ⟨h, [], []⟩ turns = .ok s) ↔ (∃ a, runOps ([] : Heap T) (turns.filterMap Sum.getLeft?) = .ok a) ∧
      ∃ c, runOps ([] : Heap T) (turns.filterMap Sum.getRight?) = .ok c := by
  constructor
  · rintro ⟨s, e⟩
    obtain ⟨a, c, h1, h2, -⟩ := ((Both.start h).runs turns).1 s e
    exact ⟨⟨a, h1⟩, c, h2⟩
  · rintro ⟨⟨a, h1⟩, c, h2⟩
    cases e : Mix.run ⟨h, [], []⟩ turns with
    | ok s => exact ⟨s, rfl⟩
    | error x =>
      rcases C96_fails h turns x e with h3 | h3
      · rw [h1] at h3; cases h3
      · rw [h2] at h3; cases h3

section tests

attribute [local instance] Test.intFn

/-- C95, test: a dot product with gradients, alone and after three other tensors. -/
example : (do
      let g ← runOps ([] : Heap Int) [.new [3, 4] [2], .new [5, 6] [2], .dot 0 1, .backward 2]
      let h ← runOps ([] : Heap Int) [.new [1] [1], .neg 0, .add 0 1]
      let h' ← runOps h ([Op.new [3, 4] [2], .new [5, 6] [2], .dot 0 1, .backward 2].map (movedOp fun i => 3 + i))
      return (gradOf g 0, gradOf g 1, gradOf h' 3, gradOf h' 4, h'.length, h.length + g.length, historyOf h' 5)) =
    .ok (some ⟨[5, 6], [2]⟩, some ⟨[3, 4], [2]⟩, some ⟨[5, 6], [2]⟩, some ⟨[3, 4], [2]⟩, 8, 8,
      some (some { inputs := [3, 4], kind := .dot })) := by
  rfl

/-- C95, test: the hypotheses of `C95_place`: the tensors of a product at other places, in another order, with an unrelated tensor between
them. -/
example : Placed (fun i => if i = 0 then 2 else if i = 1 then 0 else i + 1)
    [leafNode ⟨[7], [1]⟩, leafNode ⟨[0], [1]⟩, leafNode ⟨[5], [1]⟩]
    ([leafNode ⟨[5], [1]⟩, leafNode ⟨[7], [1]⟩] : Heap Int)
    [leafNode ⟨[7], [1]⟩, leafNode ⟨[0], [1]⟩, leafNode ⟨[5], [1]⟩] := by
  refine ⟨fun i hi => ?_, fun i j e => ?_, fun i n hn => ?_, fun _ _ => rfl⟩
  · simp only [List.length_cons, List.length_nil] at hi ⊢
    rw [if_neg (by omega), if_neg (by omega)]
    omega
  · change (if i = 0 then 2 else if i = 1 then 0 else i + 1) = (if j = 0 then 2 else if j = 1 then 0 else j + 1) at e
    split_ifs at e <;> omega
  · match i with
    | 0 => cases hn; rfl
    | 1 => cases hn; rfl
    | i + 2 => simp at hn

/-- C96, test: two programs taking turns, with their gradients. -/
example : (do
      let s ← Mix.run (T := Int) ⟨[], [], []⟩ [.inl (.new [3, 4] [2]), .inr (.new [1, 2] [2]), .inl (.new [5, 6] [2]), .inr (.sum 0),
        .inl (.dot 0 1), .inr (.backward 2), .inl (.backward 2)]
      return (s.first, s.second, gradOf s.heap 0, gradOf s.heap 2, gradOf s.heap 1)) =
    .ok ([0, 2, 5, 7, 8], [1, 3, 4, 6], some ⟨[5, 6], [2]⟩, some ⟨[3, 4], [2]⟩, some ⟨[1, 1], [2]⟩) := by
  rfl

/-- C96, test: the second program fails alone, and therefore when taking turns. -/
example : Mix.run (T := Int) ⟨[], [], []⟩ [.inl (.new [3, 4] [2]), .inr (.new [1, 2] [2]), .inr (.backward 0)] =
    (runOps [] [.new [1, 2] [2], .backward 0] >>= fun _ => .error (.panic .assert)) := by
  rfl

end tests

end RL
