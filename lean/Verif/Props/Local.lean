import Verif.Lemmas.Local
import Verif.Props.Memory

/-!
# C109: an operation depends on and changes only what its operands lead to
-/

namespace RL

open Spec Relation

section

variable {T : Type} [Zero T] [One T] [Add T] [Mul T] [Sub T] [Neg T] [LT T] [DecidableLT T] [LE T] [DecidableLE T] [RealFn T]

/-- C109: an operation has the same outcome in all states that agree on what its operands lead to, creates the same tensors and changes what the
operands lead to in the same way, and changes nothing else. This is for all states, also those no program reaches. -/
theorem C109_local (h g : Heap T) (o : Op T) (hl : h.length = g.length) (hag : ∀ i, LeadsTo h o i → h[i]? = g[i]?) :
    SameOutcome (SameWhere (fun i => LeadsTo h o i ∨ h.length ≤ i) h g) (o.run h) (o.run g) :=
  (Op.run_local (agree_start (X := (· ∈ o.ids)) hl fun x i hx hi => hag i ⟨x, hx, hi⟩) o
    fun i hi => Or.inl ⟨i, hi, .refl⟩).mono fun _ _ h => h.toSameWhere

/-- C109 for programs: `X` are the tensors that exist at the start and that the program uses; what it creates it may use as it likes. -/
theorem C109_program (h g : Heap T) (X : Nat → Prop) (os : List (Op T)) (hX : ∀ o ∈ os, ∀ i ∈ o.ids, X i ∨ h.length ≤ i) (hl : h.length = g.length)
    (hag : ∀ x i, X x → ReflTransGen (Refers h) x i → h[i]? = g[i]?) :
    SameOutcome (SameWhere (fun i => (∃ x, X x ∧ ReflTransGen (Refers h) x i) ∨ h.length ≤ i) h g) (runOps h os) (runOps g os) :=
  (runOps_local (agree_start hl hag) os fun o ho i hi => (hX o ho i hi).imp (fun h => ⟨i, h, .refl⟩) id).mono fun _ _ h => h.toSameWhere

/-- C109: all operands are needed: an operation without one of them fails. (`sub` creates a tensor before it looks at its left operand. That it is
this tensor can be said in the model, but not in a Rust program.) -/
theorem C109_operands (h h' : Heap T) (o : Op T) (hf : h.length ∉ o.ids) (e : o.run h = .ok h') : ∀ i ∈ o.ids, i < h.length := Op.ids_exist hf e

/-- C109, C67: freed tensors are never looked at: whatever is in their place, an operation on tensors the program owns has the same outcome, and
does the same to the tensors in memory and those it creates. -/
theorem C109_freed (os : List (MemOp T)) (m : Mem T) (e : runMem Mem.empty os = .ok m) (o : Op T) (ho : ∀ i ∈ o.ids, i ∈ m.held) (g : Heap T)
    (hl : m.heap.length = g.length) (hag : ∀ i, Live m i → m.heap[i]? = g[i]?) :
    SameOutcome (fun h' g' => h'.length = g'.length ∧ (∀ i, Live m i ∨ m.heap.length ≤ i → h'[i]? = g'[i]?) ∧
      ∀ i, i < m.heap.length → ¬ Live m i → h'[i]? = m.heap[i]? ∧ g'[i]? = g[i]?) (o.run m.heap) (o.run g) := by
  have live : ∀ i, LeadsTo m.heap o i → Live m i := fun i ⟨x, hx, hi⟩ => C67_safe os m e i ⟨x, ho x hx, hi⟩
  refine (C109_local m.heap g o hl fun i hi => hag i (live i hi)).mono fun h' g' hs => ⟨hs.length, ?_, ?_⟩
  · intro i hi
    by_cases hc : LeadsTo m.heap o i ∨ m.heap.length ≤ i
    · exact hs.same i hc
    · obtain ⟨h1, h2⟩ := hs.kept i hc
      rw [h1, h2]
      exact hag i (hi.resolve_right fun h => hc (Or.inr h))
  · intro i hi hd
    exact hs.kept i fun hc => hc.elim (fun h => hd (live i h)) (by omega)

end

section
attribute [local instance] Test.intFn

/-- test: `-a`, the sum of `b`, and `-a` again with other values in `b` -/
def C109_heap (b : List Int) : R (Heap Int) := runOps [] [.new [1, 2] [2], .new b [2], .neg 0, .sum 1]

/-- C109, test: `backward` of the sum of `-a` leads to `a`, and does the same to it whatever is in `b` and in the sum of `b`. -/
example : ∃ h g h' g', C109_heap [3, 4] = .ok h ∧ C109_heap [5, 6] = .ok g ∧
    runOps h [.sum 2, .backward 6] = .ok h' ∧ runOps g [.sum 2, .backward 6] = .ok g' ∧
    gradOf h' 0 = some ⟨[-1, -1], [2]⟩ ∧ gradOf g' 0 = some ⟨[-1, -1], [2]⟩ ∧ dataOf h' 1 = some ⟨[3, 4], [2]⟩ ∧ dataOf g' 1 = some ⟨[5, 6], [2]⟩ := by
  refine ⟨_, _, _, _, rfl, rfl, rfl, rfl, ?_⟩; decide +kernel

/-- C109_freed, test: the hypotheses hold for a program that has dropped tensor 0, and other contents for tensor 0. -/
example : ∃ m : Mem Int, runMem Mem.empty [.op (.new [1, 2] [2]), .op (.rawUnary id (.tensor 0)), .drop 0] = .ok m ∧ (∀ i ∈ (Op.neg (T := Int) 1).ids, i ∈ m.held) ∧
    m.count 0 = 0 ∧ m.count 1 = 1 := ⟨_, rfl, by decide, by decide, by decide⟩

end

end RL
