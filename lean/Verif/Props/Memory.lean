import Verif.SpecMemory
import Verif.Lemmas.MemCycle
import Verif.Lemmas.MemAccum
import Verif.Lemmas.MemDepth
import Verif.Lemmas.TestInt
import Verif.Lemmas.TrainTree
import Verif.Props.Nn

/-!
# Memory: reference counts, leaks and the drop of long histories (C67-C70)
-/

namespace RL

open Spec Relation

variable {T : Type}

/-! ## no use after free, no leak without a cycle (C67) -/

section
variable [Zero T] [One T] [Add T] [Mul T] [Sub T] [Neg T] [LT T] [DecidableLT T] [LE T] [DecidableLE T] [RealFn T]

/-- C67, full statement: after every program exactly the tensors are in memory that the program can still get at. It is false: see
`C67_false`. -/
def C67_statement (T : Type) [Zero T] [One T] [Add T] [Mul T] [Sub T] [Neg T] [LT T] [DecidableLT T] [LE T] [DecidableLE T]
    [RealFn T] : Prop :=
  ∀ (os : List (MemOp T)) (m : Mem T), runMem Mem.empty os = .ok m → ∀ i, Live m i ↔ InUse m i

/-- C67: counting references does not change what a program computes: an operation on tensors the program owns has the result, error or
panic it has in the graph model, in which nothing is ever freed. -/
theorem C67_heap (os : List (MemOp T)) (m : Mem T) (e : runMem Mem.empty os = .ok m) :
    runOps [] (graphOps os) = .ok m.heap ∧
    ∀ o : Op T, (∀ i ∈ o.ids, i ∈ m.held) → (m.op o).map Mem.heap = o.run m.heap := by
  obtain ⟨h1, h2⟩ := runMem_inv os Mem.inv_empty e
  refine ⟨h2, fun o ho => ?_⟩
  have h3 := Mem.op_sim h1 ho
  cases ex : o.run m.heap with
  | error er => rw [ex] at h3; rw [show m.op o = .error er from h3]; rfl
  | ok h' =>
    rw [ex] at h3
    obtain ⟨m1, h4, h5, _⟩ := h3
    rw [h4, ← h5]; rfl

/-- C67: and it can be applied to these tensors only. -/
theorem C67_owned (os : List (MemOp T)) (m m' : Mem T) (_ : runMem Mem.empty os = .ok m) (o : Op T) (e : m.op o = .ok m') :
    ∀ i ∈ o.ids, i ∈ m.held := Mem.op_ids e

/-- C67: what the program owns after an operation: `backward`, `zero_grad` and `update_grad` change nothing, the others add the
last tensor they created. -/
theorem C67_held (os : List (MemOp T)) (m m' : Mem T) (e : runMem Mem.empty os = .ok m) (o : Op T) (eo : m.op o = .ok m') :
    m'.held = if o.isGrad then m.held else (m'.heap.length - 1) :: m.held := by
  obtain ⟨h1, _⟩ := runMem_inv os Mem.inv_empty e
  have h3 := Mem.op_sim h1 (Mem.op_ids eo)
  cases ex : o.run m.heap with
  | error er => rw [ex] at h3; rw [show m.op o = .error er from h3] at eo; cases eo
  | ok h' =>
    rw [ex] at h3
    obtain ⟨m1, h4, _, _, h5⟩ := h3
    rw [h4] at eo; cases eo
    exact h5

/-- C67: every count is the number of references to the tensor: those of the program and those inside of the tensors in memory. -/
theorem C67_count (os : List (MemOp T)) (m : Mem T) (e : runMem Mem.empty os = .ok m) (i : Nat) :
    m.count i = m.held.count i + ∑ j ∈ Finset.range m.heap.length, if m.count j = 0 then 0 else refCount m.heap j i := by
  have := (runMem_inv os Mem.inv_empty e).1.bal.eq i
  simpa [inc] using this

/-- C67: no use after free: what the program can get at is in memory. -/
theorem C67_safe (os : List (MemOp T)) (m : Mem T) (e : runMem Mem.empty os = .ok m) (i : Nat) (hi : InUse m i) : Live m i := by
  have hm := (runMem_inv os Mem.inv_empty e).1
  obtain ⟨x, hx, hr⟩ := hi
  induction hr with
  | refl => exact hm.held_live hx
  | tail _ h1 ih => exact hm.refers_live ih h1

/-- C67: a drop never fails, and it changes only the counts. -/
theorem C67_drop (os : List (MemOp T)) (m : Mem T) (e : runMem Mem.empty os = .ok m) (t : Nat) (ht : t ∈ m.held) :
    ∃ m' d, m.drop t = .ok (m', d) ∧ m'.heap = m.heap ∧ m'.held = m.held.erase t := by
  obtain ⟨m', d, h1, h2, h3, _⟩ := Mem.drop_ok (runMem_inv os Mem.inv_empty e).1 ht
  exact ⟨m', d, h1, h2, h3⟩

/-- C67: a tensor that is in memory although the program cannot get at it is kept there by a cycle of tensors in memory. -/
theorem C67_leak (os : List (MemOp T)) (m : Mem T) (e : runMem Mem.empty os = .ok m) (i : Nat) (hi : Live m i) (hu : ¬ InUse m i) :
    ∃ j, Live m j ∧ TransGen (Refers m.heap) j j ∧ ReflTransGen (Refers m.heap) j i :=
  (runMem_inv os Mem.inv_empty e).1.leak hi hu

/-- C67, exactly: after a program, memory contains only what the program can get at if and only if the program can get at every cycle in
memory. -/
theorem C67_exact (os : List (MemOp T)) (m : Mem T) (e : runMem Mem.empty os = .ok m) :
    (∀ i, Live m i ↔ InUse m i) ↔ ∀ j, Live m j → TransGen (Refers m.heap) j j → InUse m j := by
  refine ⟨fun h j hj _ => (h j).1 hj, fun h i => ⟨fun hi => ?_, C67_safe os m e i⟩⟩
  by_contra hu
  obtain ⟨j, hj, hc, hr⟩ := C67_leak os m e i hi hu
  obtain ⟨x, hx, hxj⟩ := h j hj hc
  exact hu ⟨x, hx, hxj.trans hr⟩

/-- C67 for programs that never call `t.update_grad(g)` with a `g` that refers to `t`. Missing: other programs, for which it is false;
`C67_leak` says what can leak there. -/
theorem C67_partial (os : List (MemOp T)) (m : Mem T) (ht : Tame os Mem.empty) (e : runMem Mem.empty os = .ok m) (i : Nat) :
    Live m i ↔ InUse m i := by
  have ha : Acyclic m.heap := by
    refine runMem_acyclic Mem.inv_empty (fun _ _ h => by simp [Mem.empty] at h) ?_ ht e
    intro i hi
    obtain ⟨b, hb, _⟩ := TransGen.head'_iff.1 hi
    have := hb.lt
    simp [Mem.empty] at this
  refine ⟨fun hi => ?_, C67_safe os m e i⟩
  by_contra hu
  obtain ⟨j, _, hj, _⟩ := C67_leak os m e i hi hu
  exact ha j hj

theorem Spec.Tame.of_plain : ∀ {os : List (MemOp T)} (_ : ∀ t g, MemOp.op (.updateGrad t g) ∉ os) (m : Mem T), Tame os m := by
  intro os
  induction os with
  | nil => intro _ m; exact .nil m
  | cons o os ih =>
    intro h m
    refine .cons (fun t g e => absurd (by rw [e]; simp) (h t g)) fun m' _ => ih (fun t g hm => h t g (by simp [hm])) m'

/-- C67: in particular programs that get gradients only by `backward` leak nothing: when they have dropped everything, nothing is
left in memory. -/
theorem C67_plain (os : List (MemOp T)) (hp : ∀ t g, MemOp.op (.updateGrad t g) ∉ os) (m : Mem T) (e : runMem Mem.empty os = .ok m) :
    (∀ i, Live m i ↔ InUse m i) ∧ (m.held = [] → ∀ i, ¬ Live m i) := by
  have h1 := C67_partial os m (Tame.of_plain hp _) e
  refine ⟨h1, fun h2 i hi => ?_⟩
  obtain ⟨x, hx, _⟩ := (h1 i).1 hi
  rw [h2] at hx
  cases hx

end

section
attribute [local instance] Test.intFn

/-- Results of a program: what the program owns, and the counts of all tensors. -/
def Test.counts (os : List (MemOp Int)) : R (List Nat × List Nat) := do
  let m ← runMem Mem.empty os
  return (m.held, (List.range m.heap.length).map m.count)

/-- C67 is false: a tensor that is its own gradient is never freed. -/
theorem C67_false : ¬ C67_statement Int := by
  intro hst
  obtain ⟨m, e, h1, h2⟩ : ∃ m : Mem Int, runMem Mem.empty [.op (.new [1] [1]), .op (.updateGrad 0 0), .drop 0] = .ok m ∧
      m.count 0 = 1 ∧ m.held = [] := ⟨_, rfl, by decide, by decide⟩
  obtain ⟨x, hx, _⟩ := (hst _ m e 0).1 (by simp [Live, h1])
  rw [h2] at hx
  cases hx

/-- `(t + (-t)).sum()` and `backward` for tensor 0; in the end the program owns only tensor 0. -/
def C67_program : List (MemOp Int) :=
  [.op (.new [1, 2] [2]), .op (.neg 0), .op (.add 0 1), .drop 1, .op (.sum 2), .drop 2, .op (.backward 4), .drop 4]

/-- C67, test: while the loss is there, the graph is; without the loss only the gradient of tensor 0 and the two contributions it was
made from (which are the inputs in its history) stay; without gradient or tensor nothing stays. -/
example : Test.counts (C67_program.take 7) = .ok ([4, 0], [3, 1, 1, 1, 1, 1, 1, 1, 1, 1]) ∧
    Test.counts C67_program = .ok ([0], [1, 0, 0, 0, 0, 0, 1, 0, 1, 1]) ∧
    Test.counts (C67_program ++ [.op (.zeroGrad 0)]) = .ok ([0], [1, 0, 0, 0, 0, 0, 0, 0, 0, 0]) ∧
    Test.counts (C67_program ++ [.drop 0]) = .ok ([], [0, 0, 0, 0, 0, 0, 0, 0, 0, 0]) := by decide +kernel

/-- C67, test: what is dropped is not available any more, and can be dropped only once. -/
example : Test.counts (C67_program ++ [.op (.neg 4)]) = .error (.panic .assert) ∧
    Test.counts (C67_program ++ [.drop 4]) = .error (.panic .assert) := by decide +kernel

/-- C67, test: `C67_program` is a program as in `C67_plain`, and one with an `update_grad` as in `C67_partial`. -/
example : (∀ t g, MemOp.op (.updateGrad t g) ∉ C67_program) ∧
    Tame [MemOp.op (.new [1] [1]), .op (.new [2] [1]), .op (.updateGrad (T := Int) 0 1)] Mem.empty := by
  refine ⟨by simp [C67_program], ?_⟩
  refine .cons (by simp) fun m1 e1 => .cons (by simp) fun m2 e2 => .cons ?_ fun _ _ => .nil _
  intro t g h
  cases h
  cases e1
  cases e2
  intro h
  rcases ReflTransGen.cases_head h with h | ⟨x, h1, _⟩
  · cases h
  · rw [refers_iff] at h1
    exact h1 rfl

end

/-! ## memory of training (C68) -/

section
variable [Zero T] [One T] [Add T] [Mul T] [Sub T] [Neg T] [LT T] [DecidableLT T] [LE T] [DecidableLE T] [RealFn T]

/-- C68, full statement: when after `n` training steps the program owns nothing but the parameters, nothing but the parameters and their
gradients is in memory. It is false: see `C68_false`, and `C68_growth` for all networks. -/
def C68_statement (T : Type) [Zero T] [One T] [Add T] [Mul T] [Sub T] [Neg T] [LT T] [DecidableLT T] [LE T] [DecidableLE T]
    [RealFn T] : Prop :=
  ∀ (os : List (MemOp T)) (m : Mem T) (n : Nat) (h : Heap T) (mlp mlp' : Mlp T), runMem Mem.empty os = .ok m → Reachable h →
    Trains n h mlp m.heap mlp' → 0 < n → (∀ i, i ∈ m.held ↔ i ∈ mlp'.params) →
    ∀ i, Live m i → i ∈ mlp'.params ∨ ∃ p ∈ mlp'.params, ∃ nd, m.heap[p]? = some nd ∧ nd.grad = some i

theorem sgdParams_new {s : Nat} : ∀ {ps : List Nat} {h h' : Heap T} {qs : List Nat}, sgdParams h s ps = .ok (h', qs) →
    h'.length = h.length + 3 * ps.length ∧ ∀ i, h.length ≤ i → i < h'.length → ∃ q ∈ qs, i = q ∨ Ancestor h' i q := by
  intro ps
  induction ps with
  | nil =>
    intro h h' qs e
    cases e
    exact ⟨by simp, fun i h1 h2 => by omega⟩
  | cons p ps ih =>
    intro h h' qs e
    rw [sgdParams_cons, R.bind_eq_ok] at e
    obtain ⟨⟨h1, q⟩, e1, e⟩ := e
    simp only [R.bind_eq_ok] at e
    obtain ⟨⟨h2, qs'⟩, e2, e3⟩ := e
    rw [R.pure_eq_ok] at e3
    cases e3
    obtain ⟨pn, gn, sn, g, delta, neg, val, -, -, -, -, -, -, -, rfl, rfl⟩ := sgdParam_inv e1
    obtain ⟨h3, h4⟩ := ih e2
    obtain ⟨⟨ns, rfl⟩, _⟩ := sgdParams_inv e2
    refine ⟨by simp at h3 ⊢; omega, fun i h5 h6 => ?_⟩
    by_cases h7 : h.length + 3 ≤ i
    · obtain ⟨r, h8, h9⟩ := h4 i (by simpa using h7) h6
      exact ⟨r, by simp [h8], h9⟩
    · refine ⟨h.length + 2, by simp, ?_⟩
      have a1 : IsInput (h ++ [leafNode delta, ⟨neg, none, some ⟨[h.length], .neg⟩⟩, ⟨val, none, some ⟨[p, h.length + 1], .add⟩⟩] ++ ns)
          (h.length + 1) (h.length + 2) := ⟨⟨val, none, some ⟨[p, h.length + 1], .add⟩⟩, _, by simp, rfl, by simp⟩
      have a2 : IsInput (h ++ [leafNode delta, ⟨neg, none, some ⟨[h.length], .neg⟩⟩, ⟨val, none, some ⟨[p, h.length + 1], .add⟩⟩] ++ ns)
          h.length (h.length + 1) := ⟨⟨neg, none, some ⟨[h.length], .neg⟩⟩, _, by simp, rfl, by simp⟩
      obtain rfl | rfl | rfl : i = h.length ∨ i = h.length + 1 ∨ i = h.length + 2 := by omega
      · exact .inr ((TransGen.single a2).tail a1)
      · exact .inr (.single a1)
      · exact .inl rfl

theorem Spec.Trains.chain {n : Nat} {h h' : Heap T} {mlp mlp' : Mlp T} (hr : Reachable h) (ht : Trains n h mlp h' mlp') :
    ∃ S : Finset Nat, S.card = 3 * n * mlp.params.length ∧ ∀ i ∈ S, i < h'.length ∧ ∃ q ∈ mlp'.params, i = q ∨ Ancestor h' i q := by
  induction ht with
  | start => exact ⟨∅, by simp, by simp⟩
  | @step n h h1 h2 h3 mlp mlp1 mlp3 s ops t1 e1 e2 ih =>
    obtain ⟨S, h4, h5⟩ := ih hr
    obtain ⟨r1, _⟩ := t1.reachable hr
    have hf1 := (runOps_frame r1.good e1).1
    have e3 := sgdStep_inv e2
    obtain ⟨h6, h7⟩ := sgdParams_new e3
    obtain ⟨⟨ns, rfl⟩, h8⟩ := sgdParams_inv e3
    have hf : Frame h1 (h2 ++ ns) := hf1.trans (Frame.append _ _)
    have hl : mlp.params.length = mlp1.params.length := (C48_chain n h h1 mlp mlp1 hr t1).length_eq
    refine ⟨S ∪ Finset.Ico h2.length (h2 ++ ns).length, ?_, fun i hi => ?_⟩
    · rw [Finset.card_union_of_disjoint, h4, Nat.card_Ico, h6, hl]
      · rw [Nat.add_sub_cancel_left]; ring
      · refine Finset.disjoint_left.2 fun i h9 h10 => ?_
        have := (h5 i h9).1
        have := (Finset.mem_Ico.1 h10).1
        have := hf1.1
        omega
    · rcases Finset.mem_union.1 hi with h9 | h9
      · obtain ⟨h10, q, hq, h11⟩ := h5 i h9
        have hle := hf.1
        refine ⟨by omega, ?_⟩
        obtain ⟨k, hk, rfl⟩ := List.getElem_of_mem hq
        have hk' : k < mlp3.params.length := by rw [← h8.length_eq]; exact hk
        obtain ⟨_, v, m, h12⟩ := h8.get hk hk'
        simp only [List.get_eq_getElem] at h12
        refine ⟨mlp3.params[k], List.getElem_mem _, .inr ?_⟩
        have h13 : IsInput (h2 ++ ns) mlp1.params[k] mlp3.params[k] := ⟨_, _, h12, rfl, by simp⟩
        rcases h11 with rfl | h11
        · exact .single h13
        · have : mlp1.params[k] < h1.length := by
            obtain ⟨b, _, n', _, hb, _⟩ := TransGen.tail'_iff.1 h11
            exact getElem?_lt hb
          exact ((hf.ancestor r1.good this).2 h11).tail h13
      · have h10 := Finset.mem_Ico.1 h9
        exact ⟨h10.2, h7 i h10.1 h10.2⟩

theorem Spec.Ancestor.refers {h : Heap T} {a b : Nat} (ha : Ancestor h a b) : ReflTransGen (Refers h) b a := by
  induction ha using TransGen.head_induction_on with
  | single h1 => exact .single (.inr h1)
  | head h1 _ ih => exact ih.tail (.inr h1)

/-- C68, what happens instead: whatever the program drops, after `n` steps there are at least `3 * n` tensors in memory for every
parameter: the new values of all steps, the steps and their negatives. -/
theorem C68_growth (os : List (MemOp T)) (m : Mem T) (e : runMem Mem.empty os = .ok m) (n : Nat) (h : Heap T) (mlp mlp' : Mlp T)
    (hr : Reachable h) (ht : Trains n h mlp m.heap mlp') (hp : ∀ p ∈ mlp'.params, p ∈ m.held) :
    ∃ S : Finset Nat, S.card = 3 * n * mlp.params.length ∧ ∀ i ∈ S, Live m i := by
  obtain ⟨S, h1, h2⟩ := ht.chain hr
  refine ⟨S, h1, fun i hi => C67_safe os m e i ?_⟩
  obtain ⟨_, q, hq, h3⟩ := h2 i hi
  refine ⟨q, hp q hq, ?_⟩
  rcases h3 with rfl | h3
  · exact .refl
  · exact h3.refers

end

section
attribute [local instance] Test.intFn

/-- One step for a layer with weight 1 and bias 2 and gradients 0 and 3; in the end the program owns only the new parameters. -/
def C68_program : List (MemOp Int) :=
  [.op (.new [1] [1, 1]), .op (.new [1] [1, 1]), .op (.new [1] [1]), .op (.new [1] [1]), .op (.scalar 1),
   .op (.updateGrad 1 0), .op (.updateGrad 2 3), .drop 0, .drop 3,
   .grad 1, .op (.mul 4 0), .drop 0, .op (.sub 1 5), .drop 5, .op (.zeroGrad 7),
   .grad 2, .op (.mul 4 3), .drop 3, .op (.sub 2 8), .drop 8, .op (.zeroGrad 10),
   .drop 1, .drop 2, .drop 4]

/-- C68 is false: the old weight, which is not owned by the program, is still in memory. -/
theorem C68_false : ¬ C68_statement Int := by
  intro hst
  have key : (match runMem Mem.empty C68_program, runOps [] (graphOps (C68_program.take 9)) with
      | .ok m, .ok h => match (⟨[Linear.new 1 2 none]⟩ : Mlp Int).sgdStep h 4 with
        | .ok (h', mlp') => decide (h' = m.heap ∧ m.held = [10, 7] ∧ mlp'.params = [7, 10] ∧ m.count 1 = 1 ∧
            ∀ p ∈ mlp'.params, (m.heap[p]?.bind Node.grad) ≠ some 1)
        | .error _ => false
      | _, _ => false) = true := by decide +kernel
  cases e : runMem Mem.empty C68_program with
  | error er => rw [e] at key; simp at key
  | ok m =>
  cases e1 : runOps [] (graphOps (C68_program.take 9)) with
  | error er => rw [e, e1] at key; simp at key
  | ok h =>
  cases e2 : (⟨[Linear.new 1 2 none]⟩ : Mlp Int).sgdStep h 4 with
  | error er => rw [e, e1] at key; simp [e2] at key
  | ok r =>
  obtain ⟨h', mlp'⟩ := r
  simp only [e, e1, e2] at key
  obtain ⟨rfl, h1, h2, h3, h4⟩ := of_decide_eq_true key
  rcases hst _ m 1 h ⟨[Linear.new 1 2 none]⟩ mlp' e ⟨_, e1⟩ (.step .start (show runOps h [] = .ok h from rfl) e2) (by omega)
    (by simp [h1, h2, or_comm]) 1 (by simp [Live, h3]) with h5 | ⟨p, hp, nd, h5, h6⟩
  · simp [h2] at h5
  · exact h4 p hp (by simp [h5, h6])

/-- C68, test: everything but the learning rate stays in memory. -/
example : Test.counts C68_program = .ok ([10, 7], [1, 1, 1, 1, 0, 1, 1, 1, 1, 1, 1]) := by decide +kernel

end

/-! ## the drop of long histories (C69) -/

section
variable [Zero T] [One T] [Add T] [Mul T] [Sub T] [Neg T] [LT T] [DecidableLT T] [LE T] [DecidableLE T] [RealFn T]

/-- C69, full statement: the drop of a tensor needs a limited number of nested calls. It is false: see `C69_false`. -/
def C69_statement (T : Type) [Zero T] [One T] [Add T] [Mul T] [Sub T] [Neg T] [LT T] [DecidableLT T] [LE T] [DecidableLE T]
    [RealFn T] : Prop :=
  ∃ B, ∀ (os : List (MemOp T)) (m m' : Mem T) (t d : Nat), runMem Mem.empty os = .ok m → m.drop t = .ok (m', d) → d ≤ B

/-- C69, what happens instead: if every tensor of a chain is owned by its predecessor only, the drop of the first nests at least as deep
as the chain is long. -/
theorem C69_depth (os : List (MemOp T)) (m m' : Mem T) (e : runMem Mem.empty os = .ok m) (x : Nat → Nat) (n : Nat)
    (hx : ∀ k < n, Refers m.heap (x k) (x (k + 1))) (hc : ∀ k ≤ n, m.count (x k) = 1) (d : Nat) (ed : m.drop (x 0) = .ok (m', d)) :
    n ≤ d := by
  have hm := (runMem_inv os Mem.inv_empty e).1
  obtain ⟨h1, c, h2, _⟩ := Mem.drop_inv ed
  exact release_chain hx _ _ _ _ _ _ 0 0 (by simpa using hm.drop_bal h1) h2 (Nat.zero_le _) (by simp) le_rfl
    fun j _ hj => hc j hj

/-- C69: and never deeper than the number of tensors it frees. -/
theorem C69_bound (os : List (MemOp T)) (m m' : Mem T) (e : runMem Mem.empty os = .ok m) (t d : Nat) (ed : m.drop t = .ok (m', d)) :
    d + {i | Live m' i}.ncard ≤ {i | Live m i}.ncard := by
  have hm := (runMem_inv os Mem.inv_empty e).1
  obtain ⟨h1, c, h2, rfl⟩ := Mem.drop_inv ed
  obtain ⟨m2, d2, k1, k2, k3, k4, _⟩ := Mem.drop_ok hm h1
  rw [ed] at k1
  cases k1
  have h3 := release_bound _ _ _ _ _ _ 0 (by simpa using hm.drop_bal h1) h2 le_rfl (by simp)
  have key : ∀ c : Nat → Nat, (∀ i, c i ≠ 0 → i < m.heap.length) → {i | c i ≠ 0}.ncard = liveCount m.heap c := by
    intro c hc
    rw [liveCount, ← Set.ncard_coe_finset]
    congr 1
    ext i
    simpa using hc i
  simp only [Live]
  rw [key c fun i hi => k4.live_lt hi, key m.count fun i hi => hm.live_lt hi]
  omega

end

section
attribute [local instance] Test.intFn

/-- A chain of `n` negations, of which the program owns only the last. -/
def C69_program (n : Nat) : List (MemOp Int) :=
  .op (.new [0] [1]) :: (List.range n).flatMap fun k => [.op (.neg k), .drop k]

theorem C69_chain (n : Nat) : ∃ m : Mem Int, runMem Mem.empty (C69_program n) = .ok m ∧ m.heap.length = n + 1 ∧ m.held = [n] ∧
    (∀ i, m.count i = if i ≤ n then 1 else 0) ∧ (∀ k < n, Refers m.heap (k + 1) k) ∧ ∃ nd, m.heap[n]? = some nd ∧ nd.val = ⟨[0], [1]⟩ := by
  induction n with
  | zero =>
    refine ⟨_, rfl, rfl, rfl, fun i => ?_, by simp, _, rfl, rfl⟩
    rcases i with _ | i
    · rfl
    · simp [retain, Mem.empty, Node.refs, leafNode, Heap.leaf, Heap.alloc, Mem.alloc]
  | succ n ih =>
    obtain ⟨m, e, h1, h2, h3, h4, nd, h5, h6⟩ := ih
    let node : Node Int := ⟨⟨[0], [1]⟩, none, some ⟨[n], .neg⟩⟩
    have er : (Op.neg n : Op Int).run m.heap = .ok (m.heap ++ [node]) := by
      simp only [Op.run, negT, Heap.node, idxR, h5]
      change ((negRaw (.raw nd.val) >>= fun val => _) >>= _ : R (Heap Int)) = _
      rw [h6]
      rfl
    have e1 : MemOp.run m (.op (.neg n)) = .ok (m.alloc node) := by
      simp only [MemOp.run, Mem.op, assertR, Op.ids, h2, er]
      simp [bind, Except.bind, pure, Except.pure]
    have hc : ∀ i, (m.alloc node).count i = if i = n then 2 else if i ≤ n + 1 then 1 else 0 := by
      intro i
      simp only [Mem.alloc, retain, node, Node.refs, Option.toList_none, List.nil_append, List.foldl_cons, List.foldl_nil, h3, h1]
      split_ifs <;> omega
    let m2 : Mem Int := ⟨m.heap ++ [node], fun i => if i ≤ n + 1 then 1 else 0, [n + 1]⟩
    have e2 : (m.alloc node).drop n = .ok (m2, 0) := by
      have h7 : (m.alloc node).held = [n + 1, n] := by simp [Mem.alloc, h1, h2]
      have h8 : (m.alloc node).heap[n]? = some nd := by
        simp only [Mem.alloc]; rw [List.getElem?_append_left (by omega)]; exact h5
      obtain ⟨k, hk⟩ : ∃ k, total (m.alloc node).heap (m.alloc node).count = k + 1 := by
        refine Nat.exists_eq_succ_of_ne_zero fun h0 => ?_
        rw [total_eq, Finset.sum_eq_zero_iff] at h0
        have := h0 n (Finset.mem_range.2 (getElem?_lt h8))
        rw [hc] at this
        simp at this
      have h9 : (m.alloc node).count n = 2 := by rw [hc]; simp
      simp only [Mem.drop, assertR, h7, Mem.releaseOne]
      rw [show ((List.range (m.alloc node).heap.length).map (m.alloc node).count).sum = k + 1 from hk, release]
      simp only [assertR, h9, Heap.node, idxR, h8]
      have h10 : (fun j => if j = n then (m.alloc node).count j - 1 else (m.alloc node).count j) = m2.count := by
        funext i
        simp only [hc, m2]
        split_ifs <;> omega
      rw [h10]
      simp [bind, Except.bind, pure, Except.pure, release, m2, Mem.alloc]
    refine ⟨m2, ?_, ?_, ?_, ?_, ?_, ?_⟩
    · rw [C69_program, List.range_succ, List.flatMap_append, ← List.cons_append, runMem, List.foldlM_append]
      have e0 := e
      rw [runMem, C69_program] at e0
      rw [e0]
      simp only [List.flatMap_cons, List.flatMap_nil, List.foldlM_cons, List.foldlM_nil, List.append_nil, R.bind_ok, e1, bind_pure]
      simp only [MemOp.run, e2]
      rfl
    · simp [m2, h1]
    · rfl
    · intro i; rfl
    · intro k hk
      simp only [m2]
      rw [refers_append]
      rcases Nat.lt_succ_iff_lt_or_eq.1 hk with h7 | rfl
      · exact .inl (h4 k h7)
      · exact .inr ⟨h1.symm, by simp [node, Node.refs]⟩
    · exact ⟨node, by simp [m2, h1], rfl⟩

/-- C69, test: the drop of a chain of three negations, and of a tensor that something else keeps. -/
example : ((runMem Mem.empty (C69_program 3)).bind fun m => (m.drop 3).map Prod.snd) = .ok 3 ∧
    ((runMem Mem.empty (C67_program.take 7)).bind fun m => (m.drop 0).map Prod.snd) = .ok 0 := by decide +kernel

/-- C69 is false. -/
theorem C69_false : ¬ C69_statement Int := by
  rintro ⟨B, hB⟩
  obtain ⟨m, e, h1, h2, h3, h4, _⟩ := C69_chain (B + 1)
  obtain ⟨m', d, h5, _⟩ := C67_drop _ m e (B + 1) (by simp [h2])
  have h6 := C69_depth _ m m' e (fun k => B + 1 - k) (B + 1) (fun k hk => by
    have := h4 (B - k) (by omega)
    rwa [show B - k + 1 = B + 1 - k by omega, show B - k = B + 1 - (k + 1) by omega] at this) (fun k hk => by
    rw [h3, if_pos (by omega)]) d h5
  have := hB _ m m' (B + 1) d e h5
  omega

end

/-! ## memory of accumulated gradients (C70) -/

section
variable [Zero T] [One T] [Add T] [Mul T] [Sub T] [Neg T] [LT T] [DecidableLT T] [LE T] [DecidableLE T] [RealFn T]

/-- C70, full statement: when the program owns only tensors without history, nothing but these and their gradients is in memory. It is
false: see `C70_false`. -/
def C70_statement (T : Type) [Zero T] [One T] [Add T] [Mul T] [Sub T] [Neg T] [LT T] [DecidableLT T] [LE T] [DecidableLE T]
    [RealFn T] : Prop :=
  ∀ (os : List (MemOp T)) (m : Mem T), runMem Mem.empty os = .ok m → (∀ t ∈ m.held, historyOf m.heap t = some none) →
    ∀ i, Live m i → i ∈ m.held ∨ ∃ t ∈ m.held, ∃ n, m.heap[t]? = some n ∧ n.grad = some i

theorem Spec.Accumulates.behind {t n : Nat} {h h' : Heap T} (hr : Reachable h) (ha : Accumulates t n h h') :
    Reachable h' ∧ ∃ S : Finset Nat, (∀ i ∈ S, i < h'.length ∧ Behind h' t i) ∧ 2 * n ≤ S.card + 1 := by
  induction ha with
  | start => exact ⟨hr, ∅, by simp, by simp⟩
  | @other n h h1 h2 o _ ho e ih =>
    obtain ⟨r1, S, h3, h4⟩ := ih hr
    have e' : runOps h1 [o] = .ok h2 := by simp [runOps_cons, e]; rfl
    refine ⟨r1.run e', S, fun i hi => ⟨(h3 i hi).1.trans_le (Op.run_frame r1.good e).1.len, ?_⟩, h4⟩
    exact Op.run_behind r1.good ho e (h3 i hi).2
  | @back n l h h1 h2 ps _ hn hp e ih =>
    obtain ⟨r1, S, h3, h4⟩ := ih hr
    have e' : runOps h1 [.backward l] = .ok h2 := by simp [runOps_cons, Op.run, e]; rfl
    refine ⟨r1.run e', ?_⟩
    obtain ⟨us, qs, h5, h6, h7, h8⟩ := backward_updates r1.good e
    obtain ⟨S', h9, h10⟩ := applyUpdates_behind r1.good h5 h3 h4
    refine ⟨S', h9, ?_⟩
    have hc : (us.map Prod.fst).count t = ps.length := by
      rw [h6]
      have h11 : ((qs.filter fun q => q.1 = t).map Prod.snd).Perm ps := by
        rw [List.perm_ext_iff_of_nodup _ hn]
        · intro p
          rw [hp, ← h8 t p]
          simp
        · refine List.Nodup.map_on ?_ (h7.filter _)
          intro a ha b hb hab
          simp only [List.mem_filter, decide_eq_true_eq] at ha hb
          exact Prod.ext (ha.2.trans hb.2.symm) hab
      rw [← h11.length_eq, List.length_map, List.count_eq_countP, List.countP_map, List.countP_eq_length_filter]
      congr 1
    rw [hc] at h10
    exact h10

/-- C70, what happens instead: as long as the gradient of `t` is not cleared, all `n` contributions to it and the `n - 1` intermediate
sums stay in memory. -/
theorem C70_growth (os : List (MemOp T)) (m : Mem T) (e : runMem Mem.empty os = .ok m) (n t : Nat) (h : Heap T) (hr : Reachable h)
    (ha : Accumulates t n h m.heap) (ht : t ∈ m.held) : ∃ S : Finset Nat, 2 * n ≤ S.card + 1 ∧ ∀ i ∈ S, Live m i := by
  obtain ⟨_, S, h1, h2⟩ := ha.behind hr
  refine ⟨S, h2, fun i hi => C67_safe os m e i ⟨t, ht, ?_⟩⟩
  obtain ⟨_, nd, g, h3, h4, h5⟩ := h1 i hi
  have h6 : Refers m.heap t g := .inl ⟨nd, h3, h4⟩
  rcases h5 with rfl | h5
  · exact .single h6
  · exact (ReflTransGen.single h6).trans h5.refers

end

section
attribute [local instance] Test.intFn

/-- C70 is false: in `C67_program` the two contributions to the gradient of tensor 0 stay. -/
theorem C70_false : ¬ C70_statement Int := by
  intro hst
  have key : (match runMem Mem.empty C67_program with
      | .ok m => decide (m.held = [0] ∧ m.count 6 = 1 ∧ historyOf m.heap 0 = some none ∧ (m.heap[0]?.bind Node.grad) = some 9)
      | .error _ => false) = true := by decide +kernel
  cases e : runMem Mem.empty C67_program with
  | error er => rw [e] at key; simp at key
  | ok m =>
    simp only [e] at key
    obtain ⟨h1, h2, h3, h4⟩ := of_decide_eq_true key
    rcases hst _ m e (by simp [h1, h3]) 6 (by simp [Live, h2]) with h5 | ⟨t, ht, n, h5, h6⟩
    · simp [h1] at h5
    · simp only [h1, List.mem_singleton] at ht
      subst ht
      simp [h5, h6] at h4

/-- C70, test: the hypotheses of `C70_growth` are met with one contribution. -/
example : ∃ m h : Mem Int, runMem Mem.empty [.op (.new [1] [1]), .op (.neg 0)] = .ok h ∧
    runMem Mem.empty [.op (.new [1] [1]), .op (.neg 0), .op (.backward 1)] = .ok m ∧ Accumulates 0 1 h.heap m.heap ∧ 0 ∈ m.held := by
  refine ⟨_, _, rfl, rfl, .back (l := 1) (ps := [[0]]) .start (by simp) (fun p => ?_) rfl, by decide⟩
  have h1 : ∀ n, ([leafNode ⟨[1], [1]⟩, ⟨⟨[-1], [1]⟩, none, some ⟨[0], .neg⟩⟩] : Heap Int)[1]? = some n → n.gradFn = some ⟨[0], .neg⟩ := by
    intro n hn; cases hn; rfl
  have h0 : ∀ n, ([leafNode ⟨[1], [1]⟩, ⟨⟨[-1], [1]⟩, none, some ⟨[0], .neg⟩⟩] : Heap Int)[0]? = some n → n.gradFn = none := by
    intro n hn; cases hn; rfl
  have key : p ∈ [[0]] ↔ Path ([leafNode ⟨[1], [1]⟩, ⟨⟨[-1], [1]⟩, none, some ⟨[0], .neg⟩⟩] : Heap Int) 1 0 p := by
    rw [List.mem_singleton]
    constructor
    · rintro rfl
      exact .one (n := ⟨⟨[-1], [1]⟩, none, some ⟨[0], .neg⟩⟩) rfl rfl rfl
    · intro h
      cases h with
      | @one _ _ k n d a b c =>
        rw [h1 n a] at b
        cases b
        rcases k with _ | k
        · rfl
        · simp at c
      | @cons _ i _ k p n d a b c r =>
        rw [h1 n a] at b
        cases b
        rcases k with _ | k
        · simp at c
          subst c
          cases r with
          | one a b c => rw [h0 _ a] at b; cases b
          | cons a b c r => rw [h0 _ a] at b; cases b
        · simp at c
  exact key

/-- C70, test: the second call of `backward` adds to the first. -/
example : Test.counts (C67_program ++ [.op (.neg 0), .op (.sum 10), .drop 10, .op (.backward 12), .drop 12]) =
    .ok ([0], [1, 0, 0, 0, 0, 0, 1, 0, 1, 1, 0, 0, 0, 0, 1, 1]) := by decide +kernel

end

end RL
