import Verif.Lemmas.Debug
import Verif.Props.Memory
import Verif.Props.Graph3

/-!
# C87: what `{:?}` prints
-/

namespace RL

open Spec Relation

section
variable {T : Type} [Zero T] [One T] [Add T] [Mul T] [Sub T] [Neg T] [LT T] [DecidableLT T] [LE T] [DecidableLE T] [RealFn T]

/-- C87: `{:?}` of a tensor ends, and prints the tensor and each tensor it refers to, directly or through others, once. -/
def C87_statement (T : Type) [Zero T] [One T] [Add T] [Mul T] [Sub T] [Neg T] [LT T] [DecidableLT T] [LE T] [DecidableLE T]
    [RealFn T] : Prop :=
  ∀ (h : Heap T) (t : Nat), Reachable h → t < h.length → ∃ stack out, debugFmt h stack 0 t = .ok out ∧ (out.map Shown.id).Nodup ∧
    ∀ i, i ∈ out.map Shown.id ↔ ReflTransGen (Refers h) t i

/-- C87, what is printed: one tensor for each way to get to a tensor by following gradients and recorded inputs, nested as deep as the
way is long, the gradient before the inputs and the inputs in their order, each with its data. -/
theorem C87_paths (h : Heap T) (t stack : Nat) (out : List (Shown T)) (e : debugFmt h stack 0 t = .ok out) :
    ∃ ps : List (List Nat), ps.Pairwise (· < ·) ∧ (∀ p, p ∈ ps ↔ ∃ i, OwnPath h t i p) ∧
      List.Forall₂ (fun s p => OwnPath h t s.id p ∧ s.depth = p.length ∧ dataOf h s.id = some s.val) out ps := by
  obtain ⟨ps, h1, h2, h3⟩ := debugFmt_paths e
  exact ⟨ps, h1, h3, h2.imp fun s p hs => by simpa using hs⟩

/-- C87: so everything the tensor refers to is printed, and nothing else. -/
theorem C87_all (h : Heap T) (hr : Reachable h) (t stack : Nat) (out : List (Shown T)) (e : debugFmt h stack 0 t = .ok out) (i : Nat) :
    i ∈ out.map Shown.id ↔ ReflTransGen (Refers h) t i := by
  obtain ⟨ps, h1, h2, h3⟩ := C87_paths h t stack out e
  constructor
  · intro hi
    obtain ⟨s, hs, rfl⟩ := List.mem_map.1 hi
    obtain ⟨k, hk, rfl⟩ := List.getElem_of_mem hs
    exact (h3.get hk (by rw [← h3.length_eq]; exact hk)).1.refers
  · intro hi
    have ht : t < h.length := by
      cases stack with
      | zero => cases e
      | succ stack =>
        rw [debugFmt_succ] at e
        simp only [R.bind_eq_ok, Heap.node_eq_ok] at e
        obtain ⟨n, hn, _⟩ := e
        exact getElem?_lt hn
    obtain ⟨p, hp⟩ := ownPath_of_refers hr.good.refsOk ht hi
    obtain ⟨k, hk, rfl⟩ := List.getElem_of_mem ((h2 p).2 ⟨i, hp⟩)
    have hk' : k < out.length := by rw [h3.length_eq]; exact hk
    have h4 := (h3.get hk' hk).1
    simp only [List.get_eq_getElem] at h4
    exact List.mem_map.2 ⟨out[k], List.getElem_mem _, h4.end_unique hp⟩

/-- C87: it ends if and only if the stack has room for more nested calls than any such way is long. -/
theorem C87_stack (h : Heap T) (hr : Reachable h) (t stack : Nat) (ht : t < h.length) :
    (∃ out, debugFmt h stack 0 t = .ok out) ↔ ∀ i p, OwnPath h t i p → p.length < stack :=
  debugFmt_room hr.good.refsOk ht

/-- C87: with a large enough stack it ends if and only if the tensor does not refer to a cycle. -/
theorem C87_ends (h : Heap T) (hr : Reachable h) (t : Nat) (ht : t < h.length) :
    (∃ stack out, debugFmt h stack 0 t = .ok out) ↔ ∀ j, ReflTransGen (Refers h) t j → ¬ TransGen (Refers h) j j := by
  have hro := hr.good.refsOk
  constructor
  · rintro ⟨stack, hs⟩ j h1 h2
    rw [C87_stack h hr t stack ht] at hs
    have hj : j < h.length := by
      rcases ReflTransGen.cases_tail h1 with rfl | ⟨_, _, h3⟩
      · exact ht
      · exact hro _ _ h3
    obtain ⟨p, hp⟩ := ownPath_of_refers hro ht h1
    obtain ⟨k, h3, h4⟩ := TransGen.head'_iff.1 h2
    obtain ⟨q, hq⟩ := ownPath_of_refers hro (hro _ _ h3) h4
    have hloop : ∃ q', q' ≠ [] ∧ OwnPath h j j q' := by
      rcases h3 with ⟨n, h5, h6⟩ | ⟨n, d, h5, h6, h7⟩
      · exact ⟨_, by simp, .grad h5 h6 hq⟩
      · obtain ⟨c, h8⟩ := List.mem_iff_getElem?.1 h7
        exact ⟨_, by simp, .input h5 h6 h8 hq⟩
    obtain ⟨q', h5, h6⟩ := hloop
    have h7 : ∀ m, ∃ r, OwnPath h j j r ∧ m ≤ r.length := by
      intro m
      induction m with
      | zero => exact ⟨[], .here (List.getElem?_eq_getElem hj), by simp⟩
      | succ m ih =>
        obtain ⟨r, h8, h9⟩ := ih
        refine ⟨q' ++ r, h6.trans h8, ?_⟩
        have := List.length_pos_of_ne_nil h5
        rw [List.length_append]
        omega
    obtain ⟨r, h8, h9⟩ := h7 stack
    have := hs j _ (hp.trans h8)
    rw [List.length_append] at this
    omega
  · intro ha
    refine ⟨h.length, (C87_stack h hr t _ ht).2 fun i p hp => hp.short ha⟩

/-- C87 for programs that never call `t.update_grad(g)` with a `g` that refers to `t`: it ends, with at most as many nested calls as there
are tensors, and prints all tensors referred to. Missing: other programs, and that each is printed once, for which it is false;
`C87_ends` says when it ends, and `C87_paths` how often a tensor is printed. -/
theorem C87_partial (os : List (MemOp T)) (m : Mem T) (hos : Tame os Mem.empty) (e : runMem Mem.empty os = .ok m) (t : Nat)
    (ht : t < m.heap.length) :
    ∃ out, debugFmt m.heap m.heap.length 0 t = .ok out ∧ ∀ i, i ∈ out.map Shown.id ↔ ReflTransGen (Refers m.heap) t i := by
  have hr : Reachable m.heap := ⟨_, (C67_heap os m e).1⟩
  have ha : Acyclic m.heap := by
    refine runMem_acyclic Mem.inv_empty (fun _ _ h => by simp [Mem.empty] at h) ?_ hos e
    intro i hi
    obtain ⟨b, hb, _⟩ := TransGen.head'_iff.1 hi
    have := hb.lt
    simp [Mem.empty] at this
  obtain ⟨out, eo⟩ := (C87_stack m.heap hr t m.heap.length ht).2 fun i p hp => hp.short fun j _ => ha j
  exact ⟨out, eo, C87_all m.heap hr t _ out eo⟩

/-- C87: in particular for programs that get gradients only by `backward`. -/
theorem C87_plain (os : List (MemOp T)) (hp : ∀ t g, MemOp.op (.updateGrad t g) ∉ os) (m : Mem T) (e : runMem Mem.empty os = .ok m)
    (t : Nat) (ht : t < m.heap.length) :
    ∃ out, debugFmt m.heap m.heap.length 0 t = .ok out ∧ ∀ i, i ∈ out.map Shown.id ↔ ReflTransGen (Refers m.heap) t i :=
  C87_partial os m (Tame.of_plain hp _) e t ht

/-- C87: for a scalar that is `n` times added to itself - a graph of `n + 1` tensors - `2^(n+1) - 1` tensors are printed. -/
theorem C87_doubling (x : T) (n : Nat) : ∃ (h : Heap T) (out : List (Shown T)), runOps [] (doublings x n) = .ok h ∧ h.length = n + 1 ∧
    debugFmt h (n + 1) 0 n = .ok out ∧ out.length + 1 = 2 ^ (n + 1) := by
  have key : ∀ i ≤ n, ∀ depth, ∃ out, debugFmt (doublingsHeap x n).1 (i + 1) depth i = .ok out ∧ out.length + 1 = 2 ^ (i + 1) := by
    intro i
    induction i with
    | zero =>
      intro _ depth
      obtain ⟨v, hv⟩ := doublingsHeap_get x (Nat.zero_le n)
      refine ⟨[⟨depth, 0, Raw.scalar v⟩], ?_, rfl⟩
      rw [debugFmt_succ, Heap.node_eq_ok.2 hv]
      rfl
    | succ i ih =>
      intro hi depth
      obtain ⟨v, hv⟩ := doublingsHeap_get x hi
      obtain ⟨out, e, hl⟩ := ih (by omega) (depth + 1)
      refine ⟨⟨depth, i + 1, Raw.scalar v⟩ :: (out ++ out), ?_, ?_⟩
      · rw [debugFmt_succ, Heap.node_eq_ok.2 hv]
        simp [Node.refs, e]
      · rw [pow_succ 2 (i + 1), ← hl]
        simp only [List.length_cons, List.length_append]
        omega
  obtain ⟨out, e, hl⟩ := key n le_rfl 0
  exact ⟨_, out, runOps_doublings x n, doublingsHeap_length x n, e, hl⟩

/-- C87: `{:?}` of a network after `n` steps of training prints at least `3 * n` tensors for every parameter. -/
theorem C87_train (n : Nat) (h h' : Heap T) (mlp mlp' : Mlp T) (hr : Reachable h) (ht : Trains n h mlp h' mlp') (stack : Nat)
    (out : List (Shown T)) (e : mlp'.debugFmt h' stack = .ok out) : 3 * n * mlp.params.length ≤ out.length := by
  obtain ⟨S, h1, h2⟩ := ht.chain hr
  obtain ⟨hr', _⟩ := ht.reachable hr
  simp only [Mlp.debugFmt, R.bind_eq_ok] at e
  obtain ⟨outs, e1, e⟩ := e
  rw [R.pure_eq_ok] at e; cases e
  rw [← h1, ← List.length_map (f := Shown.id)]
  refine (Finset.card_le_card fun i hi => ?_).trans (List.toFinset_card_le _)
  obtain ⟨_, q, hq, h3⟩ := h2 i hi
  obtain ⟨k, hk, rfl⟩ := List.getElem_of_mem hq
  have h4 := mapM_ok_iff.1 e1
  have hk' : k < outs.length := by rw [← h4.length_eq]; exact hk
  have h5 := h4.get hk hk'
  simp only [List.get_eq_getElem] at h5
  have h6 := (C87_all h' hr' _ _ _ h5 i).2 (by
    rcases h3 with rfl | h3
    · exact .refl
    · exact h3.refers)
  rw [List.mem_toFinset, List.map_flatten, List.mem_flatten]
  exact ⟨_, List.mem_map.2 ⟨_, List.getElem_mem hk', rfl⟩, h6⟩

/-- What `{:?}` prints of tensor `t` after a program: depth and number of each tensor. -/
def C87_shown (os : List (Op T)) (stack t : Nat) : R (List (Nat × Nat)) := do
  let h ← runOps [] os
  let out ← debugFmt h stack 0 t
  return out.map fun s => (s.depth, s.id)

end

section
attribute [local instance] Test.intFn

/-- C87, test: `x + x` shows `x` twice; after `backward` for `(t + (-t)).sum()` the gradient of `t` is shown with the two contributions it
is the sum of; a tensor that is its own gradient overflows every stack, here one of 100 calls. -/
example : C87_shown [.new [(3 : Int)] [1], .add 0 0] 2 1 = .ok [(0, 1), (1, 0), (1, 0)] ∧
    C87_shown [.new [(3 : Int)] [1], .add 0 0] 1 1 = R.panic .diverge ∧
    C87_shown [.new [(3 : Int)] [1], .neg 0, .add 0 1, .sum 2, .backward 4] 5 0 = .ok [(0, 0), (1, 9), (2, 6), (2, 8)] ∧
    C87_shown [.new [(3 : Int)] [1], .updateGrad 0 0] 100 0 = R.panic .diverge := by decide +kernel

/-- C87, test: what `C87_plain` assumes holds for `C67_program`. -/
example : (∀ t g, MemOp.op (.updateGrad t g) ∉ C67_program) ∧
    ((runMem Mem.empty C67_program).map fun m => m.heap.length) = .ok 10 := ⟨by simp [C67_program], by decide +kernel⟩

/-- C87, test: one `sgd_step` of a layer of two parameters, as in `C87_train`. Each new parameter is printed with its negative step, the
step, the old parameter and the gradient of that. -/
example : (do
    let h ← runOps [] (graphOps (C68_program.take 9))
    let (h', mlp') ← (⟨[Linear.new 1 2 none]⟩ : Mlp Int).sgdStep h 4
    let out ← mlp'.debugFmt h' 3
    return out.map fun s => (s.depth, s.id) : R (List (Nat × Nat))) =
    .ok [(0, 7), (1, 1), (2, 0), (1, 6), (2, 5), (0, 10), (1, 2), (2, 3), (1, 9), (2, 8)] := by decide +kernel

/-- C87 is false: in `x + x` the tensor `x` is printed twice. -/
theorem C87_false : ¬ C87_statement Int := by
  intro hst
  obtain ⟨h, out0, e0, e1, e2, e3⟩ := C87_doubling (3 : Int) 1
  have hr : Reachable h := ⟨_, e0⟩
  obtain ⟨stack, out, e4, e5, _⟩ := hst h 1 hr (by omega)
  obtain ⟨ps, h1, h2, h3⟩ := C87_paths h 1 stack out e4
  obtain ⟨ps', h1', h2', h3'⟩ := C87_paths h 1 _ out0 e2
  have hps : ps.length = ps'.length :=
    (List.perm_ext_iff_of_nodup (h1.imp fun hab => ne_of_lt hab) (h1'.imp fun hab => ne_of_lt hab)).2
      (fun p => by rw [h2, h2']) |>.length_eq
  have hlen : out.length = 3 := by
    have := h3.length_eq; have := h3'.length_eq; omega
  have hsub := (e5.subperm (l₂ := List.range h.length) fun i hi => by
    obtain ⟨s, hs, rfl⟩ := List.mem_map.1 hi
    obtain ⟨k, hk, rfl⟩ := List.getElem_of_mem hs
    have := (h3.get hk (by rw [← h3.length_eq]; exact hk)).2.2
    obtain ⟨n, hn, _⟩ := dataOf_eq.1 this
    exact List.mem_range.2 (getElem?_lt hn)).length_le
  rw [List.length_map, List.length_range] at hsub
  omega

/-- C87 is false for another reason: a tensor that is its own gradient is printed without end. -/
theorem C87_cycle : ∃ h : Heap Int, Reachable h ∧ 0 < h.length ∧ ∀ stack, debugFmt h stack 0 0 = R.panic .diverge := by
  obtain ⟨h, e, hl⟩ : ∃ h : Heap Int, runOps [] [.new [1] [1], .updateGrad 0 0] = .ok h ∧ h = [⟨⟨[1], [1]⟩, some 0, none⟩] := ⟨_, rfl, rfl⟩
  subst hl
  refine ⟨_, ⟨_, e⟩, by simp, ?_⟩
  have key : ∀ stack depth, debugFmt ([⟨⟨[1], [1]⟩, some 0, none⟩] : Heap Int) stack depth 0 = R.panic .diverge := by
    intro stack
    induction stack with
    | zero => intro _; rfl
    | succ stack ih =>
      intro depth
      rw [debugFmt_succ]
      simp [Heap.node, idxR, Node.refs, ih, R.panic, bind, Except.bind]
  exact fun stack => key stack 0

end

end RL
