import Verif.Lemmas.WorkShapes
import Verif.Lemmas.Main
import Verif.Props.Minibatch

/-!
# C102: the shapes of the tensors that training makes, and training with 64-bit numbers
-/

namespace RL

open Spec

section Shapes

/-- C102: for a batch of rows and a dense network these are the shapes of the input, of the parameters, and of the outputs of the layers. -/
theorem C102_dense (m k o : Nat) (ss : List (List Nat × List Nat)) (hd : Dense k ss o) :
    ∀ p ∈ workShapes [m, k] ss [m, o], p = [m, k] ∨ ∃ l ∈ ss, p = l.1 ∨ p = l.2 ∨ p = [m, l.1.getLastD 0] := by
  have self : ∀ s : List Nat, bshape s s = s := fun s => by
    simp only [bshape, Nat.max_self, padLeft, Nat.sub_self, List.replicate_zero, List.nil_append]
    induction s with
    | nil => rfl
    | cons d s ih => simp [ih]
  induction hd with
  | nil k =>
    intro p hp
    simp only [workShapes, self, List.mem_cons, List.not_mem_nil, or_false, or_self] at hp
    exact .inl hp
  | @cons k n o b ss hb _ ih =>
    intro p hp
    have e : bshape [m, n] b = [m, n] := by
      rcases hb with rfl | rfl <;> simp [bshape, padLeft] <;> omega
    simp only [workShapes, prodShape, e, List.mem_cons] at hp
    rcases hp with rfl | rfl | rfl | rfl | hp
    · exact .inl rfl
    · exact .inr ⟨_, List.mem_cons_self, .inl rfl⟩
    · exact .inr ⟨_, List.mem_cons_self, .inr (.inl rfl)⟩
    · exact .inr ⟨_, List.mem_cons_self, .inr (.inr rfl)⟩
    · rcases ih p hp with rfl | ⟨l, h1, h2⟩
      · exact .inr ⟨_, List.mem_cons_self, .inr (.inr rfl)⟩
      · exact .inr ⟨l, List.mem_cons_of_mem _ h1, h2⟩

end Shapes

variable {T : Type} [Zero T] [One T] [Add T] [Mul T] [Sub T] [Neg T] [LT T] [DecidableLT T] [LE T] [DecidableLE T] [RealFn T]

theorem Spec.GradsFit.sized {h : Heap T} (hg : GradsFit h) {P : List Nat → Prop} (hs : ∀ t v, dataOf h t = some v → P v.shape) : Sized P h where
  shapes hn := hs _ _ (dataOf_eq.2 ⟨_, hn, rfl⟩)
  grads hn ho hm := hg _ _ _ (dataOf_eq.2 ⟨_, hn, rfl⟩) (gradOf_some hn ho hm)

theorem Spec.Small.graphFits {h : Heap T} (hs : ∀ t v, dataOf h t = some v → Small v.shape) : GraphFits h where
  shapes i t e := lt_trans (hs i t e) (by norm_num)
  tanh _ j t _ e := lt_of_le_of_lt (prod_le_prod_max _) (hs j t e)

theorem usual_netOf (ls : List (Nat × Nat × Act)) : ∀ l ∈ (netOf (T := T) Act.run ls).layers, Usual l.activation := by
  intro l hl
  simp only [netOf, List.mem_map] at hl
  obtain ⟨⟨_, _, a⟩, _, rfl⟩ := hl
  cases a
  exacts [.inl rfl, .inr (.inl rfl), .inr (.inr rfl)]

/-- C102. Every tensor that exists after training on a sequence of batches is a scalar, or has the shape of a tensor from before, or that of the
input, of a parameter, of the product or the output of a layer, of the target, or of the difference of output and target, for one of the batches. So the
sizes of tensors do not grow with the number of steps. Gradients have the shapes of their tensors, except gradients of scalars. -/
theorem C102_shapes (mlp : Mlp T) (h : Heap T) (data : List Nat) (hr : Reachable h) (hu : ∀ l ∈ mlp.layers, Usual l.activation)
    (hd : Loaded h (data ++ mlp.params)) (hg : GradsFit h) (ss : List (List Nat × List Nat)) (hl : LayerShapes h mlp ss) (bs : List (Nat × Nat × T))
    (hb : ∀ b ∈ bs, b.1 ∈ data ∧ b.2.1 ∈ data) (h' : Heap T) (mlp' : Mlp T) (e : trainEach mlp h bs = .ok (h', mlp')) :
    GradsFit h' ∧ ∀ t v, dataOf h' t = some v →
      v.shape = [] ∨ (∃ u w, dataOf h u = some w ∧ w.shape = v.shape) ∨ ∃ b ∈ bs, v.shape ∈ workShapes (shapeOf h b.1) ss (shapeOf h b.2.1) := by
  have g := each_work (P := fun s => s = [] ∨ (∃ u w, dataOf h u = some w ∧ w.shape = s) ∨
    ∃ b ∈ bs, s ∈ workShapes (shapeOf h b.1) ss (shapeOf h b.2.1)) bs (hd.trainee hr) hu hl hb
    (hg.sized fun t v hv => .inr (.inl ⟨t, v, hv, rfl⟩)) (.inl rfl) (fun b hm p hp => .inr (.inr ⟨b, hm, hp⟩)) e
  constructor
  · intro t v w hv hw
    obtain ⟨n, hn, rfl⟩ := dataOf_some hv
    simp only [gradOf, hn, Option.bind_some, Option.bind_eq_some_iff, Option.map_eq_some_iff] at hw
    obtain ⟨o, ho, m, hm, rfl⟩ := hw
    exact g.sized.grads hn ho hm
  · intro t v hv
    obtain ⟨n, hn, rfl⟩ := dataOf_some hv
    exact g.sized.shapes hn

/-- C102: if all these shapes have fewer than 2^32 elements, what training does is the same with 64-bit numbers, with overflow checks and
without, however many steps there are: if it succeeds with unbounded numbers it succeeds with the same graph and the same parameters. -/
theorem C102_machine (p : Profile) (ls : List (Nat × Nat × Act)) (h : Heap T) (data : List Nat) (hr : Reachable h)
    (hd : Loaded h (data ++ (netOf (T := T) Act.run ls).params)) (hg : GradsFit h) (ss : List (List Nat × List Nat))
    (hl : LayerShapes h (netOf Act.run ls) ss) (bs : List (Nat × Nat × T)) (hb : ∀ b ∈ bs, b.1 ∈ data ∧ b.2.1 ∈ data)
    (hh : ∀ t v, dataOf h t = some v → Small v.shape) (hw : ∀ b ∈ bs, ∀ s ∈ workShapes (shapeOf h b.1) ss (shapeOf h b.2.1), Small s)
    (h' : Heap T) (mlp' : Mlp T) (e : trainEach (netOf Act.run ls) h bs = .ok (h', mlp')) :
    ∃ ls', mlp' = netOf Act.run ls' ∧ trainEachU p (netOf (Act.runU p) ls) h bs = .ok (h', netOf (Act.runU p) ls') := by
  have fits : GraphFits h' := by
    refine Small.graphFits fun t v hv => ?_
    rcases (C102_shapes _ h data hr (usual_netOf ls) hd hg ss hl bs hb h' mlp' e).2 t v hv with h1 | ⟨u, w, h1, h2⟩ | ⟨b, h1, h2⟩
    · rw [h1]; exact (by decide : 1 < 2 ^ 32)
    · exact h2 ▸ hh u w h1
    · exact hw b h1 _ h2
  rw [← natKit_each] at e
  obtain ⟨_, nlp, hm, h1⟩ := (moves_debug.comp (moves_profile p)).each (netOf_match (A := natKit) (B := kitU p) ls) hr.good e
  obtain ⟨ls', h2, h3⟩ := match_netOf hm
  exact ⟨ls', h2, by rw [← kitU_each]; exact h3 ▸ (h1 fits).2⟩

/-- C102: with overflow checks training on a sequence of such batches succeeds if and only if the shapes of every single batch fit the network
as in C99. -/
theorem C102_exact (ls : List (Nat × Nat × Act)) (h : Heap T) (data : List Nat) (hr : Reachable h)
    (hd : Loaded h (data ++ (netOf (T := T) Act.run ls).params)) (hg : GradsFit h) (ss : List (List Nat × List Nat))
    (hl : LayerShapes h (netOf Act.run ls) ss) (bs : List (Nat × Nat × T)) (hb : ∀ b ∈ bs, b.1 ∈ data ∧ b.2.1 ∈ data)
    (hh : ∀ t v, dataOf h t = some v → Small v.shape) (hw : ∀ b ∈ bs, ∀ s ∈ workShapes (shapeOf h b.1) ss (shapeOf h b.2.1), Small s) :
    (∃ r, trainEachU .debug (netOf (Act.runU .debug) ls) h bs = .ok r) ↔ ∀ b ∈ bs, Trainable (shapeOf h b.1) ss (shapeOf h b.2.1) := by
  rw [← C100_stream _ h data hr (usual_netOf ls) hd ss hl bs hb]
  constructor
  · rintro ⟨⟨h', mlp'⟩, e⟩
    rw [← kitU_each] at e
    obtain ⟨_, nlp, hm, h1⟩ := moves_nat.each (netOf_match (A := kitU .debug) (B := natKit) ls) trivial e
    exact ⟨_, by rw [← natKit_each]; exact (h1 trivial).2⟩
  · rintro ⟨⟨h', mlp'⟩, e⟩
    obtain ⟨ls', -, h2⟩ := C102_machine .debug ls h data hr hd hg ss hl bs hb hh hw h' mlp' e
    exact ⟨_, h2⟩

section Tests

attribute [local instance] Test.intFn

theorem Test.C102_gradsFit : GradsFit Test.C100_heap := by
  intro t v g hv hg
  obtain ⟨n, hn, -⟩ := dataOf_some hv
  have hall : ∀ n ∈ Test.C100_heap, n.grad = none := by
    have : Test.C100_heap.all (fun n => n.grad.isNone) = true := by decide +kernel
    intro n hm
    simpa using List.all_eq_true.1 this n hm
  simp [gradOf, hn, hall n (List.mem_of_getElem? hn)] at hg

/-- TEST of the hypotheses of `C102_shapes`, `C102_machine` and `C102_exact`: those of `C100_stream`, and tensors of at most 4 elements. -/
example : ∃ r, trainEachU .debug (netOf (Act.runU .debug) [(2, 3, .relu), (2, 3, .identity)]) Test.C100_heap [(0, 0, 1), (1, 1, 2), (0, 0, 3)] = .ok r := by
  refine (C102_exact [(2, 3, .relu), (2, 3, .identity)] Test.C100_heap [0, 1] Test.C100_reachable Test.C100_loaded Test.C102_gradsFit
    [([2, 2], [1, 2]), ([2, 2], [1, 2])] (.cons ⟨⟨_, rfl, rfl⟩, ⟨_, rfl, rfl⟩⟩ (.cons ⟨⟨_, rfl, rfl⟩, ⟨_, rfl, rfl⟩⟩ .nil)) _ (by decide) ?_ ?_).2 ?_
  · intro t v hv
    obtain ⟨n, hn, rfl⟩ := dataOf_some hv
    have : Test.C100_heap.all (fun n => decide ((n.val.shape.map (max 1)).prod < 2 ^ 32)) = true := by decide +kernel
    show (n.val.shape.map (max 1)).prod < 2 ^ 32
    exact of_decide_eq_true (List.all_eq_true.1 this n (List.mem_of_getElem? hn))
  · intro b hb s hs
    have : ([(0, 0, 1), (1, 1, 2), (0, 0, 3)] : List (Nat × Nat × Int)).all (fun b =>
      (workShapes (shapeOf Test.C100_heap b.1) [([2, 2], [1, 2]), ([2, 2], [1, 2])] (shapeOf Test.C100_heap b.2.1)).all fun s =>
        decide ((s.map (max 1)).prod < 2 ^ 32)) = true := by decide +kernel
    show (s.map (max 1)).prod < 2 ^ 32
    exact of_decide_eq_true (List.all_eq_true.1 (List.all_eq_true.1 this b hb) s hs)
  · have h1 := C99_dense 2 2 2 [([2, 2], [1, 2]), ([2, 2], [1, 2])] (.cons (.inr rfl) (.cons (.inr rfl) (.nil 2)))
    have h2 := C99_dense 1 2 2 [([2, 2], [1, 2]), ([2, 2], [1, 2])] (.cons (.inr rfl) (.cons (.inr rfl) (.nil 2)))
    intro b hb
    simp only [List.mem_cons, List.not_mem_nil, or_false] at hb
    rcases hb with rfl | rfl | rfl
    exacts [h1, h2, h1]

/-- TEST: the same computed without overflow checks. -/
example : (trainEachU .release (netOf (Act.runU .release) [(2, 3, .relu), (2, 3, .identity)]) Test.C100_heap [(0, 0, 1), (1, 1, 2), (0, 0, 3)]).isOk = true := by
  decide +kernel

/-- TEST of `C102_dense`: the shapes for a batch of 5 rows. -/
example : workShapes [5, 2] [([2, 3], [1, 3]), ([3, 1], [1])] [5, 1] =
    [[5, 2], [2, 3], [1, 3], [5, 3], [5, 3], [3, 1], [1], [5, 1], [5, 1], [5, 1], [5, 1]] := by decide

end Tests

end RL
