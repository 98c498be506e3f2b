import Verif.Lemmas.WhichTrain
import Verif.Props.Steady

/-!
# C99: exactly which shapes can be trained
-/

namespace RL

open Spec

variable {T : Type} [Zero T] [One T] [Add T] [Mul T] [Sub T] [Neg T] [LT T] [DecidableLT T] [LE T] [DecidableLE T] [RealFn T]

/-- C99. A training step succeeds if and only if the shapes fit together: every layer multiplies a matrix, or a tensor all of whose dimensions
are 1, with as many columns as its weights have rows, its bias can be broadcast against the product, and the target against the output. -/
theorem C99_exact (mlp : Mlp T) (x y : Nat) (lr : T) (h : Heap T) (hr : Reachable h) (hu : ∀ l ∈ mlp.layers, Usual l.activation)
    (hf : Fresh h (x :: y :: mlp.params)) (hp : Proper h (x :: y :: mlp.params)) (s sy : List Nat) (ss : List (List Nat × List Nat))
    (hx : HasShape h x s) (hy : HasShape h y sy) (hl : LayerShapes h mlp ss) :
    (∃ r, trainStep mlp h x y lr = .ok r) ↔ Trainable s ss sy :=
  step_which lr hr hu hf hp hx hy hl

/-- C99: the same for the training loop of main.rs, with any number of steps. -/
theorem C99_loop (mlp : Mlp T) (x y : Nat) (lr : T) (h : Heap T) (hr : Reachable h) (hu : ∀ l ∈ mlp.layers, Usual l.activation)
    (hf : Fresh h (x :: y :: mlp.params)) (hp : Proper h (x :: y :: mlp.params)) (s sy : List Nat) (ss : List (List Nat × List Nat))
    (hx : HasShape h x s) (hy : HasShape h y sy) (hl : LayerShapes h mlp ss) (n : Nat) :
    (∃ r, train mlp h x y lr (n + 1) = .ok r) ↔ Trainable s ss sy :=
  ((C98_loop mlp x y lr h hr hu hf hp n).1).trans (step_which lr hr hu hf hp hx hy hl)

/-- C99: the same with a learning rate for every step. -/
theorem C99_rates (mlp : Mlp T) (x y : Nat) (lr : T) (lrs : List T) (h : Heap T) (hr : Reachable h) (hu : ∀ l ∈ mlp.layers, Usual l.activation)
    (hf : Fresh h (x :: y :: mlp.params)) (hp : Proper h (x :: y :: mlp.params)) (s sy : List Nat) (ss : List (List Nat × List Nat))
    (hx : HasShape h x s) (hy : HasShape h y sy) (hl : LayerShapes h mlp ss) :
    (∃ r, trainRates mlp h x y (lr :: lrs) = .ok r) ↔ Trainable s ss sy := by
  rw [← step_which lr hr hu hf hp hx hy hl]
  constructor
  · rintro ⟨r, e⟩
    rw [trainRates, R.bind_eq_ok] at e
    obtain ⟨r', e, -⟩ := e
    exact ⟨r', e⟩
  · rintro ⟨⟨g, a⟩, e⟩
    obtain ⟨h', b', h1, -⟩ := C98_steady mlp mlp x y x y lr h g h a hr hr hu rfl hf hf hp hp (SameShapes.refl hp) e (lr :: lrs)
    exact ⟨_, h1⟩

/-- C99: a dense network, of any depth and any widths, can be trained on a batch of any height with a target of that height. -/
theorem C99_dense (m k o : Nat) (ss : List (List Nat × List Nat)) (hd : Dense k ss o) : Trainable [m, k] ss [m, o] := by
  induction hd with
  | nil k =>
    refine .target ?_
    simp [Compatible, padLeft]
  | @cons k n o b ss hb _ ih =>
    have h1 : Compatible [m, n] b ∧ bshape [m, n] b = [m, n] := by
      rcases hb with rfl | rfl
      · simp [Compatible, bshape, padLeft, eq_comm]
      · simp [Compatible, bshape, padLeft, eq_comm]
    exact .matrix h1.1 (by rw [h1.2]; exact ih)

/-- C99: no network with a layer can be trained on a batch of rank 3 or more with a dimension other than 1, although `bmm` accepts such batches. -/
theorem C99_batches (mlp : Mlp T) (x y : Nat) (lr : T) (h : Heap T) (hr : Reachable h) (hu : ∀ l ∈ mlp.layers, Usual l.activation)
    (hf : Fresh h (x :: y :: mlp.params)) (hp : Proper h (x :: y :: mlp.params)) (s : List Nat) (hx : HasShape h x s) (h3 : 3 ≤ s.length)
    (h1 : ∃ d ∈ s, d ≠ 1) (hl : mlp.layers ≠ []) (r : Heap T × Mlp T) : trainStep mlp h x y lr ≠ .ok r := by
  intro e
  have shape : ∀ t ∈ x :: y :: mlp.params, ∃ s, HasShape h t s := fun t ht => by
    obtain ⟨v, hv, -⟩ := hp t ht
    exact ⟨v.shape, v, hv, rfl⟩
  obtain ⟨sy, hy⟩ := shape y (by simp)
  obtain ⟨ss, hss⟩ : ∃ ss, LayerShapes h mlp ss := by
    have mem : ∀ l ∈ mlp.layers, (∃ s, HasShape h l.weights s) ∧ ∃ s, HasShape h l.bias s := by
      intro l hm
      refine ⟨shape _ ?_, shape _ ?_⟩ <;>
      · simp only [List.mem_cons, Mlp.params, List.mem_flatMap, Linear.params]
        exact .inr (.inr ⟨l, hm, by simp⟩)
    unfold LayerShapes
    generalize mlp.layers = ls at mem
    clear hl hp hf hu e shape
    induction ls with
    | nil => exact ⟨[], .nil⟩
    | cons l ls ih =>
      obtain ⟨ss, hss⟩ := ih fun l hm => mem l (by simp [hm])
      obtain ⟨⟨sw, hw⟩, sb, hb⟩ := mem l (by simp)
      exact ⟨(sw, sb) :: ss, .cons ⟨hw, hb⟩ hss⟩
  have ht := (C99_exact mlp x y lr h hr hu hf hp s sy ss hx hy hss).1 ⟨r, e⟩
  cases ht with
  | target => exact hl (List.forall₂_nil_right_iff.1 hss)
  | matrix => simp at h3
  | ones _ h4 =>
    obtain ⟨d, hd, hne⟩ := h1
    exact hne (h4 d hd)

section Tests

attribute [local instance] Test.intFn

/-- TEST of the hypotheses of `C99_exact`: the shapes of a network with two layers, that can be trained. -/
example : HasShape Test.C97_heap 0 [2, 2] ∧ HasShape Test.C97_heap 1 [2, 1] ∧
    LayerShapes Test.C97_heap Test.C97_net [([2, 2], [1, 2]), ([2, 1], [1, 1])] ∧
    Trainable [2, 2] [([2, 2], [1, 2]), ([2, 1], [1, 1])] [2, 1] :=
  ⟨⟨_, rfl, rfl⟩, ⟨_, rfl, rfl⟩, .cons ⟨⟨_, rfl, rfl⟩, ⟨_, rfl, rfl⟩⟩ (.cons ⟨⟨_, rfl, rfl⟩, ⟨_, rfl, rfl⟩⟩ .nil),
    C99_dense 2 2 1 _ (.cons (.inr rfl) (.cons (.inr rfl) (.nil 1)))⟩

/-- TEST: hence its training succeeds for any number of steps. -/
example (n : Nat) : ∃ r, train Test.C97_net Test.C97_heap 0 1 1 (n + 1) = .ok r :=
  (C99_loop Test.C97_net 0 1 1 Test.C97_heap Test.C97_reachable Test.C97_usual Test.C97_fresh Test.C98_proper [2, 2] [2, 1]
    [([2, 2], [1, 2]), ([2, 1], [1, 1])] ⟨_, rfl, rfl⟩ ⟨_, rfl, rfl⟩
    (.cons ⟨⟨_, rfl, rfl⟩, ⟨_, rfl, rfl⟩⟩ (.cons ⟨⟨_, rfl, rfl⟩, ⟨_, rfl, rfl⟩⟩ .nil)) n).2
    (C99_dense 2 2 1 _ (.cons (.inr rfl) (.cons (.inr rfl) (.nil 1))))

/-- TEST: a target of another height cannot be trained. -/
example : ¬ Trainable [2, 2] [([2, 1], [1, 1])] [3, 1] := by
  intro ht
  cases ht with
  | matrix _ h2 =>
    cases h2 with
    | target h3 => exact absurd h3 (by simp [Compatible, bshape, padLeft])

/-- TEST: a batch of shape `[1, 1, 1, 1]` can be trained; the target may have any width. -/
example : ((runOps [] [.new [2] [1, 1, 1, 1], .new [5, 6, 7] [3], .new [1] [1, 1], .new [1] [1]] >>= fun h =>
    train (⟨[⟨2, 3, reluT⟩]⟩ : Mlp Int) h 0 1 1 2).toOption.isSome) = true := by decide +kernel

example : Trainable [1, 1, 1, 1] [([1, 1], [1])] [3] :=
  .ones (by simp) (by simp) (by simp [Compatible, padLeft]) (.target (by simp [Compatible, bshape, padLeft]))

/-- TEST: the forward pass of a batch of shape `[2, 1, 1]` succeeds, its training step does not. -/
example : ((runOps [] [.new [2, 3] [2, 1, 1], .new [5, 6] [2, 1, 1], .new [1] [1, 1], .new [1] [1]] >>= fun h =>
    trainLoss (⟨[⟨2, 3, reluT⟩]⟩ : Mlp Int) h 0 1).toOption.isSome) = true ∧
    ((runOps [] [.new [2, 3] [2, 1, 1], .new [5, 6] [2, 1, 1], .new [1] [1, 1], .new [1] [1]] >>= fun h =>
    trainStep (⟨[⟨2, 3, reluT⟩]⟩ : Mlp Int) h 0 1 1).toOption.isSome) = false := by decide +kernel

end Tests

end RL
