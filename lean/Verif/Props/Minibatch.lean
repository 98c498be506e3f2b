import Verif.Lemmas.Minibatch
import Verif.Props.Trainable

/-!
# C100: training on a sequence of batches
-/

namespace RL

open Spec

variable {T : Type} [Zero T] [One T] [Add T] [Mul T] [Sub T] [Neg T] [LT T] [DecidableLT T] [LE T] [DecidableLE T] [RealFn T]

/-- C100. Training on a sequence of batches, each with its own learning rate, succeeds if and only if the shapes of every single batch fit the
network as in C99. Batches may come again, a batch may be its own target, layers may share parameters, parameters may be in the data, and the
tensors may have gradients from before. -/
theorem C100_stream (mlp : Mlp T) (h : Heap T) (data : List Nat) (hr : Reachable h) (hu : ∀ l ∈ mlp.layers, Usual l.activation)
    (hd : Loaded h (data ++ mlp.params)) (ss : List (List Nat × List Nat)) (hl : LayerShapes h mlp ss) (bs : List (Nat × Nat × T))
    (hb : ∀ b ∈ bs, b.1 ∈ data ∧ b.2.1 ∈ data) :
    (∃ r, trainEach mlp h bs = .ok r) ↔ ∀ b ∈ bs, Trainable (shapeOf h b.1) ss (shapeOf h b.2.1) :=
  (each_which bs (hd.trainee hr) hu hl hb).1

/-- C100: it leaves the data as they are, and parameters of the same shapes. -/
theorem C100_keeps (mlp : Mlp T) (h : Heap T) (data : List Nat) (hr : Reachable h) (hu : ∀ l ∈ mlp.layers, Usual l.activation)
    (hd : Loaded h (data ++ mlp.params)) (ss : List (List Nat × List Nat)) (hl : LayerShapes h mlp ss) (bs : List (Nat × Nat × T))
    (hb : ∀ b ∈ bs, b.1 ∈ data ∧ b.2.1 ∈ data) (h' : Heap T) (mlp' : Mlp T) (e : trainEach mlp h bs = .ok (h', mlp')) :
    LayerShapes h' mlp' ss ∧ ∀ t ∈ data, dataOf h' t = dataOf h t :=
  (each_which bs (hd.trainee hr) hu hl hb).2 h' mlp' e

/-- C100: whether it succeeds does not depend on the order of the batches, on how often a batch comes, or on the learning rates. -/
theorem C100_order (mlp : Mlp T) (h : Heap T) (data : List Nat) (hr : Reachable h) (hu : ∀ l ∈ mlp.layers, Usual l.activation)
    (hd : Loaded h (data ++ mlp.params)) (bs cs : List (Nat × Nat × T)) (hb : ∀ b ∈ bs, b.1 ∈ data ∧ b.2.1 ∈ data)
    (hbc : ∀ x y, (∃ lr, (x, y, lr) ∈ bs) ↔ ∃ lr, (x, y, lr) ∈ cs) :
    (∃ r, trainEach mlp h bs = .ok r) ↔ ∃ r, trainEach mlp h cs = .ok r := by
  have hc : ∀ c ∈ cs, c.1 ∈ data ∧ c.2.1 ∈ data := by
    rintro ⟨x, y, lr⟩ hm
    obtain ⟨lr', hm'⟩ := (hbc x y).2 ⟨lr, hm⟩
    exact hb (x, y, lr') hm'
  obtain ⟨ss, hl⟩ : ∃ ss, LayerShapes h mlp ss := by
    have mem : ∀ l ∈ mlp.layers, (∃ s, HasShape h l.weights s) ∧ ∃ s, HasShape h l.bias s := by
      have shape : ∀ t ∈ mlp.params, ∃ s, HasShape h t s := fun t ht => by
        obtain ⟨-, v, hv, -⟩ := hd t (by simp [ht])
        exact ⟨v.shape, v, hv, rfl⟩
      intro l hm
      refine ⟨shape _ ?_, shape _ ?_⟩ <;>
      · simp only [Mlp.params, List.mem_flatMap, Linear.params]
        exact ⟨l, hm, by simp⟩
    unfold LayerShapes
    generalize mlp.layers = ls at mem
    clear hd hu
    induction ls with
    | nil => exact ⟨[], .nil⟩
    | cons l ls ih =>
      obtain ⟨ss, hss⟩ := ih fun l hm => mem l (by simp [hm])
      obtain ⟨⟨sw, hw⟩, sb, hb⟩ := mem l (by simp)
      exact ⟨(sw, sb) :: ss, .cons ⟨hw, hb⟩ hss⟩
  rw [C100_stream mlp h data hr hu hd ss hl bs hb, C100_stream mlp h data hr hu hd ss hl cs hc]
  constructor
  · rintro h1 ⟨x, y, lr⟩ hm
    obtain ⟨lr', hm'⟩ := (hbc x y).2 ⟨lr, hm⟩
    exact h1 (x, y, lr') hm'
  · rintro h1 ⟨x, y, lr⟩ hm
    obtain ⟨lr', hm'⟩ := (hbc x y).1 ⟨lr, hm⟩
    exact h1 (x, y, lr') hm'

section Tests

attribute [local instance] Test.intFn

/-- TEST: two batches of different heights, and a network whose two layers share weights and bias. -/
def Test.C100_ops : List (Op Int) :=
  [.new [1, 2, 3, 4] [2, 2], .new [5, 6] [1, 2], .new [1, 0, 2, 1] [2, 2], .new [1, 1] [1, 2]]

def Test.C100_heap : Heap Int := (runOps [] Test.C100_ops).toOption.getD []

def Test.C100_net : Mlp Int := ⟨[⟨2, 3, reluT⟩, ⟨2, 3, Activation.identity⟩]⟩

theorem Test.C100_reachable : Reachable Test.C100_heap := ⟨Test.C100_ops, rfl⟩

theorem Test.C100_loaded : Loaded Test.C100_heap ([0, 1] ++ Test.C100_net.params) := by
  intro t ht
  have : t = 0 ∨ t = 1 ∨ t = 2 ∨ t = 3 := by
    simp [Test.C100_net, Mlp.params, Linear.params] at ht
    omega
  rcases this with rfl | rfl | rfl | rfl <;> exact ⟨rfl, _, rfl, by decide, by decide, nofun⟩

/-- TEST of the hypotheses of `C100_stream`: each batch is its own target, the first comes twice. -/
example : ∃ r, trainEach Test.C100_net Test.C100_heap [(0, 0, 1), (1, 1, 2), (0, 0, 3)] = .ok r :=
  (C100_stream Test.C100_net Test.C100_heap [0, 1] Test.C100_reachable
    (by intro l hl; simp [Test.C100_net] at hl; rcases hl with rfl | rfl; exacts [.inr (.inl rfl), .inl rfl]) Test.C100_loaded
    [([2, 2], [1, 2]), ([2, 2], [1, 2])]
    (.cons ⟨⟨_, rfl, rfl⟩, ⟨_, rfl, rfl⟩⟩ (.cons ⟨⟨_, rfl, rfl⟩, ⟨_, rfl, rfl⟩⟩ .nil)) _ (by decide)).2 (by
    have h1 := C99_dense 2 2 2 [([2, 2], [1, 2]), ([2, 2], [1, 2])] (.cons (.inr rfl) (.cons (.inr rfl) (.nil 2)))
    have h2 := C99_dense 1 2 2 [([2, 2], [1, 2]), ([2, 2], [1, 2])] (.cons (.inr rfl) (.cons (.inr rfl) (.nil 2)))
    intro b hb
    simp only [List.mem_cons, List.not_mem_nil, or_false] at hb
    rcases hb with rfl | rfl | rfl
    exacts [h1, h2, h1])

/-- TEST: the same computed. -/
example : (trainEach Test.C100_net Test.C100_heap [(0, 0, 1), (1, 1, 2), (0, 0, 3)]).toOption.isSome = true := by decide +kernel

end Tests

end RL
