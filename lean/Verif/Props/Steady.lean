import Verif.Lemmas.SteadyTrain
import Verif.Props.Detach

/-!
# C98: training that survives its first step never fails
-/

namespace RL

open Spec

variable {T : Type} [Zero T] [One T] [Add T] [Mul T] [Sub T] [Neg T] [LT T] [DecidableLT T] [LE T] [DecidableLE T] [RealFn T]

/-- C98. If one training step succeeds, then training with any learning rates, of any tensors of the same shapes, in the same program or in
another one, succeeds for any number of steps, and leaves parameters of the same shapes. -/
theorem C98_steady (a b : Mlp T) (x y x' y' : Nat) (lr : T) (g g' h : Heap T) (a' : Mlp T) (hg : Reachable g) (hh : Reachable h)
    (hs : ∀ l ∈ a.layers, Usual l.activation) (ha : a.layers.map (·.activation) = b.layers.map (·.activation))
    (hf : Fresh g (x :: y :: a.params)) (hf' : Fresh h (x' :: y' :: b.params))
    (hp : Proper g (x :: y :: a.params)) (hp' : Proper h (x' :: y' :: b.params))
    (hsh : SameShapes g (x :: y :: a.params) h (x' :: y' :: b.params)) (e : trainStep a g x y lr = .ok (g', a')) (lrs : List T) :
    ∃ h' b', trainRates b h x' y' lrs = .ok (h', b') ∧ SameShapes g a.params h' b'.params := by
  obtain ⟨h', b', h1, h2, -⟩ := ready_rates hg hs hf hp e lrs ha (ready_start hh hf' hp' hsh)
  rcases h2.shapes with _ | ⟨-, _ | ⟨-, h3⟩⟩
  exact ⟨h', b', h1, h3⟩

/-- C98: whether a step succeeds does not depend on anything but the shapes and the activations. -/
theorem C98_shapes (a b : Mlp T) (x y x' y' : Nat) (lr lr' : T) (g h : Heap T) (hg : Reachable g) (hh : Reachable h)
    (hs : ∀ l ∈ a.layers, Usual l.activation) (ha : a.layers.map (·.activation) = b.layers.map (·.activation))
    (hf : Fresh g (x :: y :: a.params)) (hf' : Fresh h (x' :: y' :: b.params))
    (hp : Proper g (x :: y :: a.params)) (hp' : Proper h (x' :: y' :: b.params))
    (hsh : SameShapes g (x :: y :: a.params) h (x' :: y' :: b.params)) :
    (∃ r, trainStep a g x y lr = .ok r) ↔ ∃ r, trainStep b h x' y' lr' = .ok r := by
  have key : ∀ (a b : Mlp T) (x y x' y' : Nat) (lr lr' : T) (g h : Heap T), Reachable g → Reachable h → (∀ l ∈ a.layers, Usual l.activation) →
      a.layers.map (·.activation) = b.layers.map (·.activation) → Fresh g (x :: y :: a.params) → Fresh h (x' :: y' :: b.params) →
      Proper g (x :: y :: a.params) → Proper h (x' :: y' :: b.params) → SameShapes g (x :: y :: a.params) h (x' :: y' :: b.params) →
      (∃ r, trainStep a g x y lr = .ok r) → ∃ r, trainStep b h x' y' lr' = .ok r := by
    intro a b x y x' y' lr lr' g h hg hh hs ha hf hf' hp hp' hsh ⟨⟨g', a'⟩, e⟩
    obtain ⟨h1, b1, e1, -⟩ := step_ready (lr' := lr') hg hs hf hp e ha (ready_start hh hf' hp' hsh)
    exact ⟨_, e1⟩
  exact ⟨key a b x y x' y' lr lr' g h hg hh hs ha hf hf' hp hp' hsh,
    key b a x' y' x y lr' lr h g hh hg (stdAct_of_map ha.symm hs) ha.symm hf' hf hp' hp hsh.symm⟩

/-- C98: the training loop of main.rs fails, with whatever number of steps, exactly if its first step fails, and then with this error. -/
theorem C98_loop (mlp : Mlp T) (x y : Nat) (lr : T) (h : Heap T) (hr : Reachable h) (hs : ∀ l ∈ mlp.layers, Usual l.activation)
    (hf : Fresh h (x :: y :: mlp.params)) (hp : Proper h (x :: y :: mlp.params)) (n : Nat) :
    ((∃ r, train mlp h x y lr (n + 1) = .ok r) ↔ ∃ r, trainStep mlp h x y lr = .ok r) ∧
    ∀ e, train mlp h x y lr (n + 1) = .error e ↔ trainStep mlp h x y lr = .error e := by
  cases e : trainStep mlp h x y lr with
  | error e' => simp [train, e, bind, Except.bind]
  | ok r =>
    obtain ⟨h', b', h1, -⟩ := C98_steady mlp mlp x y x y lr h r.1 h r.2 hr hr hs rfl hf hf hp hp (SameShapes.refl hp) e (List.replicate (n + 1) lr)
    rw [trainRates_replicate] at h1
    simp [h1]

/-- C98, and what was missing in C97: the training loop with a `deep_clone` of the parameters after every step fails exactly if the loop of main.rs
does. -/
theorem C98_detached (mlp : Mlp T) (x y : Nat) (lr : T) (h : Heap T) (hr : Reachable h) (hs : ∀ l ∈ mlp.layers, Usual l.activation)
    (hf : Fresh h (x :: y :: mlp.params)) (hp : Proper h (x :: y :: mlp.params)) (n : Nat) :
    (∃ r, trainDetached mlp h x y lr n = .ok r) ↔ ∃ r, train mlp h x y lr n = .ok r := by
  constructor
  · rintro ⟨r, e⟩
    cases n with
    | zero => exact ⟨_, rfl⟩
    | succ n =>
      rw [trainDetached, R.bind_eq_ok] at e
      obtain ⟨r', e, -⟩ := e
      exact (C98_loop mlp x y lr h hr hs hf hp n).1.2 ⟨r', e⟩
  · rintro ⟨⟨h', m'⟩, e⟩
    obtain ⟨g, net, h1, -⟩ := C97_detached n h h' mlp m' x y lr hr hs hf e
    exact ⟨_, h1⟩

section Tests

attribute [local instance] Test.intFn

theorem Test.C98_proper : Proper Test.C97_heap (0 :: 1 :: Test.C97_net.params) := by
  intro t ht
  have : t = 0 ∨ t = 1 ∨ t = 2 ∨ t = 3 ∨ t = 4 ∨ t = 5 := by
    simpa [Test.C97_net, Mlp.params, Linear.params] using ht
  rcases this with rfl | rfl | rfl | rfl | rfl | rfl <;> exact ⟨_, rfl, by decide, by decide⟩

/-- TEST of the hypotheses of `C98_loop` and `C98_detached`: a step succeeds. -/
example : ∃ r, trainStep Test.C97_net Test.C97_heap 0 1 1 = .ok r :=
  (C98_loop Test.C97_net 0 1 1 Test.C97_heap Test.C97_reachable Test.C97_usual Test.C97_fresh Test.C98_proper 0).1.1 ⟨_, Test.C97_trained⟩

/-- TEST of the hypotheses of `C98_steady` and `C98_shapes`: another program, with other data. -/
example : SameShapes Test.C97_heap (0 :: 1 :: Test.C97_net.params) Test.C97_loaded (0 :: 1 :: Test.C97_net.params) ∧
    Proper Test.C97_loaded (0 :: 1 :: Test.C97_net.params) ∧ Fresh Test.C97_loaded (0 :: 1 :: Test.C97_net.params) := by
  refine ⟨?_, ?_, ?_, ?_, ?_⟩
  · exact .cons ⟨_, _, rfl, rfl, rfl⟩ (.cons ⟨_, _, rfl, rfl, rfl⟩ (.cons ⟨_, _, rfl, rfl, rfl⟩ (.cons ⟨_, _, rfl, rfl, rfl⟩
      (.cons ⟨_, _, rfl, rfl, rfl⟩ (.cons ⟨_, _, rfl, rfl, rfl⟩ .nil)))))
  · intro t ht
    have : t = 0 ∨ t = 1 ∨ t = 2 ∨ t = 3 ∨ t = 4 ∨ t = 5 := by
      simpa [Test.C97_net, Mlp.params, Linear.params] using ht
    rcases this with rfl | rfl | rfl | rfl | rfl | rfl <;> exact ⟨_, rfl, by decide, by decide⟩
  · decide
  all_goals
    intro t ht
    have : t = 0 ∨ t = 1 ∨ t = 2 ∨ t = 3 ∨ t = 4 ∨ t = 5 := by
      simpa [Test.C97_net, Mlp.params, Linear.params] using ht
    rcases this with rfl | rfl | rfl | rfl | rfl | rfl <;> rfl

/-- TEST: with the target of another height than the batch, the first step fails, and so does the loop. -/
example : ((runOps [] [.new [1, 2, 3, 4] [2, 2], .new [5, 6, 7] [3, 1], .new [1, 0] [2, 1], .new [1] [1, 1]] >>= fun h =>
    train (⟨[⟨2, 3, reluT⟩]⟩ : Mlp Int) h 0 1 1 1).toOption.isNone) = true := by decide +kernel

end Tests

end RL
