import Verif.Lemmas.CutTrain
import Verif.Lemmas.TestInt

/-!
# C97: the history of the parameters does not change what is learned
-/

namespace RL

open Spec

variable {T : Type} [Zero T] [One T] [Add T] [Mul T] [Sub T] [Neg T] [LT T] [DecidableLT T] [LE T] [DecidableLE T] [RealFn T]

/-- Training keeps the input, the expected output and the parameters apart: different tensors without gradients, none of them computed from
another one. -/
theorem C97_loose (n : Nat) (h h' : Heap T) (mlp mlp' : Mlp T) (x y : Nat) (lr : T) (hr : Reachable h) (ha : ∀ l ∈ mlp.layers, Usual l.activation)
    (hl : Loose h (x :: y :: mlp.params)) (e : train mlp h x y lr n = .ok (h', mlp')) :
    Reachable h' ∧ Loose h' (x :: y :: mlp'.params) ∧ mlp'.layers.map (·.activation) = mlp.layers.map (·.activation) :=
  train_loose hr ha hl e

/-- C97. The parameters of a network in training, with whatever history, and any new tensors with the same data, in the same program or in
another one: whenever training can go on with the former, it does with the latter, and the parameters it leads to have the same data. -/
theorem C97_resume (n : Nat) (g h h' : Heap T) (a b b' : Mlp T) (x x' y y' : Nat) (lr : T) (hg : Reachable g) (hr : Reachable h)
    (hs : ∀ l ∈ b.layers, Usual l.activation) (ha : a.layers.map (·.activation) = b.layers.map (·.activation))
    (hf : Fresh g (x :: y :: a.params)) (hl : Loose h (x' :: y' :: b.params)) (hd : SameData g (x :: y :: a.params) h (x' :: y' :: b.params))
    (e : train b h x' y' lr n = .ok (h', b')) :
    ∃ g' a', train a g x y lr n = .ok (g', a') ∧ SameData g' a'.params h' b'.params ∧
      a'.layers.map (·.activation) = b'.layers.map (·.activation) := by
  have sim := sim_start hg.good hr.good hf hl hd
  have hp := pairs_forall hd.length_eq
  generalize Pairs (x :: y :: a.params) (x' :: y' :: b.params) = β at sim hp
  cases hp with
  | cons p1 hp =>
    cases hp with
    | cons p2 hp =>
      obtain ⟨⟨g', a'⟩, f1, β1, -, s1, n1⟩ := train_sim sim hg hr ⟨ha, hp⟩ hs p1 p2 lr _ e
      exact ⟨g', a', f1, n1.params.imp fun _ _ h => s1.data h, n1.acts⟩

/-- C97: also the losses are the same. -/
theorem C97_loss (g h h' : Heap T) (a b : Mlp T) (x x' y y' l' : Nat) (hg : Reachable g) (hr : Reachable h)
    (hs : ∀ l ∈ b.layers, Usual l.activation) (ha : a.layers.map (·.activation) = b.layers.map (·.activation))
    (hf : Fresh g (x :: y :: a.params)) (hl : Loose h (x' :: y' :: b.params)) (hd : SameData g (x :: y :: a.params) h (x' :: y' :: b.params))
    (e : trainLoss b h x' y' = .ok (h', l')) :
    ∃ g' l, trainLoss a g x y = .ok (g', l) ∧ dataOf g' l = dataOf h' l' := by
  have sim := sim_start hg.good hr.good hf hl hd
  have hp := pairs_forall hd.length_eq
  generalize Pairs (x :: y :: a.params) (x' :: y' :: b.params) = β at sim hp
  cases hp with
  | cons p1 hp =>
    cases hp with
    | cons p2 hp =>
      obtain ⟨⟨g', l⟩, f1, β1, -, s1, n1⟩ := trainLoss_sim sim ⟨ha, hp⟩ hs p1 p2 _ e
      exact ⟨g', l, f1, s1.data n1⟩

/-- C97: the training loop with a `deep_clone` of the parameters after every step computes the parameters that the loop of main.rs computes. -/
theorem C97_detached (n : Nat) (h h' : Heap T) (mlp mlp' : Mlp T) (x y : Nat) (lr : T) (hr : Reachable h)
    (hs : ∀ l ∈ mlp.layers, Usual l.activation) (hf : Fresh h (x :: y :: mlp.params)) (e : train mlp h x y lr n = .ok (h', mlp')) :
    ∃ g net, trainDetached mlp h x y lr n = .ok (g, net) ∧ Fresh g (x :: y :: net.params) ∧ SameData g net.params h' mlp'.params ∧
      net.layers.map (·.activation) = mlp'.layers.map (·.activation) := by
  obtain ⟨g, net, h1, -, h3, h4, h5⟩ := detached_sim hr hr hs rfl hf hf.loose (SameData.refl _ _) e
  cases h5 with
  | cons _ h5 =>
    cases h5 with
    | cons _ h5 => exact ⟨g, net, h1, h3, h5, h4⟩

/-- C97: and every step of that loop does the same amount of work (compare C60: in the loop of main.rs it grows with every step). -/
theorem C97_work (m n : Nat) (h g1 g2 k1 k2 : Heap T) (mlp net1 net2 : Mlp T) (x y l1 l2 w1 w2 : Nat) (lr : T) (hr : Reachable h)
    (hs : ∀ l ∈ mlp.layers, Usual l.activation) (hf : Fresh h (x :: y :: mlp.params))
    (e1 : trainDetached mlp h x y lr m = .ok (g1, net1)) (e2 : trainDetached mlp h x y lr n = .ok (g2, net2))
    (t1 : trainLoss net1 g1 x y = .ok (k1, l1)) (t2 : trainLoss net2 g2 x y = .ok (k2, l2)) (hw1 : Ways k1 l1 w1) (hw2 : Ways k2 l2 w2) :
    w2 = w1 := by
  obtain ⟨r1, f1, a1⟩ := detached_fresh hr hs hf e1
  obtain ⟨r2, f2, a2⟩ := detached_fresh hr hs hf e2
  exact C60_partial g1 g2 k1 k2 net1 net2 x y x y l1 l2 w1 w2 r1 r2 (fun l hl => stdAct_extends (stdAct_of_map a1 hs l hl)) (a2.trans a1.symm)
    f1.noHistory f2.noHistory t1 t2 hw1 hw2

section Tests

attribute [local instance] Test.intFn

/-- Two layers of widths 2 and 1 on a batch of 2 rows. -/
def Test.C97_start : List (Op Int) :=
  [.new [1, 2, 3, 4] [2, 2], .new [5, 6] [2, 1], .new [1, 0, 1, 1] [2, 2], .new [1, -2] [1, 2], .new [1, 1] [2, 1], .new [3] [1, 1]]

def Test.C97_net : Mlp Int := ⟨[⟨2, 3, reluT⟩, ⟨4, 5, Activation.identity⟩]⟩

/-- The tests of the hypotheses below, as a computation. -/
def Test.C97_heap : Heap Int := match runOps [] Test.C97_start with
  | .ok h => h
  | .error _ => []

theorem Test.C97_reachable : Reachable Test.C97_heap := ⟨Test.C97_start, rfl⟩

theorem Test.C97_usual : ∀ l ∈ Test.C97_net.layers, Usual l.activation := by
  intro l hl
  simp only [Test.C97_net, List.mem_cons, List.not_mem_nil, or_false] at hl
  rcases hl with rfl | rfl
  · exact .inr (.inl rfl)
  · exact .inl rfl

theorem Test.C97_fresh : Fresh Test.C97_heap (0 :: 1 :: Test.C97_net.params) := by
  refine ⟨by decide, fun t ht => ?_, fun t ht => ?_⟩ <;>
  · have : t = 0 ∨ t = 1 ∨ t = 2 ∨ t = 3 ∨ t = 4 ∨ t = 5 := by
      simpa [Test.C97_net, Mlp.params, Linear.params] using ht
    rcases this with rfl | rfl | rfl | rfl | rfl | rfl <;> rfl

/-- TEST of the hypotheses of `C97_detached`, `C97_loose`, `C97_work`: two training steps succeed, and change the parameters. -/
example : (train Test.C97_net Test.C97_heap 0 1 1 2).toOption.map (fun p => p.2.params.map (dataOf p.1)) =
    some [some ⟨[-3, -4, -5, -5], [2, 2]⟩, some ⟨[-1, -4], [1, 2]⟩, some ⟨[-11, -1], [2, 1]⟩, some ⟨[3], [1, 1]⟩] := by decide +kernel

/-- The state after one step. -/
def Test.C97_one : Heap Int × Mlp Int := match train Test.C97_net Test.C97_heap 0 1 1 1 with
  | .ok p => p
  | .error _ => ([], ⟨[]⟩)

theorem Test.C97_trained : train Test.C97_net Test.C97_heap 0 1 1 1 = .ok (Test.C97_one.1, Test.C97_one.2) := by
  have h1 : (train Test.C97_net Test.C97_heap 0 1 1 1).toOption.isSome = true := by decide +kernel
  cases e : train Test.C97_net Test.C97_heap 0 1 1 1 with
  | error x => rw [e] at h1; cases h1
  | ok p => simp only [Test.C97_one, e]

/-- Another program with the parameters after that step. -/
def Test.C97_saved : List (Op Int) :=
  [.new [1, 2, 3, 4] [2, 2], .new [5, 6] [2, 1], .new [-3, -4, -5, -5] [2, 2], .new [-1, -4] [1, 2], .new [-11, -1] [2, 1], .new [1] [1, 1]]

def Test.C97_loaded : Heap Int := match runOps [] Test.C97_saved with
  | .ok h => h
  | .error _ => []

/-- TEST of the hypotheses of `C97_resume` and `C97_loss`: parameters with a history, and others with the same data and none. -/
example : Reachable Test.C97_loaded ∧ Reachable Test.C97_one.1 ∧ (∀ l ∈ Test.C97_one.2.layers, Usual l.activation) ∧
    Test.C97_net.layers.map (·.activation) = Test.C97_one.2.layers.map (·.activation) ∧ Fresh Test.C97_loaded (0 :: 1 :: Test.C97_net.params) ∧
    Loose Test.C97_one.1 (0 :: 1 :: Test.C97_one.2.params) ∧
    SameData Test.C97_loaded (0 :: 1 :: Test.C97_net.params) Test.C97_one.1 (0 :: 1 :: Test.C97_one.2.params) ∧
    (∀ p ∈ Test.C97_one.2.params, historyOf Test.C97_one.1 p ≠ some none) := by
  obtain ⟨h1, h2, h3⟩ := C97_loose 1 Test.C97_heap Test.C97_one.1 Test.C97_net Test.C97_one.2 0 1 1 Test.C97_reachable Test.C97_usual
    Test.C97_fresh.loose Test.C97_trained
  refine ⟨⟨Test.C97_saved, rfl⟩, h1, stdAct_of_map h3 Test.C97_usual, h3.symm, ?_, h2, ?_, ?_⟩
  · refine ⟨by decide, fun t ht => ?_, fun t ht => ?_⟩ <;>
    · have : t = 0 ∨ t = 1 ∨ t = 2 ∨ t = 3 ∨ t = 4 ∨ t = 5 := by
        simpa [Test.C97_net, Mlp.params, Linear.params] using ht
      rcases this with rfl | rfl | rfl | rfl | rfl | rfl <;> rfl
  · have h4 : (0 :: 1 :: Test.C97_net.params).map (dataOf Test.C97_loaded) = (0 :: 1 :: Test.C97_one.2.params).map (dataOf Test.C97_one.1) := by
      decide +kernel
    exact (List.forall₂_map_right_iff.1 (List.forall₂_map_left_iff.1 (List.forall₂_eq_eq_eq ▸ h4)))
  · decide +kernel

end Tests

end RL
