import Verif.Lemmas.ForwardShapes
import Verif.Props.Trainable

/-!
# C101: exactly which inputs a network accepts
-/

namespace RL

open Spec

section Shapes

theorem multiplies_unique {s t p q : List Nat} (h1 : Multiplies s t p) (h2 : Multiplies s t q) : p = q := by
  cases h1 with
  | matrix m k n =>
    generalize hs : [m, k] = s at h2
    cases h2 with
    | matrix => cases hs; rfl
    | batch => cases hs
    | row a m' => simp [List.replicate_succ] at hs
  | batch b m k n =>
    generalize hs : [b, m, k] = s at h2
    cases h2 with
    | matrix => cases hs
    | batch => cases hs; rfl
    | row a m' => exact absurd (congrArg List.length hs) (by simp)
  | row a m k n =>
    generalize hs : List.replicate (a + 2) 1 ++ [m, k] = s at h2
    cases h2 with
    | matrix => simp [List.replicate_succ] at hs
    | batch => exact absurd (congrArg List.length hs) (by simp)
    | row => rfl

/-- C101: the shape of the output is determined. -/
theorem C101_unique (s o o' : List Nat) (ss : List (List Nat × List Nat)) (h1 : Accepts s ss o) (h2 : Accepts s ss o') : o = o' := by
  induction h1 with
  | nil => cases h2; rfl
  | cons a1 _ _ ih =>
    cases h2 with
    | cons b1 _ b3 =>
      cases multiplies_unique a1 b1
      exact ih b3

theorem dense_bias {n : Nat} {p b : List Nat} (hb : b = [n] ∨ b = [1, n]) (hp : (∃ m, p = [m, n]) ∨ ∃ c m, p = [c, m, n]) :
    Compatible p b ∧ bshape p b = p := by
  rcases hb with rfl | rfl <;> rcases hp with ⟨m, rfl⟩ | ⟨c, m, rfl⟩ <;> simp [Compatible, bshape, padLeft, List.replicate_succ, eq_comm]

/-- C101: a dense network, of any depth and any widths, accepts matrices and batches of matrices of any height. -/
theorem C101_dense (c m k o : Nat) (ss : List (List Nat × List Nat)) (hd : Dense k ss o) :
    Accepts [m, k] ss [m, o] ∧ Accepts [c, m, k] ss [c, m, o] := by
  induction hd with
  | nil k => exact ⟨.nil _, .nil _⟩
  | @cons k n o b ss hb _ ih =>
    obtain ⟨h1, h2⟩ := dense_bias hb (.inl ⟨m, rfl⟩)
    obtain ⟨h3, h4⟩ := dense_bias hb (.inr ⟨c, m, rfl⟩)
    exact ⟨.cons (.matrix m k n) h1 (by rw [h2]; exact ih.1), .cons (.batch c m k n) h3 (by rw [h4]; exact ih.2)⟩

/-- C101: what can be trained is accepted. -/
theorem C101_trainable (s y : List Nat) (ss : List (List Nat × List Nat)) (ht : Trainable s ss y) : ∃ o, Accepts s ss o ∧ Compatible o y := by
  induction ht with
  | @target x y h1 => exact ⟨x, .nil x, h1⟩
  | @matrix m k n b y rest h1 _ ih =>
    obtain ⟨o, h2, h3⟩ := ih
    exact ⟨o, .cons (.matrix m k n) h1 h2, h3⟩
  | @ones x n b y rest h3 h1 h2 _ ih =>
    obtain ⟨o, h4, h5⟩ := ih
    refine ⟨o, .cons (p := [1, 1, n]) ?_ h2 h4, h5⟩
    have hx : x = List.replicate x.length 1 := List.eq_replicate_iff.2 ⟨rfl, h1⟩
    obtain ⟨q, hq⟩ := Nat.exists_eq_add_of_le h3
    rw [hx, hq]
    rcases q with - | q
    · exact .batch 1 1 1 n
    · have : List.replicate (3 + (q + 1)) 1 = List.replicate (q + 2) 1 ++ [1, 1] := by
        rw [show [1, 1] = List.replicate 2 1 from rfl, List.replicate_append_replicate]
        congr 1
        omega
      rw [this]
      exact .row q 1 1 n

/-- C101: for a matrix, and biases of rank at most 2, the converse holds: what is accepted can be trained. -/
theorem C101_matrix (s y : List Nat) (ss : List (List Nat × List Nat)) (hs : s.length = 2) (hb : ∀ l ∈ ss, l.2.length ≤ 2) :
    Trainable s ss y ↔ ∃ o, Accepts s ss o ∧ Compatible o y := by
  refine ⟨C101_trainable s y ss, ?_⟩
  rintro ⟨o, h1, h2⟩
  induction h1 with
  | nil x => exact .target h2
  | @cons x w b p o rest a1 a2 _ ih =>
    cases a1 with
    | matrix m k n =>
      refine .matrix a2 (ih ?_ (fun l hl => hb l (by simp [hl])) h2)
      have := hb ([k, n], b) (by simp)
      simp only [bshape, padLeft, List.length_zipWith, List.length_append, List.length_replicate, List.length_cons, List.length_nil] at this ⊢
      omega
    | batch => simp at hs
    | row => simp at hs

end Shapes

variable {T : Type} [Zero T] [One T] [Add T] [Mul T] [Sub T] [Neg T] [LT T] [DecidableLT T] [LE T] [DecidableLE T] [RealFn T]

theorem Spec.Proper.sound {h : Heap T} {ts : List Nat} (hp : Proper h ts) {t : Nat} (ht : t ∈ ts) {s : List Nat} (hs : HasShape h t s) : Sound h t s := by
  obtain ⟨v, h1, h2⟩ := hs
  obtain ⟨w, h3, h4, h5⟩ := hp t ht
  rw [h1] at h3
  cases h3
  exact ⟨v, h1, h4, h2 ▸ h5, h2⟩

theorem soundLayers {h : Heap T} {mlp : Mlp T} {ss : List (List Nat × List Nat)} (hp : Proper h mlp.params) (hl : LayerShapes h mlp ss) :
    SoundLayers h mlp.layers ss := by
  unfold LayerShapes at hl
  unfold Mlp.params at hp
  generalize mlp.layers = ls at hl hp
  induction hl with
  | nil => exact .nil
  | @cons l s ls ss h1 _ ih =>
    refine .cons ⟨hp.sound ?_ h1.1, hp.sound ?_ h1.2⟩ (ih fun t ht => hp t ?_)
    · simp [Linear.params]
    · simp [Linear.params]
    · simp only [List.flatMap_cons, List.mem_append]
      exact .inr ht

/-- C101. A forward pass succeeds with an output of shape `o` if and only if the shapes of the input and of the layers fit together to `o`; for
tensors of any history. -/
theorem C101_forward (mlp : Mlp T) (x : Nat) (h : Heap T) (hu : ∀ l ∈ mlp.layers, Usual l.activation) (hp : Proper h (x :: mlp.params))
    (s o : List Nat) (ss : List (List Nat × List Nat)) (hx : HasShape h x s) (hl : LayerShapes h mlp ss) :
    (∃ h' z, mlp.forward h x = .ok (h', z) ∧ HasShape h' z o) ↔ Accepts s ss o :=
  (forward_yields hu (hp.sound (by simp) hx) (soundLayers (fun t ht => hp t (by simp [ht])) hl)).iff o

/-- C101: the loss of main.rs is computed if and only if the input is accepted and the target can be broadcast against the output; it is a scalar. -/
theorem C101_loss (mlp : Mlp T) (x y : Nat) (h : Heap T) (hu : ∀ l ∈ mlp.layers, Usual l.activation) (hp : Proper h (x :: y :: mlp.params))
    (s sy : List Nat) (ss : List (List Nat × List Nat)) (hx : HasShape h x s) (hy : HasShape h y sy) (hl : LayerShapes h mlp ss) :
    ((∃ r, trainLoss mlp h x y = .ok r) ↔ ∃ o, Accepts s ss o ∧ Compatible o sy) ∧
    ∀ h' z, trainLoss mlp h x y = .ok (h', z) → HasShape h' z [] := by
  have hy := trainLoss_yields hu (hp.sound (by simp) hx) (hp.sound (by simp) hy) (soundLayers (fun t ht => hp t (by simp [ht])) hl)
  refine ⟨hy.iff_ok.trans ⟨fun ⟨p, h1, _⟩ => h1, fun h1 => ⟨[], h1, rfl⟩⟩, fun h' z e => ?_⟩
  obtain ⟨-, p, ⟨-, rfl⟩, v, h1, -, -, h2⟩ := hy.sound _ _ e
  exact ⟨v, h1, h2⟩

/-- C101: a training step fails after its loss has been computed if and only if the shapes are accepted and cannot be trained. -/
theorem C101_gap (mlp : Mlp T) (x y : Nat) (lr : T) (h : Heap T) (hr : Reachable h) (hu : ∀ l ∈ mlp.layers, Usual l.activation)
    (hf : Fresh h (x :: y :: mlp.params)) (hp : Proper h (x :: y :: mlp.params)) (s sy : List Nat) (ss : List (List Nat × List Nat))
    (hx : HasShape h x s) (hy : HasShape h y sy) (hl : LayerShapes h mlp ss) :
    ((∃ r, trainLoss mlp h x y = .ok r) ∧ ¬ ∃ r, trainStep mlp h x y lr = .ok r) ↔
      (∃ o, Accepts s ss o ∧ Compatible o sy) ∧ ¬ Trainable s ss sy := by
  rw [(C101_loss mlp x y h hu hp s sy ss hx hy hl).1, C99_exact mlp x y lr h hr hu hf hp s sy ss hx hy hl]

/-- C101: on a matrix, with biases of rank at most 2, a training step succeeds if and only if its loss can be computed. -/
theorem C101_step (mlp : Mlp T) (x y : Nat) (lr : T) (h : Heap T) (hr : Reachable h) (hu : ∀ l ∈ mlp.layers, Usual l.activation)
    (hf : Fresh h (x :: y :: mlp.params)) (hp : Proper h (x :: y :: mlp.params)) (s sy : List Nat) (ss : List (List Nat × List Nat))
    (hx : HasShape h x s) (hy : HasShape h y sy) (hl : LayerShapes h mlp ss) (hs : s.length = 2) (hb : ∀ l ∈ ss, l.2.length ≤ 2) :
    (∃ r, trainStep mlp h x y lr = .ok r) ↔ ∃ r, trainLoss mlp h x y = .ok r := by
  rw [(C101_loss mlp x y h hu hp s sy ss hx hy hl).1, C99_exact mlp x y lr h hr hu hf hp s sy ss hx hy hl, C101_matrix s sy ss hs hb]

section Tests

attribute [local instance] Test.intFn

/-- TEST of the hypotheses of `C101_forward`, `C101_loss` and `C101_step`: those of `C99_exact`, with biases of rank 2. -/
example : (∃ r, trainStep Test.C97_net Test.C97_heap 0 1 1 = .ok r) ↔ ∃ r, trainLoss Test.C97_net Test.C97_heap 0 1 = .ok r :=
  C101_step Test.C97_net 0 1 1 Test.C97_heap Test.C97_reachable Test.C97_usual Test.C97_fresh Test.C98_proper [2, 2] [2, 1]
    [([2, 2], [1, 2]), ([2, 1], [1, 1])] ⟨_, rfl, rfl⟩ ⟨_, rfl, rfl⟩
    (.cons ⟨⟨_, rfl, rfl⟩, ⟨_, rfl, rfl⟩⟩ (.cons ⟨⟨_, rfl, rfl⟩, ⟨_, rfl, rfl⟩⟩ .nil)) rfl (by simp)

example : ∃ h' z, Test.C97_net.forward Test.C97_heap 0 = .ok (h', z) ∧ HasShape h' z [2, 1] :=
  (C101_forward Test.C97_net 0 Test.C97_heap Test.C97_usual (fun t ht => Test.C98_proper t (by simp at ht ⊢; tauto)) [2, 2] [2, 1]
    [([2, 2], [1, 2]), ([2, 1], [1, 1])] ⟨_, rfl, rfl⟩
    (.cons ⟨⟨_, rfl, rfl⟩, ⟨_, rfl, rfl⟩⟩ (.cons ⟨⟨_, rfl, rfl⟩, ⟨_, rfl, rfl⟩⟩ .nil))).2
    (C101_dense 1 2 2 1 _ (.cons (.inr rfl) (.cons (.inr rfl) (.nil 1)))).1

/-- TEST: a batch of shape `[2, 1, 1]` is accepted and cannot be trained. -/
example : Accepts [2, 1, 1] [([1, 1], [1])] [2, 1, 1] ∧ ¬ Trainable [2, 1, 1] [([1, 1], [1])] [2, 1, 1] := by
  refine ⟨.cons (.batch 2 1 1 1) (by simp [Compatible, padLeft]) (.nil _), fun ht => ?_⟩
  cases ht with
  | ones _ h1 => exact absurd (h1 2 (by simp)) (by decide)

/-- TEST: of an input of shape `[1, 1, 2, 1]` the second row is lost. -/
example : Accepts [1, 1, 2, 1] [([1, 3], [3])] [1, 1, 3] := .cons (.row 0 2 1 3) (by simp [Compatible, padLeft]) (.nil _)

end Tests

end RL
