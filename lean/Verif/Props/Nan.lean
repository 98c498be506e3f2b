import Verif.Lemmas.Nan
import Verif.Lemmas.TestNan

/-!
# A NaN in the input shows in the result (C79)
-/

namespace RL

open Spec

variable {T : Type} [Zero T] [One T] [Add T] [Mul T] [Sub T] [Neg T] [LT T] [DecidableLT T] [LE T] [DecidableLE T] [RealFn T]

/-- C79 as stated: what is computed from a tensor with a NaN has a NaN, whatever the operations (provided no tensor is empty). -/
def C79_statement (T : Type) [Zero T] [One T] [Add T] [Mul T] [Sub T] [Neg T] [LT T] [DecidableLT T] [LE T] [DecidableLE T] [RealFn T] :
    Prop :=
  ∀ (Bad : T → Prop) (h : Heap T) (a l : Nat) (v w : Raw T), Absorbing Bad → Reachable h →
    (∀ i u, Feeds h i l → dataOf h i = some u → WF u ∧ Pos u.shape) → Ancestor h a l → dataOf h a = some v → dataOf h l = some w →
    Poisoned Bad v → Poisoned Bad w

/-- C79 for tensors of up to three dimensions. -/
theorem C79_partial (Bad : T → Prop) (h : Heap T) (a l : Nat) (v w : Raw T) (hB : Absorbing Bad) (hr : Reachable h)
    (hp : ∀ i u, Feeds h i l → historyOf h i = some none → dataOf h i = some u → Plain u) (ha : Ancestor h a l) (hv : dataOf h a = some v)
    (hw : dataOf h l = some w) (hb : Poisoned Bad v) : Poisoned Bad w :=
  ancestor_bad hB hr.good (plain_feeds hr.good hp) (Or.inr ha) hv hw hb

/-- C79, training: a NaN in a parameter stays there through any number of steps. -/
theorem C79_params_partial (n : Nat) (Bad : T → Prop) (mlp mlp' : Mlp T) (h h' : Heap T) (x y : Nat) (lr : T) (hB : Absorbing Bad)
    (hr : Reachable h) (hp : AllPlain h) (hc : ∀ l ∈ mlp.layers, l.activation = Activation.identity ∨ l.activation = reluT ∨ l.activation = tanhT)
    (hl : ∀ p ∈ x :: y :: mlp.params, p < h.length) (e : train mlp h x y lr n = .ok (h', mlp')) (t p : Nat) (v : Raw T)
    (ht : mlp.params[t]? = some p) (hv : dataOf h p = some v) (hb : Poisoned Bad v) :
    ∃ q w, mlp'.params[t]? = some q ∧ dataOf h' q = some w ∧ Poisoned Bad w := by
  obtain ⟨_, _, _, _, hf⟩ := train_infects hB n hr hc (fun p hm => hl p (by simp [hm])) (hl x (by simp)) (hl y (by simp)) hp e
  obtain ⟨q, hq, hi⟩ := forall₂_getElem? hf ht
  obtain ⟨w, hw, hb⟩ := hi ⟨v, hv, hb⟩
  exact ⟨q, w, hq, hw, hb⟩

/-- C79, training: after a NaN in a parameter, in the input or in the expected output, the loss is a NaN in this and in every later step. -/
theorem C79_loss_partial (n : Nat) (Bad : T → Prop) (mlp mlp' : Mlp T) (h h' h2 : Heap T) (x y l s : Nat) (lr : T) (v : Raw T)
    (hB : Absorbing Bad) (hr : Reachable h) (hp : AllPlain h)
    (hc : ∀ l ∈ mlp.layers, l.activation = Activation.identity ∨ l.activation = reluT ∨ l.activation = tanhT)
    (hl : ∀ p ∈ x :: y :: mlp.params, p < h.length) (e : train mlp h x y lr n = .ok (h', mlp')) (e2 : trainLoss mlp' h' x y = .ok (h2, l))
    (hs : s ∈ x :: y :: mlp.params) (hv : dataOf h s = some v) (hb : Poisoned Bad v) : ∃ z, dataOf h2 l = some ⟨[z], []⟩ ∧ Bad z := by
  obtain ⟨_, hfr, hp', hc', hf⟩ := train_infects hB n hr hc (fun p hm => hl p (by simp [hm])) (hl x (by simp)) (hl y (by simp)) hp e
  obtain ⟨⟨_, hi⟩, z, hz⟩ := trainLoss_infects hB hc' e2
  have hbad : ∃ s' ∈ x :: y :: mlp'.params, BadAt Bad h' s' := by
    have h0 : BadAt Bad h s := ⟨v, hv, hb⟩
    simp only [List.mem_cons] at hs
    rcases hs with rfl | rfl | hs
    · exact ⟨s, by simp, h0.frame hfr⟩
    · exact ⟨s, by simp, h0.frame hfr⟩
    · obtain ⟨t, ht⟩ := List.mem_iff_getElem?.1 hs
      obtain ⟨q, hq, hi⟩ := forall₂_getElem? hf ht
      exact ⟨q, by simp [List.mem_of_getElem? hq], hi h0⟩
  obtain ⟨s', hs', hb'⟩ := hbad
  obtain ⟨w, hw, u, hu, hub⟩ := (hi hp').2 s' hs' hb'
  rw [hz] at hw
  cases hw
  rw [List.mem_singleton] at hu
  exact ⟨z, hz, hu ▸ hub⟩

section
open Test NanInt

/-- C79 does not hold: the matrix product of a tensor of shape `[1, 1, 2, 1]` uses its first row only. -/
theorem C79_false : ¬ C79_statement NanInt := by
  intro hS
  obtain ⟨h, e, hh⟩ : ∃ h : Heap NanInt, runOps [] [.new [num 5, nan] [1, 1, 2, 1], .new [num 1] [1, 1], .bmm 0 1] = .ok h ∧
      h = [leafNode ⟨[num 5, nan], [1, 1, 2, 1]⟩, leafNode ⟨[num 1], [1, 1]⟩, ⟨⟨[num 5], [1, 1, 1]⟩, none, some ⟨[0, 1], .bmm⟩⟩] :=
    ⟨_, rfl, rfl⟩
  have hP : Poisoned isNan ⟨[num 5], [1, 1, 1]⟩ := by
    refine hS isNan h 0 2 ⟨[num 5, nan], [1, 1, 2, 1]⟩ _ absorbing ⟨_, e⟩ ?_ ?_ (by rw [hh]; rfl) (by rw [hh]; rfl) ⟨nan, by simp, rfl⟩
    · intro i u _ hu
      rw [hh] at hu
      match i with
      | 0 => cases hu; exact ⟨rfl, by simp [Pos, leafNode]⟩
      | 1 => cases hu; exact ⟨rfl, by simp [Pos, leafNode]⟩
      | 2 => cases hu; exact ⟨rfl, by simp [Pos]⟩
      | i + 3 => simp [dataOf] at hu
    · exact .single ⟨_, _, by rw [hh]; rfl, rfl, by simp⟩
  obtain ⟨x, hx, hn⟩ := hP
  rw [List.mem_singleton] at hx
  rw [hx] at hn
  cases hn

/-- A layer without activation, input `[[1]]`, expected output `[[0]]`. -/
def C79_ops (w b : NanInt) : List (Op NanInt) := [.new [num 1] [1, 1], .new [num 0] [1, 1], .new [w] [1, 1], .new [b] [1]]

def C79_net : Mlp NanInt := ⟨[Linear.new 2 3 none]⟩

/-- The tensors before training with a NaN as weight. -/
def C79_start : Heap NanInt :=
  [leafNode ⟨[num 1], [1, 1]⟩, leafNode ⟨[num 0], [1, 1]⟩, leafNode ⟨[nan], [1, 1]⟩, leafNode ⟨[num 0], [1]⟩]

/-- C79, the converse for gradients does not hold: the loss is a NaN, but `backward` sets the gradient of the bias to `-1`, so that training
goes on as if the output was too small. -/
theorem C79_gradients : Reachable C79_start ∧ (do
    let (h1, l) ← trainLoss C79_net C79_start 0 1
    let h2 ← backward h1 l
    return (dataOf h1 l, gradOf h2 3, gradOf h2 2)) =
      (.ok (some ⟨[nan], []⟩, some ⟨[num (-1)], [1]⟩, some ⟨[num (-1)], [1, 1]⟩) : R (Option (Raw NanInt) × _ × _)) :=
  ⟨⟨C79_ops nan (num 0), rfl⟩, by decide +kernel⟩

/-- C79, test: the hypotheses of the theorems about training hold for this network with a NaN in the weights. -/
example : Reachable C79_start ∧ AllPlain C79_start ∧
    (∀ l ∈ C79_net.layers, l.activation = Activation.identity ∨ l.activation = reluT ∨ l.activation = tanhT) ∧
    (∀ p ∈ 0 :: 1 :: C79_net.params, p < C79_start.length) ∧ dataOf C79_start 2 = some ⟨[nan], [1, 1]⟩ ∧
    Poisoned isNan ⟨[nan], [1, 1]⟩ := by
  refine ⟨⟨C79_ops nan (num 0), rfl⟩, ?_, ?_, by decide, rfl, ⟨nan, by simp, rfl⟩⟩
  · intro i v hv
    match i with
    | 0 => cases hv; exact ⟨rfl, by simp [Pos, leafNode], by simp [leafNode]⟩
    | 1 => cases hv; exact ⟨rfl, by simp [Pos, leafNode], by simp [leafNode]⟩
    | 2 => cases hv; exact ⟨rfl, by simp [Pos, leafNode], by simp [leafNode]⟩
    | 3 => cases hv; exact ⟨rfl, by simp [Pos, leafNode], by simp [leafNode]⟩
    | i + 4 => simp [dataOf, C79_start] at hv
  · intro l hl
    simp only [C79_net, List.mem_singleton] at hl
    subst hl
    exact Or.inl rfl

/-- C79, test: two steps from there: the bias has grown to 2, weight and loss are still NaN. -/
example : (do
    let (h, mlp) ← train C79_net C79_start 0 1 (num 1) 2
    let (h2, l) ← trainLoss mlp h 0 1
    return (mlp.params.map (dataOf h), dataOf h2 l)) =
      (.ok ([some ⟨[nan], [1, 1]⟩, some ⟨[num 2], [1]⟩], some ⟨[nan], []⟩) : R (List (Option (Raw NanInt)) × Option (Raw NanInt))) := by
  decide +kernel

end

end RL
