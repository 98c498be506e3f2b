import Verif.Lemmas.Cost
import Verif.Lemmas.TestInt

/-!
# Properties: the work of a training step (C60)
-/

namespace RL

open Spec

variable {T : Type} [Zero T] [One T] [Add T] [Mul T] [Sub T] [Neg T] [LT T] [DecidableLT T] [LE T] [DecidableLE T] [RealFn T]

/-! ## the work of a training step does not depend on the number of steps before (C60, false) -/

/-- C60: the number of gradient updates of `backward` is the number of paths from the loss; the heap grows by at least as many tensors. -/
theorem C60_updates (h h' : Heap T) (l w : Nat) (hr : Reachable h) (hw : Ways h l w) (e : backward h l = .ok h') :
    ∃ us : List (Nat × Raw T), performUpdates h us = .ok h' ∧ us.length = w ∧ h.length + w ≤ h'.length := by
  obtain ⟨us, ps, h1, h2, h3, h4, h5⟩ := C43_paths h h' l hr e
  have h6 : us.length = ps.length := by simpa using congrArg List.length h2
  have h7 : ps.length = w := Spec.Ways.unique (h := h) (l := l) ⟨ps, h3, h4, rfl⟩ hw
  exact ⟨us, h1, h6.trans h7, by omega⟩

/-- C60: the number is determined, for every tensor. -/
theorem C60_determined (h : Heap T) (hr : Reachable h) (l : Nat) (hl : l < h.length) : ∃! w, Ways h l w := by
  obtain ⟨w, hw⟩ := ways_exists hr.good hl
  exact ⟨w, hw, fun w' hw' => hw'.unique hw⟩

/-- C60: identity, `relu` and `tanh` are activations as required below. -/
theorem C60_activations : Extends (Activation.identity (T := T)) 0 ∧ Extends (reluT (T := T)) 1 ∧ Extends (tanhT (T := T)) 1 :=
  ⟨extends_identity, extends_relu, extends_tanh⟩

/-- C60 as stated: `backward` on the loss of the training loop does the same number of updates in every step. -/
def C60_statement (T : Type) [Zero T] [One T] [Add T] [Mul T] [Sub T] [Neg T] [LT T] [DecidableLT T] [LE T] [DecidableLE T] [RealFn T] :
    Prop :=
  ∀ (h h' h1 h2 : Heap T) (mlp mlp' : Mlp T) (x y n l1 l2 w1 w2 : Nat) (lr : T), Reachable h →
    (∀ l ∈ mlp.layers, ∃ c, Extends l.activation c) → (∀ p ∈ mlp.params, p < h.length) → x < h.length → y < h.length →
    train mlp h x y lr n = .ok (h', mlp') → trainLoss mlp h x y = .ok (h1, l1) → trainLoss mlp' h' x y = .ok (h2, l2) →
    Ways h1 l1 w1 → Ways h2 l2 w2 → w2 = w1

/-- C60, what happens instead: with every step the work grows by three updates for every parameter. -/
theorem C60_actual (h h' h1 h2 : Heap T) (mlp mlp' : Mlp T) (x y n l1 l2 w1 w2 : Nat) (lr : T) (hr : Reachable h)
    (hc : ∀ l ∈ mlp.layers, ∃ c, Extends l.activation c) (hp : ∀ p ∈ mlp.params, p < h.length) (hx : x < h.length) (hy : y < h.length)
    (e : train mlp h x y lr n = .ok (h', mlp')) (e1 : trainLoss mlp h x y = .ok (h1, l1)) (e2 : trainLoss mlp' h' x y = .ok (h2, l2))
    (hw1 : Ways h1 l1 w1) (hw2 : Ways h2 l2 w2) : w2 = w1 + 3 * n * mlp.params.length := by
  obtain ⟨k, ops, ht, eo⟩ := train_trains (m := 0) (ops := []) hr hc hp hx hy .start rfl e
  rw [Nat.zero_add] at ht
  exact trains_loss hr hc hp hx hy ht eo e1 e2 hw1 hw2

/-- C60: the same however the gradients are computed between the steps, and whatever else is done there. -/
theorem C60_between (h k h' h1 h2 : Heap T) (mlp mlp' : Mlp T) (x y n l1 l2 w1 w2 : Nat) (ops : List (Op T)) (hr : Reachable h)
    (hc : ∀ l ∈ mlp.layers, ∃ c, Extends l.activation c) (hp : ∀ p ∈ mlp.params, p < h.length) (hx : x < h.length) (hy : y < h.length)
    (ht : Trains n h mlp k mlp') (eo : runOps k ops = .ok h') (e1 : trainLoss mlp h x y = .ok (h1, l1))
    (e2 : trainLoss mlp' h' x y = .ok (h2, l2)) (hw1 : Ways h1 l1 w1) (hw2 : Ways h2 l2 w2) : w2 = w1 + 3 * n * mlp.params.length :=
  trains_loss hr hc hp hx hy ht eo e1 e2 hw1 hw2

/-- C60 holds as long as the parameters have no history, as at the start: networks with the same activations then need the same work
(for input and expected output without history, too). -/
theorem C60_partial (h h' h1 h2 : Heap T) (mlp mlp' : Mlp T) (x y x' y' l1 l2 w1 w2 : Nat) (hr : Reachable h) (hr' : Reachable h')
    (hc : ∀ l ∈ mlp.layers, ∃ c, Extends l.activation c) (ha : mlp'.layers.map (·.activation) = mlp.layers.map (·.activation))
    (hp : ∀ p ∈ x :: y :: mlp.params, historyOf h p = some none) (hp' : ∀ p ∈ x' :: y' :: mlp'.params, historyOf h' p = some none)
    (e1 : trainLoss mlp h x y = .ok (h1, l1)) (e2 : trainLoss mlp' h' x' y' = .ok (h2, l2)) (hw1 : Ways h1 l1 w1) (hw2 : Ways h2 l2 w2) :
    w2 = w1 := by
  have leaf : ∀ {h : Heap T} {p : Nat}, historyOf h p = some none → p < h.length ∧ Ways h p 0 := by
    intro h p hh
    simp only [historyOf, Option.map_eq_some_iff] at hh
    obtain ⟨n, hn, hd⟩ := hh
    exact ⟨getElem?_lt hn, ways_leaf hn hd⟩
  have a1 := (trainLoss_ways (W := fun _ => 0) hr (fun l hl => actCost_spec (hc l hl)) (fun p hm => leaf (hp p (by simp [hm])))
    (leaf (hp x (by simp))).1 (leaf (hp y (by simp))).1 (leaf (hp x (by simp))).2 (leaf (hp y (by simp))).2 e1).2.1
  have a2 := (trainLoss_ways (W := fun _ => 0) hr' (fun l hl => actCost_spec (acts_of_map (P := fun f => ∃ c, Extends f c) ha hc l hl))
    (fun p hm => leaf (hp' p (by simp [hm]))) (leaf (hp' x' (by simp))).1 (leaf (hp' y' (by simp))).1 (leaf (hp' x' (by simp))).2
    (leaf (hp' y' (by simp))).2 e2).2.1
  have hs : ∀ ms : List (Linear T), (ms.map fun l => 4 + actCost l.activation) = (ms.map (·.activation)).map fun f => 4 + actCost f := by
    intro ms; simp
  have b1 := hw1.unique a1
  have b2 := hw2.unique a2
  rw [hs] at b1 b2
  rw [ha] at b2
  simp only [List.map_const', List.sum_replicate_nat, Nat.mul_zero] at b1 b2
  omega

/-- C60: the recursion of `backward` gets deeper with every step: after `n` steps there is a path of more than `n` steps. -/
theorem C60_depth (h h' h2 : Heap T) (mlp mlp' : Mlp T) (x y n l2 : Nat) (lr : T) (hr : Reachable h)
    (hc : ∀ l ∈ mlp.layers, ∃ c, Extends l.activation c) (hp : ∀ p ∈ mlp.params, p < h.length) (hx : x < h.length) (hy : y < h.length)
    (hne : mlp.layers ≠ []) (e : train mlp h x y lr n = .ok (h', mlp')) (e2 : trainLoss mlp' h' x y = .ok (h2, l2)) :
    ∃ t p, Path h2 l2 t p ∧ n < p.length := by
  obtain ⟨k, ops, ht, eo⟩ := train_trains (m := 0) (ops := []) hr hc hp hx hy .start rfl e
  rw [Nat.zero_add] at ht
  obtain ⟨rh, hf, hp', ha, -⟩ := trains_later hr hp ht eo
  obtain ⟨-, -, hpath⟩ := trainLoss_ways rh (fun l hl => actCost_spec (acts_of_map (P := fun f => ∃ c, Extends f c) ha hc l hl))
    (fun p hm => ⟨hp' p hm, wayCount_spec rh (hp' p hm)⟩) (hx.trans_le hf.len) (hy.trans_le hf.len)
    (wayCount_spec rh (hx.trans_le hf.len)) (wayCount_spec rh (hy.trans_le hf.len)) e2
  have f1 := (runOps_frame (ht.reachable hr).1.good eo).1
  obtain ⟨o2, r2⟩ := (trainLoss_ways rh (fun l hl => actCost_spec (acts_of_map (P := fun f => ∃ c, Extends f c) ha hc l hl))
    (fun p hm => ⟨hp' p hm, wayCount_spec rh (hp' p hm)⟩) (hx.trans_le hf.len) (hy.trans_le hf.len)
    (wayCount_spec rh (hx.trans_le hf.len)) (wayCount_spec rh (hy.trans_le hf.len)) e2).1
  have f2 := (runOps_frame rh.good r2).1
  have hne' : mlp'.layers ≠ [] := by
    intro h0
    rw [h0] at ha
    exact hne (List.map_eq_nil_iff.1 ha.symm)
  obtain ⟨p, hpp⟩ := hpath _ (List.getLast?_eq_some_getLast hne')
  have hlen : 0 < p.length := List.length_pos_of_ne_nil (path_ne_nil hpp)
  have hmem : (mlp'.layers.getLast hne').bias ∈ mlp'.params :=
    List.mem_flatMap.2 ⟨_, List.getLast_mem hne', by simp [Linear.params]⟩
  obtain ⟨i, hi, hq⟩ := List.mem_iff_getElem.1 hmem
  have hch := C48_chain n h k mlp mlp' hr ht
  have := hch.get (by rw [hch.length_eq]; exact hi) hi
  simp only [List.get_eq_getElem, hq] at this
  rcases this with ⟨rfl, -⟩ | ⟨-, hc⟩
  · exact ⟨_, p, hpp, hlen⟩
  · exact ⟨_, _, hpp.append ((hc.frame f1).frame f2), by simp; omega⟩

attribute [local instance] Test.intFn

/-- C60, test: `x = [[1, 2]]`, `y = [[10]]`, weights `[[1], [1]]`, bias `[1]`, one layer with `relu`. -/
def c60Heap : Heap Int :=
  [leafNode ⟨[1, 2], [1, 2]⟩, leafNode ⟨[10], [1, 1]⟩, leafNode ⟨[1, 1], [2, 1]⟩, leafNode ⟨[1], [1]⟩]

def c60Net : Mlp Int := ⟨[⟨2, 3, reluT⟩]⟩


theorem c60_reachable : Reachable c60Heap := ⟨[.new [1, 2] [1, 2], .new [10] [1, 1], .new [1, 1] [2, 1], .new [1] [1]], by decide +kernel⟩

theorem c60_acts : ∀ l ∈ c60Net.layers, Extends l.activation 1 := by
  intro l hl
  simp only [c60Net, List.mem_singleton] at hl
  subst hl
  exact extends_relu

/-- the losses of the first steps -/
def c60Run (n : Nat) : R (Heap Int × Nat) := do
  let (h, mlp) ← train c60Net c60Heap 0 1 1 n
  trainLoss mlp h 0 1

theorem c60_run (n : Nat) (hn : n < 4) : ∃ h' mlp' h1 l, train c60Net c60Heap 0 1 1 n = .ok (h', mlp') ∧ trainLoss mlp' h' 0 1 = .ok (h1, l) := by
  have key : ∀ n < 4, (match c60Run n with | .ok _ => true | .error _ => false) = true := by decide +kernel
  have := key n hn
  cases e : c60Run n with
  | error f => simp [e] at this
  | ok r =>
    obtain ⟨h1, l⟩ := r
    simp only [c60Run, R.bind_eq_ok, Prod.exists] at e
    obtain ⟨h', mlp', e1, e2⟩ := e
    exact ⟨h', mlp', h1, l, e1, e2⟩

theorem c60_first {h1 : Heap Int} {l : Nat} (e : trainLoss c60Net c60Heap 0 1 = .ok (h1, l)) : Ways h1 l 10 := by
  have leaf : ∀ p < 4, Ways c60Heap p 0 := by
    intro p hp
    match p, hp with
    | 0, _ => exact ways_leaf rfl rfl
    | 1, _ => exact ways_leaf rfl rfl
    | 2, _ => exact ways_leaf rfl rfl
    | 3, _ => exact ways_leaf rfl rfl
  exact (trainLoss_ways (cost := fun _ => 1) (W := fun _ => 0) c60_reachable c60_acts
    (fun p hp => ⟨(by decide : ∀ p ∈ c60Net.params, p < c60Heap.length) p hp,
      leaf p ((by decide : ∀ p ∈ c60Net.params, p < 4) p hp)⟩) (by decide) (by decide) (leaf 0 (by decide)) (leaf 1 (by decide)) e).2.1

/-- C60, test: ten updates in the first step, 16, 22, 28 in the next ones. -/
theorem c60_test (n : Nat) (hn : n < 4) : ∃ h' mlp' h1 l, train c60Net c60Heap 0 1 1 n = .ok (h', mlp') ∧
    trainLoss mlp' h' 0 1 = .ok (h1, l) ∧ Ways h1 l (10 + 6 * n) := by
  obtain ⟨h', mlp', h1, l, e, e2⟩ := c60_run n hn
  obtain ⟨h0, mlp0, h2, l2, e0, e1⟩ := c60_run 0 (by decide)
  cases e0
  have hp : ∀ p ∈ c60Net.params, p < c60Heap.length := by decide
  have hc : ∀ l ∈ c60Net.layers, ∃ c, Extends l.activation c := fun l hl => ⟨1, c60_acts l hl⟩
  obtain ⟨k, ops, ht, eo⟩ := train_trains (m := 0) (ops := []) c60_reachable hc hp (by decide) (by decide) .start rfl e
  obtain ⟨rh, hf, hp', ha, -⟩ := trains_later c60_reachable hp ht eo
  have hw := (trainLoss_ways rh (fun l hl => actCost_spec (acts_of_map (P := fun f => ∃ c, Extends f c) ha hc l hl))
    (fun p hm => ⟨hp' p hm, wayCount_spec rh (hp' p hm)⟩) (Nat.lt_of_lt_of_le (by decide) hf.len) (Nat.lt_of_lt_of_le (by decide) hf.len)
    (wayCount_spec rh (Nat.lt_of_lt_of_le (by decide) hf.len)) (wayCount_spec rh (Nat.lt_of_lt_of_le (by decide) hf.len)) e2).2.1
  have := C60_actual c60Heap h' h2 h1 c60Net mlp' 0 1 n l2 l 10 _ 1 c60_reachable hc hp (by decide) (by decide) e e1 e2 (c60_first e1) hw
  refine ⟨h', mlp', h1, l, e, e2, ?_⟩
  rw [this] at hw
  have hl : c60Net.params.length = 2 := rfl
  rw [hl, show 3 * n * 2 = 6 * n by omega] at hw
  exact hw

/-- C60 does not hold. -/
theorem C60_false : ¬ C60_statement Int := by
  intro hS
  obtain ⟨h', mlp', h2, l2, e, e2, w2⟩ := c60_test 1 (by decide)
  obtain ⟨h0, mlp0, h1, l1, e0, e1, w1⟩ := c60_test 0 (by decide)
  cases e0
  have := hS c60Heap h' h1 h2 c60Net mlp' 0 1 1 l1 l2 _ _ 1 c60_reachable (fun l hl => ⟨1, c60_acts l hl⟩) (by decide) (by decide) (by decide)
    e e1 e2 w1 w2
  omega

end RL
