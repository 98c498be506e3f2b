import Verif.Props.Nn
import Verif.Model.Train
import Verif.Lemmas.TestInt

/-!
# Properties: layers that share parameters (C61)
-/

namespace RL

open Spec

variable {T : Type}

/-! ## parameters that are shared stay shared (C61, false) -/

section
variable [Zero T] [One T] [Add T] [Mul T] [Sub T] [Neg T] [LT T] [DecidableLT T] [LE T] [DecidableLE T] [RealFn T]

/-- C61 as stated: if two places of a network hold the same tensor, they do so after a step. -/
def C61_statement (T : Type) [Zero T] [One T] [Add T] [Mul T] [Sub T] [Neg T] [LT T] [DecidableLT T] [LE T] [DecidableLE T] [RealFn T] :
    Prop :=
  ∀ (h h' : Heap T) (mlp mlp' : Mlp T) (s i j p : Nat), Reachable h → mlp.sgdStep h s = .ok (h', mlp') →
    mlp.params[i]? = some p → mlp.params[j]? = some p → mlp'.params[i]? = mlp'.params[j]?

theorem sgdParams_nodup {s : Nat} : ∀ {ps : List Nat} {h h' : Heap T} {qs : List Nat}, sgdParams h s ps = .ok (h', qs) →
    qs.Nodup := by
  intro ps
  induction ps with
  | nil =>
    intro h h' qs e
    cases e
    exact List.nodup_nil
  | cons p ps ih =>
    intro h h' qs e
    rw [sgdParams_cons, R.bind_eq_ok] at e
    obtain ⟨⟨h1, q⟩, e1, e⟩ := e
    simp only [R.bind_eq_ok] at e
    obtain ⟨⟨h2, qs'⟩, e2, e3⟩ := e
    rw [R.pure_eq_ok] at e3
    cases e3
    obtain ⟨pn, gn, sn, g, delta, neg, val, -, -, -, -, -, -, -, rfl, rfl⟩ := sgdParam_inv e1
    refine List.nodup_cons.2 ⟨fun hm => ?_, ih e2⟩
    obtain ⟨i, hi, hq⟩ := List.mem_iff_getElem.1 hm
    have h3 := (sgdParams_inv e2).2
    have := (h3.get (by rw [h3.length_eq]; exact hi) hi).1
    simp only [List.get_eq_getElem, hq, List.length_append, List.length_cons, List.length_nil] at this
    omega

/-- C61, what happens instead: after a step all places hold different tensors. -/
theorem C61_distinct (h h' : Heap T) (mlp mlp' : Mlp T) (s : Nat) (e : mlp.sgdStep h s = .ok (h', mlp')) : mlp'.params.Nodup :=
  sgdParams_nodup (sgdStep_inv e)

/-- the new value of a parameter is a function of the heap before all steps -/
theorem sgdParams_values {s : Nat} (h0 : Heap T) : ∀ {ps : List Nat} {h h' : Heap T} {qs : List Nat}, (∃ ns, h = h0 ++ ns) →
    (∀ p ∈ ps, p < h0.length) → (∀ p ∈ ps, ∀ n g, h0[p]? = some n → n.grad = some g → g < h0.length) → s < h0.length →
    sgdParams h s ps = .ok (h', qs) →
    List.Forall₂ (fun p q => ∃ pn gn sn g delta neg val, h0[p]? = some pn ∧ pn.grad = some g ∧ h0[g]? = some gn ∧ h0[s]? = some sn ∧
      mulRaw sn.val (.raw gn.val) = .ok delta ∧ negRaw (.raw delta) = .ok neg ∧ addRaw (.raw pn.val) (.raw neg) = .ok val ∧
      dataOf h' q = some val) ps qs := by
  intro ps
  induction ps with
  | nil =>
    intro h h' qs _ _ _ _ e
    cases e
    exact .nil
  | cons p ps ih =>
    rintro h h' qs ⟨ns, rfl⟩ hp hg hs e
    rw [sgdParams_cons, R.bind_eq_ok] at e
    obtain ⟨⟨h1, q⟩, e1, e⟩ := e
    simp only [R.bind_eq_ok] at e
    obtain ⟨⟨h2, qs'⟩, e2, e3⟩ := e
    rw [R.pure_eq_ok] at e3
    cases e3
    obtain ⟨pn, gn, sn, g, delta, neg, val, a1, a2, a3, a4, a5, a6, a7, rfl, rfl⟩ := sgdParam_inv e1
    rw [List.getElem?_append_left (hp p (by simp))] at a1
    rw [List.getElem?_append_left (hg p (by simp) pn g a1 a2)] at a3
    rw [List.getElem?_append_left hs] at a4
    have a8 := ih ⟨_, List.append_assoc _ _ _⟩ (fun p hm => hp p (by simp [hm])) (fun p hm => hg p (by simp [hm])) hs e2
    obtain ⟨⟨ms, rfl⟩, -⟩ := sgdParams_inv e2
    refine .cons ⟨pn, gn, sn, g, delta, neg, val, a1, a2, a3, a4, a5, a6, a7, ?_⟩ a8
    have key : ∀ (H ms : Heap T) (a b c : Node T), (H ++ [a, b, c] ++ ms)[H.length + 2]? = some c := by
      intro H ms a b c
      rw [List.getElem?_append_left (by simp)]
      simp
    rw [dataOf, key]
    rfl

/-- C61, the part that holds: after one step they hold the same data. -/
theorem C61_partial (h h' : Heap T) (mlp mlp' : Mlp T) (s i j p a b : Nat) (hr : Reachable h) (hs : s < h.length)
    (hpl : ∀ p ∈ mlp.params, p < h.length) (e : mlp.sgdStep h s = .ok (h', mlp')) (hi : mlp.params[i]? = some p) (hj : mlp.params[j]? = some p)
    (ha : mlp'.params[i]? = some a) (hb : mlp'.params[j]? = some b) : dataOf h' a = dataOf h' b ∧ dataOf h' a ≠ none := by
  have := sgdParams_values h ⟨[], by simp⟩ hpl (fun p _ n g hn hg => (hr.good p n hn).grad g hg) hs (sgdStep_inv e)
  obtain ⟨i1, hi⟩ := List.getElem?_eq_some_iff.1 hi
  obtain ⟨j1, hj⟩ := List.getElem?_eq_some_iff.1 hj
  obtain ⟨i2, ha⟩ := List.getElem?_eq_some_iff.1 ha
  obtain ⟨j2, hb⟩ := List.getElem?_eq_some_iff.1 hb
  have h1 := this.get i1 i2
  have h2 := this.get j1 j2
  simp only [List.get_eq_getElem, hi, hj, ha, hb] at h1 h2
  obtain ⟨pn, gn, sn, g, delta, neg, val, a1, a2, a3, a4, a5, a6, a7, a8⟩ := h1
  obtain ⟨pn', gn', sn', g', delta', neg', val', b1, b2, b3, b4, b5, b6, b7, b8⟩ := h2
  rw [a1] at b1; cases b1
  rw [a2] at b2; cases b2
  rw [a3] at b3; cases b3
  rw [a4] at b4; cases b4
  rw [a5] at b5; cases b5
  rw [a6] at b6; cases b6
  rw [a7] at b7; cases b7
  rw [a8, b8]
  simp

end

attribute [local instance] Test.intFn

/-- two layers with the same weights; input 0, expected output 1 -/
def c61Heap : Heap Int :=
  [leafNode ⟨[1], [1, 1]⟩, leafNode ⟨[10], [1, 1]⟩, leafNode ⟨[2], [1, 1]⟩, leafNode ⟨[1], [1]⟩, leafNode ⟨[0], [1]⟩]

def c61Net : Mlp Int := ⟨[Linear.new 2 3 none, Linear.new 2 4 none]⟩

/-- C61, test: the two layers have the same weights after the first step of the training loop, and different ones after the second. -/
theorem C61_diverges : (do
    let (h1, m1) ← train c61Net c61Heap 0 1 1 1
    let (h2, m2) ← train c61Net c61Heap 0 1 1 2
    return (m1.params.map (dataOf h1), m2.params.map (dataOf h2)) : R _) = .ok
      ([some ⟨[7], [1, 1]⟩, some ⟨[3], [1]⟩, some ⟨[7], [1, 1]⟩, some ⟨[1], [1]⟩],
        [some ⟨[0], [1, 1]⟩, some ⟨[-4], [1]⟩, some ⟨[-3], [1, 1]⟩, some ⟨[0], [1]⟩]) := by
  decide +kernel

/-- C61, test data: weights, two biases and a gradient for each, step size. -/
def c61Ops : List (Op Int) :=
  [.new [2] [1, 1], .new [1] [1, 1], .new [0] [1, 1], .new [5] [1, 1], .updateGrad 0 3, .updateGrad 1 3, .updateGrad 2 3, .scalar 1]

/-- C61 does not hold. -/
theorem C61_false : ¬ C61_statement Int := by
  intro hS
  have key : (match (do
      let h ← runOps [] c61Ops
      (⟨[Linear.new 0 1 none, Linear.new 0 2 none]⟩ : Mlp Int).sgdStep h 4) with | .ok _ => true | .error _ => false) = true := by
    decide +kernel
  cases e : (do
      let h ← runOps [] c61Ops
      (⟨[Linear.new 0 1 none, Linear.new 0 2 none]⟩ : Mlp Int).sgdStep h 4) with
  | error f => rw [e] at key; cases key
  | ok r =>
    obtain ⟨h', mlp'⟩ := r
    rw [R.bind_eq_ok] at e
    obtain ⟨h, e1, e2⟩ := e
    have h1 := hS h h' _ mlp' 4 0 2 0 ⟨_, e1⟩ e2 rfl rfl
    have h2 := C61_distinct h h' _ mlp' 4 e2
    have h3 : mlp'.params.length = 4 := (sgdParams_inv (sgdStep_inv e2)).2.length_eq.symm
    rw [List.getElem?_eq_getElem (by omega), List.getElem?_eq_getElem (by omega)] at h1
    have := (List.Nodup.getElem_inj_iff h2).1 (Option.some.inj h1)
    omega

end RL
