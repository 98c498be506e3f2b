import Verif.Lemmas.Accepts
import Verif.Props.Graph2
import Verif.Lemmas.TestInt

/-!
# Exactly when `backward` succeeds (C39)
-/

namespace RL

open Spec

attribute [local instance] Test.intFn

variable {T : Type} [Zero T] [One T] [Add T] [Mul T] [Sub T] [Neg T] [LT T] [DecidableLT T] [LE T] [DecidableLE T] [RealFn T]

theorem absJvp_scalar {vs : List (Raw T)} {x : T} {out : List (Raw T)} : applyJvp .abs vs [Raw.scalar x] ≠ .ok out := by
  intro h
  simp only [applyJvp, absJvp, R.bind_eq_ok] at h
  obtain ⟨_, _, _, _, g, hg, _, ha, _⟩ := h
  cases hg
  cases ha

theorem bmmJvp_scalar {vs : List (Raw T)} {x : T} {out : List (Raw T)} : applyJvp .bmm vs [Raw.scalar x] ≠ .ok out := by
  intro h
  simp only [applyJvp, bmmJvp, bmmJvpShapes, R.bind_eq_ok] at h
  obtain ⟨_, _, a, _, b, _, j, hj, _, ⟨_, _, _, _, _, _, _, _, _, _, _, h0, _⟩, _⟩ := h
  cases hj
  cases h0

/-- C39, exactly when: in graphs without zero-length dimensions, and with gradients left from before of the shapes of their tensors,
`backward` on a one-element result of anything but `dot` succeeds if and only if this result is no `abs` and no `bmm`, every dot product it
was computed from was taken of scalars or of 1x1 matrices, and the left operand of every matrix product it was computed from was a matrix,
or a tensor all of whose dimensions are 1. (What happens for a result of `dot` is in `C39_dot` and `C41_shapes`.) -/
theorem C39_exact (h : Heap T) (hr : Reachable h) (l : Nat) (v : Raw T) (d : Deriv) (hv : dataOf h l = some v)
    (hone : v.array.length = 1) (hd : historyOf h l = some (some d)) (hroot : d.kind ≠ .dot)
    (hanc : ∀ a w, Ancestor h a l → dataOf h a = some w → WF w ∧ Pos w.shape ∧
      ∀ g, gradOf h a = some g → WF g ∧ (g.shape = w.shape ∨ w.shape = [] ∧ Pos g.shape)) :
    (∃ h', backward h l = .ok h') ↔ d.kind ≠ .abs ∧ d.kind ≠ .bmm ∧
      ∀ m e, Ancestor h m l → historyOf h m = some (some e) →
        (e.kind = .dot → ∀ i ∈ e.inputs, ∀ w, dataOf h i = some w → w.shape = [] ∨ w.shape = [1, 1]) ∧
        (e.kind = .bmm → ∀ i w, e.inputs[0]? = some i → dataOf h i = some w → w.shape.length = 2 ∨ ∀ x ∈ w.shape, x = 1) := by
  obtain ⟨n, hn, rfl⟩ := dataOf_eq.1 hv
  obtain ⟨n', hn', hgf⟩ := historyOf_eq.1 hd
  rw [hn] at hn'
  cases hn'
  have hll := getElem?_lt hn
  have hb : ∀ h', backward h l = .ok h' ↔ ∃ us, jvpUpdates (h.length + 1) h d [Raw.scalar 1] = .ok us ∧ applyUpdates h us = .ok h' := by
    intro h'
    simp only [backward, Heap.node_eq_ok.2 hn, R.bind_ok, hgf, unwrapO, hone]
    exact computeJvp_ok (Frame.refl h) (fun i hi => ((hr.good l n hn).older d hgf i hi).trans hll) hr.good
  have hb2 : (∃ h', backward h l = .ok h') ↔ ∃ us, jvpUpdates (h.length + 1) h d [Raw.scalar 1] = .ok us := by
    constructor
    · rintro ⟨h', e⟩
      obtain ⟨us, e, _⟩ := (hb h').1 e
      exact ⟨us, e⟩
    · rintro ⟨us, hus⟩
      have hanc' : ∀ u ∈ us, Ancestor h u.1 l := by
        intro u hu
        have h2 := jvpUpdates_paths hr.good hn hgf hus
        have : u.1 ∈ (pathsOf (h.length + 1) h d).map Prod.fst := by rw [← h2]; exact List.mem_map_of_mem hu
        obtain ⟨⟨s, p⟩, hx, hx'⟩ := List.mem_map.1 this
        rw [← hx']
        exact ((mem_pathsOf hr.good hn hgf (by omega)).1 hx).ancestor
      obtain ⟨h', e'⟩ := applyUpdates_ok (us := us) hr.good (by
        intro u hu
        obtain ⟨m, hm, h3, h4⟩ := jvpUpdates_shape hus u hu
        exact ⟨m, hm, h3, h4, (hanc u.1 m.val (hanc' u hu) (dataOf_eq.2 ⟨m, hm, rfl⟩)).2.1⟩) (by
        intro u hu m p hm hp
        exact (hanc u.1 m.val (hanc' u hu) (dataOf_eq.2 ⟨m, hm, rfl⟩)).2.2 p hp)
      exact ⟨h', (hb h').2 ⟨us, hus, e'⟩⟩
  rw [hb2]
  obtain ⟨vs, hvs, -⟩ := (hr.good l n hn).explained d hgf
  by_cases hk : d.kind = .abs
  · refine iff_of_false ?_ fun H => H.1 hk
    rintro ⟨us, e⟩
    unfold jvpUpdates at e
    rw [hvs, R.bind_ok, R.bind_eq_ok, hk] at e
    obtain ⟨out, ho, -⟩ := e
    exact absJvp_scalar ho
  by_cases hk2 : d.kind = .bmm
  · refine iff_of_false ?_ fun H => H.2.1 hk2
    rintro ⟨us, e⟩
    unfold jvpUpdates at e
    rw [hvs, R.bind_ok, R.bind_eq_ok, hk2] at e
    obtain ⟨out, ho, -⟩ := e
    exact bmmJvp_scalar ho
  rw [jvpUpdates_iff hr.good h.length l (by omega) hn hgf (fun a x ha hx => by
      obtain ⟨w1, w2, _⟩ := hanc a x.val ha (dataOf_eq.2 ⟨x, hx, rfl⟩)
      exact ⟨w1, w2⟩)
    (gradOk_scalar 1 _) (.inr ⟨hone, hk2, hk, hroot⟩)]
  constructor
  · intro H
    refine ⟨hk, hk2, fun m e hm he => ?_⟩
    obtain ⟨x, hx, he⟩ := historyOf_eq.1 he
    refine ⟨fun hdot i hi w hw => ?_, fun hb i w hi hw => ?_⟩ <;> obtain ⟨y, hy, rfl⟩ := dataOf_eq.1 hw
    · exact (H m (.inr hm)).1 x e hx he hdot i hi y hy
    · exact (H m (.inr hm)).2 x e hx he hb i hi y hy
  · rintro ⟨-, -, H⟩ a ha
    rcases ha with rfl | ha
    · constructor <;>
      · intro x e hx he hkind
        rw [hn] at hx
        cases hx
        rw [hgf] at he
        cases he
        contradiction
    · refine ⟨fun x e hx he hdot i hi y hy => ?_, fun x e hx he hb i hi y hy => ?_⟩
      · exact (H a e ha (historyOf_eq.2 ⟨x, hx, he⟩)).1 hdot i hi y.val (dataOf_eq.2 ⟨y, hy, rfl⟩)
      · exact (H a e ha (historyOf_eq.2 ⟨x, hx, he⟩)).2 hb i y.val hi (dataOf_eq.2 ⟨y, hy, rfl⟩)

/-- C39, test: the dot product of two 1x1 matrices below another operation is differentiated, and with the right gradient; that of two
vectors with one element is not, although it has as many elements. -/
example : (do
    let h ← runOps [] [Op.new [3] [1, 1], .new [5] [1, 1], .dot 0 1, .relu 2, .backward 3]
    return (gradOf h 0, gradOf h 1)) = (.ok (some ⟨[5], [1, 1]⟩, some ⟨[3], [1, 1]⟩) : R (Option (Raw Int) × Option (Raw Int))) ∧
    (do
    let h ← runOps [] [Op.new [3] [1], .new [5] [1], .dot 0 1, .relu 2, .backward 3]
    return (gradOf h 0, gradOf h 1)) = (.error (.panic .assert) : R (Option (Raw Int) × Option (Raw Int))) := by
  decide +kernel

/-- C39, test: the sum of the product of one 1x1x1 tensor with a row is differentiated; with a stack of two 1x1 matrices, or one 2x1 or
1x2 matrix in a stack of one, it is not. -/
example : (do
    let h ← runOps [] [Op.new [3] [1, 1, 1], .new [5, 7] [1, 2], .bmm 0 1, .sum 2, .backward 4]
    return (gradOf h 0, gradOf h 1)) =
      (.ok (some ⟨[12], [1, 1, 1]⟩, some ⟨[3, 3], [1, 2]⟩) : R (Option (Raw Int) × Option (Raw Int))) ∧
    (do
    let h ← runOps [] [Op.new [3, 4] [2, 1, 1], .new [5, 7] [1, 2], .bmm 0 1, .sum 2, .backward 4]
    return (gradOf h 0, gradOf h 1)) = (.error (.panic .unwrap) : R (Option (Raw Int) × Option (Raw Int))) ∧
    (do
    let h ← runOps [] [Op.new [3, 4] [1, 2, 1], .new [5, 7] [1, 2], .bmm 0 1, .sum 2, .backward 4]
    return (gradOf h 0, gradOf h 1)) = (.error (.panic .assert) : R (Option (Raw Int) × Option (Raw Int))) ∧
    (do
    let h ← runOps [] [Op.new [3, 4] [1, 1, 2], .new [5, 7] [2, 1], .bmm 0 1, .sum 2, .backward 4]
    return (gradOf h 0, gradOf h 1)) = (.error (.panic .assert) : R (Option (Raw Int) × Option (Raw Int))) := by
  decide +kernel

end RL
