import Verif.Props.Accept

/-!
# Exactly when `backward` on a dot product of computed rows succeeds (C39, C41)
-/

namespace RL

open Spec

attribute [local instance] Test.intFn

variable {T : Type} [Zero T] [Add T] [MulOneClass T] [Sub T] [Neg T] [LT T] [DecidableLT T] [LE T] [DecidableLE T] [RealFn T]

/-- the last step of a path -/
theorem ancestor_last {h : Heap T} {a l : Nat} (ha : Ancestor h a l) : ∃ c, IsInput h c l ∧ (a = c ∨ Ancestor h a c) := by
  cases ha with
  | single h1 => exact ⟨_, h1, Or.inl rfl⟩
  | tail h1 h2 => exact ⟨_, h2, Or.inr h1⟩

/-- the step of one operand -/
theorem jvpUpdates_operand {h : Heap T} (hg : h.Good) {l i : Nat} {n w : Node T} {o : Raw T} (hn : h[l]? = some n) (hil : Ancestor h i l) (hw : h[i]? = some w)
    (hanc : ∀ a x, Ancestor h a l → h[a]? = some x → WF x.val ∧ Pos x.val.shape) (ho : WF o) (hs : o.shape = w.val.shape)
    (hrow : w.gradFn = none ∨ ∃ k, w.val.shape = [1, k]) :
    (∃ b, (fun (p : Raw T × Nat) => do
        let n ← h.node p.2
        assertR (p.1.array.length == n.val.array.length)
        let shapedGrad ← Raw.new p.1.array n.val.shape
        let rest ← match n.gradFn with
          | some d' => jvpUpdates h.length h d' [p.1]
          | none => pure []
        return (p.2, shapedGrad) :: rest) (o, i) = .ok b) ↔ ∀ a, a = i ∨ Ancestor h a i → RowFine h a := by
  obtain ⟨w1, _⟩ := hanc i w hil hw
  have hlen : o.array.length = w.val.array.length := by rw [ho, hs, w1]
  simp only [Heap.node_eq_ok.2 hw, R.bind_ok, hlen, beq_self_eq_true, assertR_true]
  rw [Raw.new_ok (by rw [hlen]; exact w1), R.bind_ok]
  cases hgf : w.gradFn with
  | none =>
    refine iff_of_true ⟨_, rfl⟩ fun a ha => ?_
    have : a = i := by
      rcases ha with rfl | ha
      · rfl
      · obtain ⟨b, ⟨nd, d', hnd, hd', _⟩, _⟩ := ancestor_last ha
        rw [hw] at hnd
        cases hnd
        rw [hgf] at hd'
        cases hd'
    subst this
    constructor <;> intro n' d' hn' hd' <;> rw [hw] at hn' <;> cases hn' <;> rw [hgf] at hd' <;> cases hd'
  | some d' =>
    have hlt := getElem?_lt hn
    have hlt' := getElem?_lt hw
    obtain ⟨k, hk⟩ := hrow.resolve_left (by rw [hgf]; simp)
    have hkl : k = w.val.array.length := by rw [w1, hk]; simp
    subst hkl
    obtain ⟨f', hf'⟩ : ∃ f', h.length = f' + 1 := ⟨h.length - 1, by omega⟩
    have key := jvpUpdates_iff hg f' i (by omega) hw hgf (fun a x ha hx => hanc a x (ha.trans hil) hx)
      (gradOk_row (hs.trans hk) ho) (.inl (hs.trans hk))
    rw [← key, hf']
    simp only
    constructor
    · rintro ⟨b, e⟩
      rw [R.bind_eq_ok] at e
      obtain ⟨us, e, _⟩ := e
      exact ⟨us, e⟩
    · rintro ⟨us, e⟩
      rw [e]
      exact ⟨_, rfl⟩

/-- C39 for `dot`, exactly when: in graphs without zero-length dimensions, and with gradients left from before of the shapes of their
tensors, `backward` on the dot product of tensors that are leaves or matrices with one row succeeds if and only if every dot product they
were computed from was taken of scalars or of 1x1 matrices, and the left operand of every matrix product they were computed from was a
matrix, or a tensor all of whose dimensions are 1. -/
theorem C39_dot (h : Heap T) (hr : Reachable h) (l a b : Nat) (hd : historyOf h l = some (some ⟨[a, b], .dot⟩))
    (hrows : ∀ i, i = a ∨ i = b → historyOf h i = some none ∨ ∃ w k, dataOf h i = some w ∧ w.shape = [1, k])
    (hanc : ∀ a w, Ancestor h a l → dataOf h a = some w → WF w ∧ Pos w.shape ∧
      ∀ g, gradOf h a = some g → WF g ∧ (g.shape = w.shape ∨ w.shape = [] ∧ Pos g.shape)) :
    (∃ h', backward h l = .ok h') ↔
      ∀ m e, Ancestor h m l → historyOf h m = some (some e) →
        (e.kind = .dot → ∀ i ∈ e.inputs, ∀ w, dataOf h i = some w → w.shape = [] ∨ w.shape = [1, 1]) ∧
        (e.kind = .bmm → ∀ i w, e.inputs[0]? = some i → dataOf h i = some w → w.shape.length = 2 ∨ ∀ x ∈ w.shape, x = 1) := by
  obtain ⟨n, hn, hgf⟩ := historyOf_eq.1 hd
  have hll := getElem?_lt hn
  have hancs : ∀ a x, Ancestor h a l → h[a]? = some x → WF x.val ∧ Pos x.val.shape := fun a x ha hx => by
    obtain ⟨w1, w2, _⟩ := hanc a x.val ha (dataOf_eq.2 ⟨x, hx, rfl⟩)
    exact ⟨w1, w2⟩
  obtain ⟨vs, hvs, hfw⟩ := (hr.good l n hn).explained _ hgf
  have hvs' := Heap.vals_eq_ok.1 hvs
  obtain ⟨va, vb, rfl⟩ := List.length_eq_two.1 (show vs.length = 2 from hvs'.length_eq.symm)
  obtain ⟨⟨na, hna, rfl⟩, hvs2⟩ := List.forall₂_cons.1 hvs'
  obtain ⟨⟨nb, hnb, rfl⟩, -⟩ := List.forall₂_cons.1 hvs2
  have ia : IsInput h a l := ⟨n, _, hn, hgf, by simp⟩
  have ib : IsInput h b l := ⟨n, _, hn, hgf, by simp⟩
  obtain ⟨wa, _⟩ := hancs a na (.single ia) hna
  obtain ⟨wb, _⟩ := hancs b nb (.single ib) hnb
  have hfw' : dotRaw (.raw na.val) (.raw nb.val) = .ok n.val := hfw
  have hs : na.val.shape = nb.val.shape := by
    by_contra hs
    obtain ⟨p, hp, _⟩ := (C17_dot_partial na.val nb.val wa wb).2 hs
    rw [hp] at hfw'
    cases hfw'
  have hone : n.val.array.length = 1 := by
    rw [dotRaw_raw wa wb hs] at hfw'
    rw [← Except.ok.inj hfw']
    rfl
  have hb : ∀ h', backward h l = .ok h' ↔ ∃ us, jvpUpdates (h.length + 1) h ⟨[a, b], .dot⟩ [Raw.scalar 1] = .ok us ∧ applyUpdates h us = .ok h' := by
    intro h'
    simp only [backward, Heap.node_eq_ok.2 hn, R.bind_ok, hgf, unwrapO, hone]
    exact computeJvp_ok (Frame.refl h) (fun i hi => ((hr.good l n hn).older _ hgf i hi).trans hll) hr.good
  have hb2 : (∃ h', backward h l = .ok h') ↔ ∃ us, jvpUpdates (h.length + 1) h ⟨[a, b], .dot⟩ [Raw.scalar 1] = .ok us := by
    constructor
    · rintro ⟨h', e⟩
      obtain ⟨us, e, _⟩ := (hb h').1 e
      exact ⟨us, e⟩
    · rintro ⟨us, hus⟩
      have hanc' : ∀ u ∈ us, Ancestor h u.1 l := by
        intro u hu
        have h2 := jvpUpdates_paths hr.good hn hgf hus
        have : u.1 ∈ (pathsOf (h.length + 1) h ⟨[a, b], .dot⟩).map Prod.fst := by rw [← h2]; exact List.mem_map_of_mem hu
        obtain ⟨⟨s, p⟩, hx, hx'⟩ := List.mem_map.1 this
        rw [← hx']
        exact ((mem_pathsOf hr.good hn hgf (by omega)).1 hx).ancestor
      obtain ⟨h', e'⟩ := applyUpdates_ok (us := us) hr.good (by
        intro u hu
        obtain ⟨m, hm, h3, h4⟩ := jvpUpdates_shape hus u hu
        exact ⟨m, hm, h3, h4, (hanc u.1 m.val (hanc' u hu) (dataOf_eq.2 ⟨m, hm, rfl⟩)).2.1⟩) (by
        intro u hu m p hm hp
        exact (hanc u.1 m.val (hanc' u hu) (dataOf_eq.2 ⟨m, hm, rfl⟩)).2.2 p hp)
      exact ⟨h', (hb h').2 ⟨us, hus, e'⟩⟩
  have row : ∀ {i w}, h[i]? = some w → i = a ∨ i = b → w.gradFn = none ∨ ∃ k, w.val.shape = [1, k] := by
    intro i w hw hi
    rcases hrows i hi with h1 | ⟨w', k, h0, h1⟩
    · obtain ⟨w', hw', h1⟩ := historyOf_eq.1 h1
      rw [hw] at hw'
      cases hw'
      exact Or.inl h1
    · obtain ⟨w2, hw2, rfl⟩ := dataOf_eq.1 h0
      rw [hw] at hw2
      cases hw2
      exact Or.inr ⟨k, h1⟩
  rw [hb2]
  unfold jvpUpdates
  rw [hvs, R.bind_ok, show applyJvp .dot [na.val, nb.val] [Raw.scalar 1] = .ok [nb.val, na.val] from dotJvp_root, R.bind_ok, bind_mapM_iff]
  simp only [List.zip_cons_cons, List.zip_nil_right, List.mem_cons, List.not_mem_nil, or_false, forall_eq_or_imp, forall_eq]
  refine (and_congr (jvpUpdates_operand hr.good hn (.single ia) hna hancs wb hs.symm (row hna (.inl rfl)))
    (jvpUpdates_operand hr.good hn (.single ib) hnb hancs wa hs (row hnb (.inr rfl)))).trans ?_
  constructor
  · rintro ⟨Ha, Hb⟩ m e hm he
    obtain ⟨x, hx, he⟩ := historyOf_eq.1 he
    have hf : RowFine h m := by
      obtain ⟨c, ⟨nd, d', hnd, hd', hc⟩, hmc⟩ := ancestor_last hm
      rw [hn] at hnd
      cases hnd
      rw [hgf] at hd'
      cases hd'
      simp only [List.mem_cons, List.not_mem_nil, or_false] at hc
      rcases hc with rfl | rfl
      · exact Ha m hmc
      · exact Hb m hmc
    refine ⟨fun hdot i hi w hw => ?_, fun hb i w hi hw => ?_⟩ <;> obtain ⟨y, hy, rfl⟩ := dataOf_eq.1 hw
    · exact hf.1 x e hx he hdot i hi y hy
    · exact hf.2 x e hx he hb i hi y hy
  · intro H
    have hf : ∀ m, Ancestor h m l → RowFine h m := by
      intro m hm
      refine ⟨fun x e hx he hdot i hi y hy => ?_, fun x e hx he hb i hi y hy => ?_⟩
      · exact (H m e hm (historyOf_eq.2 ⟨x, hx, he⟩)).1 hdot i hi y.val (dataOf_eq.2 ⟨y, hy, rfl⟩)
      · exact (H m e hm (historyOf_eq.2 ⟨x, hx, he⟩)).2 hb i y.val hi (dataOf_eq.2 ⟨y, hy, rfl⟩)
    refine ⟨fun m hm => hf m ?_, fun m hm => hf m ?_⟩
    · rcases hm with rfl | hm
      · exact .single ia
      · exact hm.tail ia
    · rcases hm with rfl | hm
      · exact .single ib
      · exact hm.tail ib

/-- C39, C41, test: the dot product of a computed row with a leaf and with itself; with a dot product of vectors inside it is rejected. The
computed operand has to be a row: with vectors and columns of two elements `backward` panics. -/
example : (do
    let h ← runOps [] [Op.new [1, 2, 3] [1, 3], .new [4, 5, 6] [1, 3], .neg 0, .dot 2 1, .backward 3]
    return (gradOf h 0, gradOf h 1)) =
      (.ok (some ⟨[-4, -5, -6], [1, 3]⟩, some ⟨[-1, -2, -3], [1, 3]⟩) : R (Option (Raw Int) × Option (Raw Int))) ∧
    (do
    let h ← runOps [] [Op.new [1, -2, 3] [1, 3], .relu 0, .dot 1 1, .backward 2]
    return (gradOf h 0, gradOf h 1)) =
      (.ok (some ⟨[2, 0, 6], [1, 3]⟩, some ⟨[2, 0, 6], [1, 3]⟩) : R (Option (Raw Int) × Option (Raw Int))) ∧
    (do
    let h ← runOps [] [Op.new [1, 2] [1, 2], .dot 0 0, .add 1 0, .dot 2 0, .backward 3]
    return gradOf h 0) = (.error (.panic .assert) : R (Option (Raw Int))) ∧
    (do
    let h ← runOps [] [Op.new [1, 2] [2], .neg 0, .dot 1 0, .backward 2]
    return gradOf h 0) = (.error (.panic .assert) : R (Option (Raw Int))) ∧
    (do
    let h ← runOps [] [Op.new [1, 2] [2, 1], .neg 0, .dot 1 0, .backward 2]
    return gradOf h 0) = (.error (.panic .assert) : R (Option (Raw Int))) := by
  decide +kernel

end RL
