import Verif.Props.DotRoot
import Verif.Lemmas.GradShapes

/-!
# Computed operands of `dot` that are no rows (C41)
-/

namespace RL

open Spec

attribute [local instance] Test.intFn

variable {T : Type}

/-- what the gradient function of a broadcast needs -/
theorem diagonalBroadcast_needs [Zero T] [Add T] [Mul T] {diag g o : Raw T} {s0 s1 : Nat} {bs ins : List Nat}
    (e : jvpFromDiagonalBroadcast diag (some [s0, s1]) bs ins g = .ok o) (h0 : gradDim0 g = .ok s0) (hone : g.shape.prod ≠ 1) :
    ∃ k, g.shape = [s0, k] ∧ o.array.length = s0 * s1 := by
  obtain ⟨ga, gs⟩ := g
  have hl : ∀ {arr : List T}, Raw.new arr [s0, s1] = .ok o → o.array.length = s0 * s1 := by
    intro arr hn
    rw [Raw.new, R.bind_eq_ok] at hn
    obtain ⟨_, h1, h2⟩ := hn
    rw [assertR_eq_ok] at h1
    cases h2
    simp at h1
    exact h1.symm
  match gs with
  | [] => simp at hone
  | [k] =>
    simp [gradDim0, idxR] at h0
    subst h0
    simp only [List.prod_cons, List.prod_nil, mul_one] at hone
    simp [jvpFromDiagonalBroadcast, idxR, R.bind_eq_ok] at e
    obtain ⟨⟨_, h1⟩, _⟩ := e
    rw [assertR_eq_ok, beq_iff_eq] at h1
    exact absurd h1.symm hone
  | [m, k] =>
    simp [gradDim0, idxR] at h0
    subst h0
    simp [jvpFromDiagonalBroadcast, idxR, R.bind_eq_ok] at e
    obtain ⟨arr, _, hn⟩ := e
    exact ⟨k, rfl, hl hn⟩
  | _ :: _ :: _ :: _ => simp [jvpFromDiagonalBroadcast, assertR, R.panic] at e

theorem genericUnaryJvp_needs [Zero T] [Add T] [Mul T] {t g : Raw T} {f : T → T} {out : List (Raw T)} (e : genericUnaryJvp t g f = .ok out)
    (hone : g.shape.prod ≠ 1) (ht : t.array.length ≠ 0) (hlen : ∀ o ∈ out, o.array.length = t.array.length) : ∃ k, g.shape = [1, k] := by
  simp only [genericUnaryJvp, R.bind_eq_ok] at e
  obtain ⟨d0, h0, arr, _, diag, _, o, ho, e⟩ := e
  rw [R.pure_eq_ok] at e
  subst e
  obtain ⟨k, h1, h2⟩ := diagonalBroadcast_needs ho h0 hone
  rw [hlen o (by simp)] at h2
  have : d0 = 1 := by
    have := Nat.eq_of_mul_eq_mul_right (Nat.pos_of_ne_zero ht) (show d0 * t.array.length = 1 * t.array.length by omega)
    exact this
  exact ⟨k, by rw [h1, this]⟩

variable [Zero T] [One T] [Add T] [Mul T] [Sub T] [Neg T] [LT T] [DecidableLT T] [LE T] [DecidableLE T] [RealFn T]

/-- the gradient functions of `add`, `neg`, `relu` and `abs` need rows -/
theorem applyJvp_needs {k : JvpKind} (hk : k ∈ [JvpKind.add, .neg, .relu, .abs]) {vs out : List (Raw T)} {v g : Raw T} (hf : fwd k vs = .ok v)
    (hgs : g.shape = v.shape) (hone : v.shape.prod ≠ 1) (pos : ∀ x ∈ vs, x.array.length ≠ 0) (pv : Pos v.shape) (e : applyJvp k vs [g] = .ok out)
    (hlen : ∀ p ∈ out.zip vs, p.1.array.length = p.2.array.length) : ∃ n, g.shape = [1, n] := by
  have har := fwd_arity hf
  have un : ∀ {t : Raw T} {f : T → T}, genericUnaryJvp t g f = .ok out → vs = [t] → ∃ n, g.shape = [1, n] := by
    rintro t f e' rfl
    refine genericUnaryJvp_needs e' (by rw [hgs]; exact hone) (pos t (by simp)) fun o ho => ?_
    simp only [genericUnaryJvp, R.bind_eq_ok] at e'
    obtain ⟨_, _, _, _, _, _, o', _, e'⟩ := e'
    rw [R.pure_eq_ok] at e'
    subst e'
    exact hlen (o, t) (by simpa using ho)
  simp only [List.mem_cons, List.not_mem_nil, or_false] at hk
  rcases hk with rfl | rfl | rfl | rfl
  · obtain ⟨t, u, rfl⟩ := List.length_eq_two.1 har
    have hs : v.shape = maxShape t.shape u.shape := addRaw_shape hf
    have e' : genericBinopJvp t u g (fun _ _ => 1) = .ok out := by simpa [applyJvp, addJvp, idxR] using e
    obtain ⟨d0, h0, l, hl⟩ : ∃ d0, gradDim0 g = .ok d0 ∧ ∃ l diag, jvpFromDiagonalBroadcast diag (some [d0, t.array.length])
        (maxShape t.shape u.shape) t.shape g = .ok l := by
      rw [genericBinopJvp] at e'
      split at e' <;> simp only [R.bind_eq_ok] at e'
      · obtain ⟨_, _, _, _, d0, h0, _, _, diag, _, l, hl, _⟩ := e'
        exact ⟨d0, h0, l, diag, hl⟩
      · obtain ⟨d0, h0, _, _, diag, _, l, hl, _⟩ := e'
        exact ⟨d0, h0, l, diag, hl⟩
    obtain ⟨diag, hl⟩ := hl
    obtain ⟨k, h1, _⟩ := diagonalBroadcast_needs hl h0 (by rw [hgs]; exact hone)
    rw [genericBinopJvp, if_pos (by rw [h1]; simp), R.bind_eq_ok] at e'
    obtain ⟨g1, hg1, e'⟩ := e'
    rw [R.bind_eq_ok] at e'
    obtain ⟨_, ha, _⟩ := e'
    rw [assertR_eq_ok, beq_iff_eq, ← hs, ← hgs, h1] at ha
    rw [h1] at hg1
    cases hg1
    have hk : 0 < k := pv k (by rw [← hgs, h1]; simp)
    have : d0 = 1 := Nat.eq_of_mul_eq_mul_right hk (by simpa using ha.symm)
    exact ⟨k, by rw [h1, this]⟩
  all_goals
    obtain ⟨t, rfl⟩ := List.length_eq_one_iff.1 har
  · exact un (t := t) (by simpa [applyJvp, negJvp, idxR] using e) rfl
  · exact un (t := t) (by simpa [applyJvp, reluJvp, idxR] using e) rfl
  · refine un (t := t) (f := absDeriv) ?_ rfl
    simp only [applyJvp, absJvp, R.bind_eq_ok] at e
    obtain ⟨_, _, _, _, _, hg, _, _, _, ht, e⟩ := e
    cases hg
    cases ht
    exact e

/-- if the updates of a tensor are found, its gradient function succeeds, with as many elements as its inputs have -/
theorem jvpUpdates_outs {h : Heap T} {fuel : Nat} {d : Deriv} {gs vs : List (Raw T)} {us : List (Nat × Raw T)}
    (e : jvpUpdates fuel h d gs = .ok us) (hvs : h.vals d.inputs = .ok vs) :
    ∃ out, applyJvp d.kind vs gs = .ok out ∧ ∀ p ∈ out.zip vs, p.1.array.length = p.2.array.length := by
  cases fuel with
  | zero => cases e
  | succ fuel =>
    unfold jvpUpdates at e
    rw [hvs, R.bind_ok, R.bind_eq_ok] at e
    obtain ⟨out, ho, e⟩ := e
    refine ⟨out, ho, fun p hp => ?_⟩
    have hvs' := Heap.vals_eq_ok.1 hvs
    obtain ⟨j, hjl, hj⟩ := List.mem_iff_getElem.1 hp
    simp only [List.length_zip] at hjl
    simp only [List.getElem_zip] at hj
    have hji : j < d.inputs.length := by rw [hvs'.length_eq]; omega
    obtain ⟨_, h1⟩ := bind_mapM_iff.1 ⟨us, e⟩ (out[j], d.inputs[j]) (List.mem_iff_getElem.2 ⟨j, by simp; omega, by simp⟩)
    rw [R.bind_eq_ok] at h1
    obtain ⟨n, hn, h1⟩ := h1
    rw [R.bind_eq_ok] at h1
    obtain ⟨_, h1, _⟩ := h1
    rw [assertR_eq_ok, beq_iff_eq] at h1
    obtain ⟨n', hn', hv'⟩ := hvs'.get hji (by omega)
    simp only [List.get_eq_getElem] at hn' hv'
    rw [Heap.node_eq_ok] at hn
    rw [hn] at hn'
    cases hn'
    rw [← hj, ← hv']
    exact h1

end RL

namespace RL

open Spec

attribute [local instance] Test.intFn

variable {T : Type} [Zero T] [Add T] [MulOneClass T] [Sub T] [Neg T] [LT T] [DecidableLT T] [LE T] [DecidableLE T] [RealFn T]

/-- C41 for computed operands is false for other shapes than rows: `backward` on a dot product fails if one operand is a result of `add`,
`neg`, `relu` or `abs` that has more than one element and is no matrix with one row. -/
theorem C41_shapes (h : Heap T) (hr : Reachable h) (l a b i : Nat) (w : Raw T) (d : Deriv) (hd : historyOf h l = some (some ⟨[a, b], .dot⟩))
    (hi : i = a ∨ i = b) (hdi : historyOf h i = some (some d)) (hk : d.kind ∈ [JvpKind.add, .neg, .relu, .abs]) (hw : dataOf h i = some w)
    (hone : w.shape.prod ≠ 1) (hrow : ¬ ∃ n, w.shape = [1, n])
    (hanc : ∀ a w, Ancestor h a l → dataOf h a = some w → WF w ∧ Pos w.shape) : ∀ h', backward h l ≠ .ok h' := by
  intro h' e
  obtain ⟨n, hn, hgf⟩ := historyOf_eq.1 hd
  have hll := getElem?_lt hn
  have hancs : ∀ a x, Ancestor h a l → h[a]? = some x → WF x.val ∧ Pos x.val.shape := fun a x ha hx => hanc a x.val ha (dataOf_eq.2 ⟨x, hx, rfl⟩)
  obtain ⟨vs, hvs, hfw⟩ := (hr.good l n hn).explained _ hgf
  have hvs' := Heap.vals_eq_ok.1 hvs
  obtain ⟨va, vb, rfl⟩ := List.length_eq_two.1 (show vs.length = 2 from hvs'.length_eq.symm)
  obtain ⟨⟨na, hna, rfl⟩, hvs2⟩ := List.forall₂_cons.1 hvs'
  obtain ⟨⟨nb, hnb, rfl⟩, -⟩ := List.forall₂_cons.1 hvs2
  have ia : IsInput h a l := ⟨n, _, hn, hgf, by simp⟩
  have ib : IsInput h b l := ⟨n, _, hn, hgf, by simp⟩
  obtain ⟨wa, _⟩ := hancs a na (.single ia) hna
  obtain ⟨wb, _⟩ := hancs b nb (.single ib) hnb
  have hfw' : dotRaw (.raw na.val) (.raw nb.val) = .ok n.val := hfw
  have hs : na.val.shape = nb.val.shape := by
    by_contra hs
    obtain ⟨p, hp, _⟩ := (C17_dot_partial na.val nb.val wa wb).2 hs
    rw [hp] at hfw'
    cases hfw'
  have hlen1 : n.val.array.length = 1 := by
    rw [dotRaw_raw wa wb hs] at hfw'
    rw [← Except.ok.inj hfw']
    rfl
  simp only [backward, Heap.node_eq_ok.2 hn, R.bind_ok, hgf, unwrapO, hlen1] at e
  obtain ⟨us, e, _⟩ := (computeJvp_ok (Frame.refl h) (fun i hi => ((hr.good l n hn).older _ hgf i hi).trans hll) hr.good).1 e
  unfold jvpUpdates at e
  rw [hvs, R.bind_ok, show applyJvp .dot [na.val, nb.val] [Raw.scalar 1] = .ok [nb.val, na.val] from dotJvp_root, R.bind_ok] at e
  have key := bind_mapM_iff.1 ⟨us, e⟩
  obtain ⟨m, hm, rfl⟩ := dataOf_eq.1 hw
  obtain ⟨m', hm', hdm⟩ := historyOf_eq.1 hdi
  rw [hm] at hm'
  cases hm'
  have him : Ancestor h i l := by
    rcases hi with rfl | rfl
    · exact .single ia
    · exact .single ib
  obtain ⟨o, ho, hos⟩ : ∃ o, (o, i) ∈ [nb.val, na.val].zip [a, b] ∧ o.shape = m.val.shape := by
    rcases hi with rfl | rfl
    · rw [hna] at hm
      cases hm
      exact ⟨nb.val, by simp, hs.symm⟩
    · rw [hnb] at hm
      cases hm
      exact ⟨na.val, by simp, hs⟩
  obtain ⟨_, h1⟩ := key _ ho
  rw [R.bind_eq_ok] at h1
  obtain ⟨m2, hm2, h1⟩ := h1
  rw [Heap.node_eq_ok, hm] at hm2
  cases hm2
  rw [R.bind_eq_ok] at h1
  obtain ⟨_, _, h1⟩ := h1
  rw [R.bind_eq_ok] at h1
  obtain ⟨_, _, h1⟩ := h1
  rw [hdm, R.bind_eq_ok] at h1
  obtain ⟨rest, h1, _⟩ := h1
  obtain ⟨vs, hvs, hfw⟩ := (hr.good i m hm).explained _ hdm
  obtain ⟨out, h2, h3⟩ := jvpUpdates_outs h1 hvs
  obtain ⟨k, h4⟩ := applyJvp_needs hk hfw hos hone (fun x hx => by
    obtain ⟨j, hj, n', hn', rfl⟩ := forall₂_mem_right (Heap.vals_eq_ok.1 hvs) hx
    obtain ⟨w1, w2⟩ := hancs j n' (.head ⟨m, d, hm, hdm, hj⟩ him) hn'
    rw [w1]
    exact (prod_pos_of_pos w2).ne') (hancs i m him hm).2 h2 h3
  exact hrow ⟨k, by rw [← hos]; exact h4⟩

/-- C41, test: a vector that was computed with `relu` is rejected as an operand. -/
example : ∃ h : Heap Int, runOps [] [.new [1, 2] [2], .relu 0, .dot 1 0] = .ok h ∧ historyOf h 2 = some (some ⟨[1, 0], .dot⟩) ∧
    historyOf h 1 = some (some ⟨[0], .relu⟩) ∧ dataOf h 1 = some ⟨[1, 2], [2]⟩ ∧ backward h 2 = .error (.panic .assert) :=
  ⟨_, rfl, rfl, rfl, rfl, rfl⟩

end RL
