import Verif.Lemmas.Unused
import Verif.Lemmas.TestInt
import Verif.Props.Graph2
import Verif.Props.Jvp

/-!
# C105: the functions that nothing calls

`functional::add`, an addition that also takes views, and `tanh_derivative` without the full Jacobian.
-/

namespace RL

open Spec

variable {T : Type}

/-- C105: `functional::add` of two tensors is `+`. -/
theorem C105_tensors [Zero T] [Add T] (h : Heap T) (l r : Nat) : functionalAddT h (.tensor l) (.tensor r) = addT h l r := by
  unfold functionalAddT addT
  simp only [Opnd.eval, Opnd.toTensorT]
  cases hl : h.node l with
  | error e => rfl
  | ok ln =>
    cases hr : h.node r with
    | error e => rfl
    | ok rn => simp only [R.bind_ok, R.pure_eq, hr]

/-- C105: `functional::add` of tensors or views of the same shape is `+` of what `to_tensor` makes of them. -/
theorem C105_same [Zero T] [Add T] (h : Heap T) (l r : Opnd) (lv rv : TL T) (hl : l.eval h = .ok lv) (hr : r.eval h = .ok rv)
    (ol : Ok lv) (or : Ok rv) (hs : lv.shape = rv.shape) (hp : Pos lv.shape) :
    (∃ h' i, functionalAddT h l r = .ok (h', i)) ∧ functionalAddT h l r = (do
      let (h, i) ← l.toTensorT h
      let (h, j) ← r.toTensorT h
      addT h i j) := by
  obtain ⟨ns, i, n, e1, e2, e3, _⟩ := Opnd.toTensorT_ok hl ol hp
  obtain ⟨ms, j, m, e4, e5, e6, _⟩ := Opnd.toTensorT_ok (Opnd.eval_append ns hr) or (hs ▸ hp)
  have e2' : (h ++ ns ++ ms)[i]? = some n := by rw [List.getElem?_append_left (List.getElem?_eq_some_iff.1 e2).1, e2]
  have hval : addRaw lv rv = .ok ⟨List.zipWith (· + ·) (elems lv) (elems rv), lv.shape⟩ := genericBinopRaw_same ol or hs hp _
  have wl : WF (⟨elems lv, lv.shape⟩ : Raw T) := elems_length ol
  have wr : WF (⟨elems rv, rv.shape⟩ : Raw T) := elems_length or
  have hval' : addRaw (.raw n.val) (.raw m.val) = .ok ⟨List.zipWith (· + ·) (elems lv) (elems rv), lv.shape⟩ := by
    rw [e3, e6]
    have := genericBinopRaw_same (l := .raw ⟨elems lv, lv.shape⟩) (r := .raw ⟨elems rv, rv.shape⟩) wl wr hs hp (fun a b : T => a + b)
    rw [elems_raw wl, elems_raw wr] at this
    exact this
  constructor
  · simp only [functionalAddT, hl, hr, e1, e4, hval, R.bind_ok]
    exact ⟨_, _, rfl⟩
  · simp only [functionalAddT, addT, hl, hr, e1, e4, hval, R.bind_ok, Heap.node_eq_ok.2 e2', Heap.node_eq_ok.2 e5, hval']

/-- C105, test: the hypotheses of `C105_same` hold for two rows of a matrix. -/
example : ∃ lv rv : TL Int, (Opnd.view (.view 0 [⟨0, 1⟩, ⟨0, 2⟩])).eval [leafNode ⟨[1, 2, 3, 4], [2, 2]⟩] = .ok lv ∧
    (Opnd.view (.view 0 [⟨1, 2⟩, ⟨0, 2⟩])).eval [leafNode ⟨[1, 2, 3, 4], [2, 2]⟩] = .ok rv ∧ lv.shape = rv.shape ∧ lv.shape = [1, 2] ∧
    elems lv = [1, 2] ∧ elems rv = [3, 4] ∧
    functionalAddT [leafNode ⟨[1, 2, 3, 4], [2, 2]⟩] (.view (.view 0 [⟨0, 1⟩, ⟨0, 2⟩])) (.view (.view 0 [⟨1, 2⟩, ⟨0, 2⟩])) =
      .ok ([leafNode ⟨[1, 2, 3, 4], [2, 2]⟩, leafNode ⟨[1, 2], [1, 2]⟩, leafNode ⟨[3, 4], [1, 2]⟩,
        ⟨⟨[4, 6], [1, 2]⟩, none, some ⟨[1, 2], .add⟩⟩], 3) := ⟨_, _, rfl, rfl, rfl, rfl, rfl, rfl, rfl⟩

section

variable [Zero T] [One T] [Add T] [Mul T] [Sub T] [Neg T] [LT T] [DecidableLT T] [LE T] [DecidableLE T] [RealFn T]

/-- C105: the sum of two views of the same shape is a result that the public operations can make; the recorded inputs are fresh copies
without history. -/
theorem C105_views (h : Heap T) (v w : VExpr) (lv rv : View T) (hl : v.eval h = .ok lv) (hr : w.eval h = .ok rv)
    (ol : ViewOk lv) (or : ViewOk rv) (hs : lv.shape = rv.shape) (hp : Pos lv.shape) :
    ∃ h', functionalAddT h (.view v) (.view w) = .ok (h', h.length + 2) ∧
      runOps h [.viewToTensor v, .viewToTensor w, .add h.length (h.length + 1)] = .ok h' ∧
      h' = h ++ [⟨⟨elems (.view lv), lv.shape⟩, none, none⟩, ⟨⟨elems (.view rv), rv.shape⟩, none, none⟩,
        ⟨⟨List.zipWith (· + ·) (elems (.view lv)) (elems (.view rv)), lv.shape⟩, none, some ⟨[h.length, h.length + 1], .add⟩⟩] := by
  have el : (Opnd.view v).eval h = .ok (.view lv) := by simp only [Opnd.eval, hl]; rfl
  have er : (Opnd.view w).eval h = .ok (.view rv) := by simp only [Opnd.eval, hr]; rfl
  obtain ⟨⟨h', i, hf⟩, he⟩ := C105_same h (.view v) (.view w) (.view lv) (.view rv) el er ol or hs hp
  have hval : addRaw (.view lv) (.view rv) = .ok ⟨List.zipWith (· + ·) (elems (.view lv)) (elems (.view rv)), lv.shape⟩ :=
    genericBinopRaw_same (l := .view lv) (r := .view rv) ol or hs hp _
  have t1 : viewToTensorT h v = .ok (h ++ [leafNode ⟨elems (.view lv), lv.shape⟩], h.length) := by
    simp only [viewToTensorT, hl, R.bind_ok, toTensor_view ol hp]; rfl
  have t2 : viewToTensorT (h ++ [leafNode ⟨elems (.view lv), lv.shape⟩]) w =
      .ok (h ++ [leafNode ⟨elems (.view lv), lv.shape⟩] ++ [leafNode ⟨elems (.view rv), rv.shape⟩], h.length + 1) := by
    simp only [viewToTensorT, VExpr.eval_append _ hr, R.bind_ok, toTensor_view or (hs ▸ hp)]
    simp [Heap.leaf, Heap.alloc]
  simp only [Opnd.toTensorT, t1, t2, R.bind_ok] at he
  have hh : functionalAddT h (.view v) (.view w) = .ok (h ++ [leafNode ⟨elems (.view lv), lv.shape⟩] ++
      [leafNode ⟨elems (.view rv), rv.shape⟩] ++ [⟨⟨List.zipWith (· + ·) (elems (.view lv)) (elems (.view rv)), lv.shape⟩, none,
        some ⟨[h.length, h.length + 1], .add⟩⟩], h.length + 2) := by
    simp only [functionalAddT, el, er, R.bind_ok, Opnd.toTensorT, t1, t2, hval]
    simp [Heap.alloc]
  refine ⟨_, hh, ?_, by simp [leafNode]⟩
  rw [hh] at he
  rw [runOps_cons]
  simp only [Op.run, t1, R.bind_ok, R.pure_eq]
  rw [runOps_cons]
  simp only [Op.run, t2, R.bind_ok, R.pure_eq]
  rw [runOps_cons]
  simp only [Op.run, ← he, R.bind_ok, R.pure_eq]
  rfl

/-- C105: the gradient of a tensor that is only read through a view is lost: `backward` of the summed result changes no old tensor. -/
theorem C105_lost (h h' h'' : Heap T) (v w : VExpr) (lv rv : View T) (hreach : Reachable h) (hl : v.eval h = .ok lv)
    (hr : w.eval h = .ok rv) (ol : ViewOk lv) (or : ViewOk rv) (hs : lv.shape = rv.shape) (hp : Pos lv.shape) (i : Nat)
    (e : functionalAddT h (.view v) (.view w) = .ok (h', i)) (e' : runOps h' [.sum i, .backward (i + 2)] = .ok h'') (t : Nat)
    (ht : t < h.length) : h''[t]? = h[t]? ∧ gradOf h'' t = gradOf h t := by
  obtain ⟨k, f1, f2, f3⟩ := C105_views h v w lv rv hl hr ol or hs hp
  rw [e] at f1
  obtain ⟨rfl, rfl⟩ := Prod.mk.inj (Except.ok.inj f1)
  have hg : h.Good := hreach.good
  have hr' : Reachable h' := hreach.run f2
  have hf : Frame h h'' := (runOps_frame (ops := [.viewToTensor v, .viewToTensor w, .add h.length (h.length + 1)] ++
    [.sum (h.length + 2), .backward (h.length + 2 + 2)]) hg (by rw [runOps_append, f2]; exact e')).1
  rw [runOps_cons] at e'
  obtain ⟨h1, g1, g5⟩ := R.bind_eq_ok.1 e'
  rw [runOps_cons] at g5
  obtain ⟨h2, g2, g3⟩ := R.bind_eq_ok.1 g5
  obtain rfl : h2 = h'' := Except.ok.inj g3
  have hr1 : Reachable h1 := hr'.op g1
  obtain ⟨⟨x, j⟩, g6, g4⟩ := R.bind_eq_ok.1 g1
  obtain rfl : x = h1 := Except.ok.inj g4
  obtain ⟨n, s, hn, _, rfl, _⟩ := sumT_inv g6
  have hlen : h'.length = h.length + 3 := by rw [f3]; simp
  have hno : ¬ Ancestor (h' ++ [leafNode (Raw.newWithFiller n.val.shape 1)] ++ [⟨s, some h'.length, some ⟨[h.length + 2], .sum⟩⟩]) t
      (h.length + 2 + 2) := by
    have hin : ∀ a b, h.length ≤ b →
        IsInput (h' ++ [leafNode (Raw.newWithFiller n.val.shape 1)] ++ [⟨s, some h'.length, some ⟨[h.length + 2], .sum⟩⟩]) a b →
        h.length ≤ a := by
      rintro a b hb ⟨m, d, h1, h2, h3⟩
      rw [f3] at h1
      obtain ⟨k, rfl⟩ := Nat.exists_eq_add_of_le hb
      simp only [List.append_assoc] at h1
      rw [List.getElem?_append_right (by omega), Nat.add_sub_cancel_left] at h1
      match k with
      | 0 => simp at h1; subst h1; simp at h2
      | 1 => simp at h1; subst h1; simp at h2
      | 2 => simp at h1; subst h1; simp at h2; subst h2; simp at h3; omega
      | 3 => simp at h1; subst h1; simp [leafNode] at h2
      | 4 => simp at h1; subst h1; simp at h2; subst h2; simp at h3; omega
      | k + 5 => simp at h1
    intro ha
    have : h.length ≤ t := by
      have key : ∀ b, h.length ≤ b → Ancestor (h' ++ [leafNode (Raw.newWithFiller n.val.shape 1)] ++
          [⟨s, some h'.length, some ⟨[h.length + 2], .sum⟩⟩]) t b → h.length ≤ t := by
        intro b hb hab
        induction hab with
        | single hi => exact hin _ _ hb hi
        | tail _ hi ih => exact ih (hin _ _ hb hi)
      exact key _ (by omega) ha
    omega
  have ht' : t < h'.length := by omega
  have hsame : h2[t]? = h[t]? := by
    rw [((C36_backward _ _ _ hr1 g2 t (by simp; omega)).2.2.1 hno).1, List.append_assoc, List.getElem?_append_left ht', f3,
      List.getElem?_append_left ht]
  exact ⟨hsame, gradOf_congr hg hf (List.getElem?_eq_getElem ht) (hsame.trans (List.getElem?_eq_getElem ht))⟩

end

section

attribute [local instance] Test.intFn

/-- C105, test: the copies get gradients, the matrix behind the views none. -/
example : ∃ h' i h'', Reachable ([leafNode ⟨[1, 2, 3, 4], [2, 2]⟩] : Heap Int) ∧
    functionalAddT ([leafNode ⟨[1, 2, 3, 4], [2, 2]⟩] : Heap Int) (.view (.view 0 [⟨0, 1⟩, ⟨0, 2⟩])) (.view (.view 0 [⟨1, 2⟩, ⟨0, 2⟩])) =
      .ok (h', i) ∧ runOps h' [.sum i, .backward (i + 2)] = .ok h'' ∧ gradOf h'' 0 = none ∧ gradOf h'' 1 = some ⟨[1, 1], [1, 2]⟩ ∧
    gradOf h'' 2 = some ⟨[1, 1], [1, 2]⟩ := ⟨_, _, _, ⟨[.new [1, 2, 3, 4] [2, 2]], rfl⟩, rfl, rfl, rfl, rfl, rfl⟩

/-- C105, test (of the model only: `tanh` of the test instance is not the hyperbolic tangent). -/
example : ∃ d j, tanhDiagonal (⟨[2, -3], [2, 1]⟩ : Raw Int) = .ok d ∧ tanhJacobian (⟨[2, -3], [2, 1]⟩ : Raw Int) = .ok j ∧
    d.shape = [2, 1] ∧ j.array = [d.array.getD 0 0, 0, 0, d.array.getD 1 0] ∧ d.array.getD 0 0 ≠ 0 := ⟨_, _, rfl, rfl, rfl, rfl, by decide⟩

end

/-- C105: `tanh_derivative` without the full Jacobian is the diagonal of the full one, in the shape of the tensor; off the diagonal the
full one is zero. -/
theorem C105_diagonal [Zero T] [One T] [Sub T] [RealFn T] (t : Raw T) (ht : WF t) (hp : Pos t.shape) :
    ∃ d j, tanhDiagonal t = .ok d ∧ tanhJacobian t = .ok j ∧ d.shape = t.shape ∧ WF d ∧ j.shape = [t.shape.prod, t.shape.prod] ∧ WF j ∧
      ∀ a b, InRange t.shape a → InRange t.shape b →
        Raw.elem? j [rowMajor t.shape a, rowMajor t.shape b] = if a = b then Raw.elem? d a else some 0 := by
  obtain ⟨j, h1, h2, h3, h4⟩ := tanhJacobian_ok ht
  have hlen : t.array.length = t.shape.prod := ht
  refine ⟨_, j, tanhDiagonal_ok ht hp, h1, rfl, by rw [WF, List.length_map]; exact ht, by rw [h2, hlen], h3, fun a b ha hb => ?_⟩
  have la : rowMajor t.shape a < t.array.length := by rw [hlen]; exact rowMajor_lt ha
  have lb : rowMajor t.shape b < t.array.length := by rw [hlen]; exact rowMajor_lt hb
  rw [Raw.elem?, h2, rowMajor_pair, h4 _ la _ lb]
  by_cases hab : a = b
  · subst hab
    simp [Raw.elem?, la]
  · rw [if_neg hab, if_neg fun e => hab (rowMajor_inj ha hb e)]

/-- C105: the gradient that `tanh` passes on is the incoming one times that diagonal, element by element. -/
theorem C105_jvp [CommRing T] [RealFn T] (t grad : Raw T) (ht : WF t) (hg : WF grad) (hp : Pos t.shape)
    (hs : grad.shape = [1, t.shape.prod]) :
    ∃ s d, tanhJvp [t] [grad] = .ok [s] ∧ tanhDiagonal t = .ok d ∧ s.shape = [1, t.shape.prod] ∧
      s.array = List.zipWith (· * ·) grad.array d.array := by
  have hlen : t.array.length = t.shape.prod := ht
  have hgl : grad.array.length = t.array.length := by rw [hg, hs, hlen]; simp
  have hgo : GradOk grad 1 t.array.length (fun r k => grad.array.getD (r * t.array.length + k) 0) := by
    refine Or.inl ⟨by rw [hs, hlen], hg, fun row hrow k hk => ?_⟩
    have : row * t.array.length + k < grad.array.length := by
      rw [hg, hs, hlen]; simpa using mul_add_lt hrow (hlen ▸ hk)
    simp [this]
  obtain ⟨s, h1, h2, h3, h4⟩ := tanhJvp_ok ht hp hgo (Or.inl (by rw [hs, hlen]))
  refine ⟨s, _, h1, tanhDiagonal_ok ht hp, by rw [h2, hlen], ?_⟩
  have hsl : s.array.length = t.array.length := by rw [h3, h2]; simp
  refine List.ext_getElem (by simp [hsl, hgl]) fun k hk _ => ?_
  have hk' : k < t.array.length := hsl ▸ hk
  have := h4 k hk'
  rw [List.getElem?_eq_getElem hk, Option.some.injEq] at this
  rw [this]
  simp [hgl, hk']

end RL
