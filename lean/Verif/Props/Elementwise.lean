import Verif.Lemmas.Arith
import Mathlib.Algebra.Ring.Int.Defs

/-!
# C10-C17, C26, C28: elementwise operations, sum, dot, equality, zero-length dimensions
-/

namespace RL

open Spec

variable {T : Type}

/-! ## addition (C10-C12) -/

/-- C10: a successful `a + b` has the broadcast shape, and every element is the sum of the two broadcast
reads. Operands may be tensors or views; no law of `+` is used. -/
theorem C10_add [Zero T] [Add T] (l r : TL T) (hl : Ok l) (hr : Ok r) (pl : Pos l.shape) (pr : Pos r.shape)
    (t : Raw T) (h : addRaw l r = .ok t) :
    t.shape = bshape l.shape r.shape ∧ WF t ∧
    ∀ idx, InRange t.shape idx → ∃ x y, elem? l (bproj l.shape idx) = some x ∧
      elem? r (bproj r.shape idx) = some y ∧ t.get idx = .ok (x + y) := by
  obtain ⟨_, h1, h2, h3⟩ := genericBinopRaw_inv hl hr pl pr h
  refine ⟨h1, h2, fun idx hi => ?_⟩
  obtain ⟨x, y, hx, hy, hv⟩ := h3 idx hi
  obtain ⟨v, h4, h5⟩ := Raw.get_ok h2 hi
  rw [hv, Option.some.injEq] at h4
  exact ⟨x, y, hx, hy, by rw [h5, h4]⟩

/-- C10, test: a row added to a matrix. -/
example : addRaw (.raw (⟨[1, 2, 3, 4], [2, 2]⟩ : Raw Int)) (.raw ⟨[10, 20], [2]⟩)
    = .ok ⟨[11, 22, 13, 24], [2, 2]⟩ := by decide
example : Ok (.raw (⟨[1, 2, 3, 4], [2, 2]⟩ : Raw Int)) ∧ Pos [2, 2] ∧ bshape [2, 2] [2] = [2, 2] :=
  ⟨rfl, by simp [Pos], by decide⟩

/-- C11: `a + b` on tensors without zero-length dimensions succeeds iff the shapes are compatible, and
panics otherwise. -/
theorem C11_add_accepts [Zero T] [Add T] (l r : Raw T) (hl : WF l) (hr : WF r) (pl : Pos l.shape)
    (pr : Pos r.shape) :
    (Compatible l.shape r.shape → ∃ t, addRaw (.raw l) (.raw r) = .ok t) ∧
    (¬ Compatible l.shape r.shape → Panics (addRaw (.raw l) (.raw r))) := by
  refine ⟨genericBinopRaw_raw hl hr pl pr _, fun hc => ⟨.assert, ?_, by simp⟩⟩
  unfold addRaw
  rw [genericBinopRaw_eq (l := .raw l) (r := .raw r) pl pr, if_neg]
  · rfl
  · intro hb
    exact hc ((broadcastable_iff (.raw l) (TL.raw r).shape).1 hb)

example : Compatible [2, 1, 3] [4, 3] ∧ ¬ Compatible [2, 3] [2] := by
  constructor
  · simp [Compatible, padLeft]
  · simp [Compatible, padLeft]

/-- C12: subtraction is addition of the negated right operand, elementwise with broadcasting. -/
theorem C12_sub [Zero T] [Add T] [Neg T] (l r : TL T) (hl : Ok l) (hr : Ok r) (pl : Pos l.shape)
    (pr : Pos r.shape) (t : Raw T) (h : subRaw l r = .ok t) :
    t.shape = bshape l.shape r.shape ∧ WF t ∧
    ∀ idx, InRange t.shape idx → ∃ x y, elem? l (bproj l.shape idx) = some x ∧
      elem? r (bproj r.shape idx) = some y ∧ t.get idx = .ok (x + -y) := by
  unfold subRaw negRaw at h
  rw [genericUnaryOp_eq hr (Or.inr pr)] at h
  simp only [R.bind_ok] at h
  have hw : WF ({ array := (elems r).map (fun v => -v), shape := r.shape } : Raw T) := by
    simp [WF, elems_length hr]
  obtain ⟨hc, h1, h2, h3⟩ := genericBinopRaw_inv hl (r := .raw _) hw pl pr h
  refine ⟨h1, h2, fun idx hi => ?_⟩
  obtain ⟨x, y, hx, hy, hv⟩ := h3 idx hi
  obtain ⟨v, h4, h5⟩ := Raw.get_ok h2 hi
  rw [hv, Option.some.injEq] at h4
  have hin : InRange r.shape (bproj r.shape idx) :=
    bproj_inRange pr (readable_left_right hc (by rw [← h1]; exact hi)).2
  simp only [elem?, Raw.elem?, TL.shape_raw, List.getElem?_map] at hy
  rw [elems_getElem? hr hin] at hy
  cases hz : elem? r (bproj r.shape idx) with
  | none => simp [hz] at hy
  | some z =>
    simp only [hz, Option.map_some, Option.some.injEq] at hy
    exact ⟨x, z, hx, rfl, by rw [h5, ← h4, hy]⟩

/-- C12: subtraction accepts what addition accepts. -/
theorem C12_sub_accepts [Zero T] [Add T] [Neg T] (l r : Raw T) (hl : WF l) (hr : WF r) (pl : Pos l.shape)
    (pr : Pos r.shape) :
    (Compatible l.shape r.shape → ∃ t, subRaw (.raw l) (.raw r) = .ok t) ∧
    (¬ Compatible l.shape r.shape → Panics (subRaw (.raw l) (.raw r))) := by
  have hw : WF ({ array := r.array.map (fun v => -v), shape := r.shape } : Raw T) := by
    simp [WF]; exact hr
  have := C11_add_accepts l { array := r.array.map (fun v => -v), shape := r.shape } hl hw pl pr
  unfold subRaw
  rw [negRaw_raw hr]
  exact this

/-- C12: `a + b = b + a`, including shape and acceptance. -/
theorem C12_add_comm [AddCommMonoid T] (l r : Raw T) (hl : WF l) (hr : WF r) (pl : Pos l.shape)
    (pr : Pos r.shape) : addRaw (.raw l) (.raw r) = addRaw (.raw r) (.raw l) := by
  unfold addRaw
  rw [genericBinopRaw_eq (l := .raw l) (r := .raw r) pl pr, genericBinopRaw_eq (l := .raw r) (r := .raw l) pr pl]
  by_cases hc : Compatible l.shape r.shape
  · rw [if_pos ((broadcastable_iff (.raw l) (TL.raw r).shape).2 hc),
      if_pos ((broadcastable_iff (.raw r) (TL.raw l).shape).2 (compat_symm hc))]
    simp only [TL.shape_raw]
    rw [maxShape_comm r.shape l.shape]
    congr 1
    apply mapM_congr'
    intro idx hi
    rw [maxShape_eq_bshape pl pr hc, mem_allIndices] at hi
    obtain ⟨h1, h2⟩ := readable_left_right hc hi
    have hlt1 : rowMajor l.shape (bproj l.shape idx) < l.array.length := by
      rw [hl]; exact rowMajor_lt (bproj_inRange pl h1)
    have hlt2 : rowMajor r.shape (bproj r.shape idx) < r.array.length := by
      rw [hr]; exact rowMajor_lt (bproj_inRange pr h2)
    simp only [TL.get, Raw.get_readable h1, Raw.get_readable h2, idxR_ok hlt1, idxR_ok hlt2, unwrapR_ok, R.bind_ok]
    rw [add_comm]
  · rw [if_neg (fun hb => hc ((broadcastable_iff (.raw l) (TL.raw r).shape).1 hb)),
      if_neg (fun hb => hc (compat_symm ((broadcastable_iff (.raw r) (TL.raw l).shape).1 hb)))]

/-- C12: `(a + b) + c = a + (b + c)` for operands of one shape. -/
theorem C12_add_assoc [AddCommMonoid T] (a b c : Raw T) (ha : WF a) (hb : WF b) (hc : WF c) (pa : Pos a.shape)
    (hab : a.shape = b.shape) (hbc : b.shape = c.shape) :
    (do let ab ← addRaw (.raw a) (.raw b); addRaw (.raw ab) (.raw c)) =
    (do let bc ← addRaw (.raw b) (.raw c); addRaw (.raw a) (.raw bc)) := by
  rw [addRaw_same ha hb hab pa, addRaw_same hb hc hbc (hab ▸ pa)]
  simp only [R.bind_ok]
  have la : a.array.length = a.shape.prod := ha
  have lb : b.array.length = a.shape.prod := by rw [hab]; exact hb
  have lc : c.array.length = a.shape.prod := by rw [hab, hbc]; exact hc
  rw [addRaw_same (l := ⟨List.zipWith (· + ·) a.array b.array, a.shape⟩) (by simp [WF, la, lb]) hc (hab.trans hbc) pa,
    addRaw_same (r := ⟨List.zipWith (· + ·) b.array c.array, b.shape⟩) ha (by simp [WF, lb, lc, hab]) hab pa]
  congr 2
  apply List.ext_getElem
  · simp [la, lb, lc]
  · intro k _ _
    simp [add_assoc]

/-- C12: `a - a` is the zero tensor. -/
theorem C12_sub_self [CommRing T] (a : Raw T) (ha : WF a) (pa : Pos a.shape) :
    subRaw (.raw a) (.raw a) = .ok (Raw.newWithFiller a.shape 0) := by
  unfold subRaw
  rw [negRaw_raw ha]
  simp only [R.bind_ok]
  rw [addRaw_same (r := ⟨a.array.map (fun v => -v), a.shape⟩) ha (by simp [WF]; exact ha) rfl pa, Raw.newWithFiller_eq]
  congr 2
  apply List.ext_getElem
  · simp; exact ha
  · intro k _ _
    simp

example : WF (⟨[1, 2], [1, 2]⟩ : Raw Int) ∧ WF (⟨[3, 4], [1, 2]⟩ : Raw Int) ∧ Pos [1, 2] :=
  ⟨rfl, rfl, by simp [Pos]⟩

/-! ## multiplication (C13, C14) -/

/-- C13: for two non-scalar operands of the same shape `*` multiplies element by element. -/
theorem C13_mul [Mul T] (l : Raw T) (r : TL T) (hl : WF l) (hr : Ok r) (hp : Pos l.shape)
    (hs : l.shape = r.shape) (hne : l.shape ≠ []) :
    ∃ t, mulRaw l r = .ok t ∧ t.shape = l.shape ∧ WF t ∧
    ∀ idx, InRange l.shape idx → ∃ x y, Raw.elem? l idx = some x ∧ elem? r idx = some y ∧
      t.get idx = .ok (x * y) := by
  unfold mulRaw
  have h1 : l.shape.isEmpty = false := by simpa using hne
  have h2 : ¬ r.shape.length = 0 := by rw [← hs]; simpa using hne
  simp only [h1, Bool.false_eq_true, if_false, h2]
  rw [elementWiseMul_eq (l := .raw l) hl hr hs hp, elems_raw hl]
  have hw : WF ({ array := List.zipWith (fun x y => x * y) l.array (elems r), shape := l.shape } : Raw T) := by
    have : l.array.length = r.shape.prod := by rw [← hs]; exact hl
    simp [WF, elems_length hr, this, hs]
  refine ⟨_, rfl, rfl, hw, fun idx hi => ?_⟩
  obtain ⟨x, hx, _⟩ := Raw.get_ok hl hi
  obtain ⟨y, hy, _⟩ := TL.get_ok hr (by rw [← hs]; exact hi)
  refine ⟨x, y, hx, hy, ?_⟩
  rw [Raw.get_inRange (by simpa using hi)]
  rw [← elems_getElem? hr (by rw [← hs]; exact hi), ← hs] at hy
  exact idxR_eq_ok.2 (by simp only [TL.shape_raw]; rw [List.getElem?_zipWith, hy]; rw [Raw.elem?] at hx; rw [hx])

/-- C13: two non-scalar operands of different shapes are rejected: no broadcasting. -/
theorem C13_mul_rejects [Mul T] (l : Raw T) (r : TL T) (hl : l.shape ≠ []) (hr : r.shape ≠ [])
    (hs : l.shape ≠ r.shape) : Panics (mulRaw l r) := by
  refine ⟨.assert, ?_, by simp⟩
  unfold mulRaw
  have h1 : l.shape.isEmpty = false := by simpa using hl
  have h2 : ¬ r.shape.length = 0 := by simpa using hr
  have h3 : (TL.raw l).sameShape r = false := by simpa [TL.sameShape] using hs
  simp [h1, h2, elementWiseMul, h3, R.panic]

example : WF (⟨[1, 2, 3], [3, 1]⟩ : Raw Int) ∧ Pos [3, 1] ∧ [3, 1] ≠ [1, 3] :=
  ⟨rfl, by simp [Pos], by decide⟩

/-- C14, full statement: scaling on the left, whatever the other operand. -/
def C14_left_statement (T : Type) [Mul T] : Prop :=
  ∀ (s : T) (x : TL T), Ok x → Pos x.shape →
    ∃ t, mulRaw (Raw.scalar s) x = .ok t ∧ t.shape = x.shape ∧
      ∀ idx, InRange x.shape idx → ∃ v, elem? x idx = some v ∧ t.get idx = .ok (s * v)

/-- C14, for tensors (of any rank, zero-length dimensions included). Missing: views, for which the full
statement is false (`C14_view_false`). -/
theorem C14_left_partial [Mul T] (s : T) (x : Raw T) (hx : WF x) :
    mulRaw (Raw.scalar s) (.raw x) = .ok { array := x.array.map (fun v => s * v), shape := x.shape } ∧
    ∀ idx, InRange x.shape idx → ∃ v, Raw.elem? x idx = some v ∧
      ({ array := x.array.map (fun v => s * v), shape := x.shape } : Raw T).get idx = .ok (s * v) := by
  refine ⟨rfl, fun idx hi => ?_⟩
  obtain ⟨v, h1, _⟩ := Raw.get_ok hx hi
  refine ⟨v, h1, ?_⟩
  rw [Raw.get_inRange (by simpa using hi)]
  apply idxR_eq_ok.2
  rw [List.getElem?_map, show x.array[rowMajor x.shape idx]? = some v from h1]
  rfl

/-- C14, scaling on the right, for tensors of rank at least 1 (rank 0 times rank 0 is `C14_left_partial`).
Missing: views as left operand do not exist in the API (`Mul` is only on tensors). -/
theorem C14_right_partial [Mul T] (s : T) (x : Raw T) (hx : WF x) (hne : x.shape ≠ []) :
    mulRaw x (.raw (Raw.scalar s)) = .ok { array := x.array.map (fun v => v * s), shape := x.shape } ∧
    ∀ idx, InRange x.shape idx → ∃ v, Raw.elem? x idx = some v ∧
      ({ array := x.array.map (fun v => v * s), shape := x.shape } : Raw T).get idx = .ok (v * s) := by
  have h1 : x.shape.isEmpty = false := by simpa using hne
  refine ⟨?_, fun idx hi => ?_⟩
  · simp [mulRaw, h1, Raw.scalar, TL.getFirstElem, TL.get, Raw.get, globalIndex, globalIndexLoop, idxR,
      TL.rightScalarMul, TL.tensor]
  · obtain ⟨v, h1, _⟩ := Raw.get_ok hx hi
    refine ⟨v, h1, ?_⟩
    rw [Raw.get_inRange (by simpa using hi)]
    apply idxR_eq_ok.2
    rw [List.getElem?_map, show x.array[rowMajor x.shape idx]? = some v from h1]
    rfl

/-- C14 is false for views: `2 * view([0,1,2,3][2..4])` has first element `2 * 0` instead of `2 * 2`, and four
stored elements for shape `[2]`. -/
theorem C14_view_false : ¬ C14_left_statement Int := by
  intro h
  obtain ⟨t, h1, _, h3⟩ := h 2 (.view { tensor := ⟨[0, 1, 2, 3], [4]⟩, shape := [2], offset := [⟨2, 4⟩] })
    ⟨rfl, .cons (by decide) .nil, rfl⟩ (by simp [Pos, TL.shape])
  have e : mulRaw (Raw.scalar 2) (.view { tensor := (⟨[0, 1, 2, 3], [4]⟩ : Raw Int), shape := [2], offset := [⟨2, 4⟩] })
      = .ok ⟨[0, 2, 4, 6], [2]⟩ := by decide
  rw [e] at h1
  obtain rfl := Except.ok.inj h1
  obtain ⟨v, hv, hg⟩ := h3 [0] (.cons (by decide) .nil)
  have hv' : v = 2 := by
    have : elem? (.view { tensor := (⟨[0, 1, 2, 3], [4]⟩ : Raw Int), shape := [2], offset := [⟨2, 4⟩] }) [0] = some 2 := by
      decide
    rw [this] at hv; exact (Option.some.inj hv).symm
  subst hv'
  exact absurd hg (by decide)

/-- C14, exactly what happens on a view: the *whole* underlying array is scaled, under the shape of the view. -/
theorem C14_view_actual [Mul T] (s : T) (v : View T) :
    mulRaw (Raw.scalar s) (.view v) = .ok { array := v.tensor.array.map (fun e => s * e), shape := v.shape } := rfl

/-- C14: a view that covers its whole tensor is scaled correctly. -/
theorem C14_full_view_partial [Mul T] (s : T) (v : View T) (hv : ViewOk v) (hfull : v.shape = v.tensor.shape) :
    ∃ t, mulRaw (Raw.scalar s) (.view v) = .ok t ∧ t.shape = v.shape ∧
      ∀ idx, InRange v.shape idx → ∃ x, View.elem? v idx = some x ∧ t.get idx = .ok (s * x) := by
  refine ⟨_, rfl, rfl, fun idx hi => ?_⟩
  have hshift : shift v.offset idx = idx := by
    obtain ⟨_, hfit, hsh⟩ := hv
    rw [hsh] at hfull hi
    clear hsh
    have hlen : v.offset.length = idx.length := by simpa using hi.length
    generalize v.offset = rs at *
    generalize v.tensor.shape = ds at *
    induction hfit generalizing idx with
    | nil => cases idx with
      | nil => rfl
      | cons _ _ => simp at hlen
    | @cons r d rs ds hr _ ih =>
      cases idx with
      | nil => simp at hlen
      | cons i is =>
        simp only [List.map_cons, List.cons.injEq] at hfull
        simp only [shift, List.zipWith_cons_cons]
        cases hi with
        | cons _ hi2 =>
          rw [show List.zipWith (fun r i => r.start + i) rs is = is from ih is hi2 (by simpa using hlen) hfull.2]
          congr 1
          omega
  obtain ⟨x, hx, _⟩ := View.get_ok hv hi
  refine ⟨x, hx, ?_⟩
  rw [View.elem?, hshift, Raw.elem?] at hx
  rw [Raw.get_inRange (by simpa [TL.leftScalarMul] using hi)]
  apply idxR_eq_ok.2
  simp only [TL.leftScalarMul, TL.tensor, TL.shape]
  rw [List.getElem?_map, hfull, hx]
  rfl

example : ViewOk { tensor := (⟨[1, 2], [2]⟩ : Raw Int), shape := [2], offset := [⟨0, 2⟩] } :=
  ⟨rfl, .cons (by decide) .nil, rfl⟩

/-! ## unary operations (C15) -/

/-- C15, for any scalar function: same shape, every element mapped. Tensors may have zero-length dimensions. -/
theorem C15_unary (x : TL T) (hx : Ok x) (hp : (∃ t, x = .raw t) ∨ Pos x.shape) (op : T → T) :
    ∃ t, genericUnaryOp x op = .ok t ∧ t.shape = x.shape ∧ WF t ∧
    ∀ idx, InRange x.shape idx → ∃ v, elem? x idx = some v ∧ t.get idx = .ok (op v) := by
  refine ⟨_, genericUnaryOp_eq hx hp op, rfl, by simp [WF, elems_length hx], fun idx hi => ?_⟩
  obtain ⟨v, hv, _⟩ := TL.get_ok hx hi
  refine ⟨v, hv, ?_⟩
  rw [Raw.get_inRange (by simpa using hi)]
  apply idxR_eq_ok.2
  rw [List.getElem?_map, elems_getElem? hx hi, hv]
  rfl

/-- C15: the four operations of the crate. -/
theorem C15_ops [Zero T] [Neg T] [LT T] [DecidableLT T] [RealFn T] (x : TL T) (hx : Ok x)
    (hp : (∃ t, x = .raw t) ∨ Pos x.shape) :
    (∃ t, negRaw x = .ok t ∧ t.shape = x.shape ∧ ∀ idx, InRange x.shape idx →
      ∃ v, elem? x idx = some v ∧ t.get idx = .ok (-v)) ∧
    (∃ t, tanhRaw x = .ok t ∧ t.shape = x.shape ∧ ∀ idx, InRange x.shape idx →
      ∃ v, elem? x idx = some v ∧ t.get idx = .ok (RealFn.tanh v)) ∧
    (∃ t, absRaw x = .ok t ∧ t.shape = x.shape ∧ ∀ idx, InRange x.shape idx →
      ∃ v, elem? x idx = some v ∧ t.get idx = .ok (RealFn.abs v)) ∧
    (∃ t, reluRaw x = .ok t ∧ t.shape = x.shape ∧ ∀ idx, InRange x.shape idx →
      ∃ v, elem? x idx = some v ∧ (v < 0 → t.get idx = .ok 0) ∧ (¬ v < 0 → t.get idx = .ok v)) := by
  refine ⟨?_, ?_, ?_, ?_⟩
  · obtain ⟨t, h1, h2, _, h3⟩ := C15_unary x hx hp (fun v => -v)
    exact ⟨t, h1, h2, h3⟩
  · obtain ⟨t, h1, h2, _, h3⟩ := C15_unary x hx hp (fun v => RealFn.tanh v)
    exact ⟨t, h1, h2, h3⟩
  · obtain ⟨t, h1, h2, _, h3⟩ := C15_unary x hx hp (fun v => RealFn.abs v)
    exact ⟨t, h1, h2, h3⟩
  · obtain ⟨t, h1, h2, _, h3⟩ := C15_unary x hx hp reluFn
    refine ⟨t, h1, h2, fun idx hi => ?_⟩
    obtain ⟨v, h4, h5⟩ := h3 idx hi
    exact ⟨v, h4, fun hn => by rw [h5, reluFn, if_pos hn], fun hn => by rw [h5, reluFn, if_neg hn]⟩

example : Ok (.view { tensor := (⟨[1, 2, 3, 4], [2, 2]⟩ : Raw Int), shape := [1, 2], offset := [⟨1, 2⟩, ⟨0, 2⟩] }) ∧
    Pos [1, 2] := ⟨⟨rfl, .cons (by decide) (.cons (by decide) .nil), rfl⟩, by simp [Pos]⟩

/-! ## sum (C16) and dot (C17) -/

/-- C16: the sum of a tensor (any shape) or of a view (positive dimensions) is the left fold over its elements
in row-major order. -/
theorem C16_sum [Zero T] [Add T] (x : TL T) (hx : Ok x) (hp : (∃ t, x = .raw t) ∨ Pos x.shape) :
    x.sum = .ok { array := [(elems x).foldl (fun acc v => acc + v) 0], shape := [] } := by
  cases x with
  | raw t => rw [elems_raw hx]; rfl
  | view v =>
    have hp : Pos v.shape := by
      rcases hp with ⟨t, ht⟩ | hp
      · exact absurd ht (by simp)
      · exact hp
    simp only [TL.sum]
    rw [forElems_eq (x := .view v) hx hp 0 (fun acc v => acc + v)]
    rfl

/-- C16, test. -/
example : (TL.raw (⟨[1, 2, 3, 4], [2, 2]⟩ : Raw Int)).sum = .ok ⟨[10], []⟩ := by decide

/-- C17, full statement. -/
def C17_statement (T : Type) [Zero T] [Add T] [Mul T] : Prop :=
  ∀ l r : TL T, Ok l → Ok r → Pos l.shape → l.shape = r.shape →
    dotRaw l r = .ok { array := [(List.zipWith (· * ·) (elems l) (elems r)).foldl (· + ·) 0], shape := [1] }

/-- C17 for tensors (any shape, also with zero-length dimensions). Missing: views, for which the full statement
is false (`C17_view_false`). -/
theorem C17_dot_partial [Zero T] [Add T] [Mul T] (l r : Raw T) (hl : WF l) (hr : WF r) :
    (l.shape = r.shape → dotRaw (.raw l) (.raw r) =
      .ok { array := [(List.zipWith (· * ·) l.array r.array).foldl (· + ·) 0], shape := [1] }) ∧
    (l.shape ≠ r.shape → Panics (dotRaw (.raw l) (.raw r))) := by
  refine ⟨dotRaw_raw hl hr, fun hs => ⟨.assert, ?_, by simp⟩⟩
  have : (TL.raw l).sameShape (TL.raw r) = false := by simpa [TL.sameShape] using hs
  simp [dotRaw, this, R.panic]

/-- C17 is false for views: the dot product of a window of length 1 with itself runs over the whole tensor. -/
theorem C17_view_false : ¬ C17_statement Int := by
  intro h
  have h1 := h (.view { tensor := ⟨[3, 4], [2]⟩, shape := [1], offset := [⟨0, 1⟩] })
    (.view { tensor := ⟨[3, 4], [2]⟩, shape := [1], offset := [⟨0, 1⟩] })
    ⟨rfl, .cons (by decide) .nil, rfl⟩ ⟨rfl, .cons (by decide) .nil, rfl⟩ (by simp [Pos, TL.shape]) rfl
  exact absurd h1 (by decide)

example : WF (⟨[1, 2, 3], [3]⟩ : Raw Int) ∧ WF (⟨[4, 5, 6], [3]⟩ : Raw Int) := ⟨rfl, rfl⟩

/-! ## equality (C26) -/

/-- C26: tensors compare equal iff shapes and (with a lawful element comparison) all elements are equal. -/
theorem C26_tensor_eq [DecidableEq T] (a b : Raw T) (ha : WF a) (hb : WF b) :
    a.eq b = true ↔ a.shape = b.shape ∧ ∀ idx, InRange a.shape idx → a.get idx = b.get idx := by
  unfold Raw.eq
  by_cases hs : a.shape = b.shape
  · have h1 : (a.shape != b.shape) = false := by simp [hs]
    rw [h1]
    simp only [Bool.false_eq_true, if_false, hs, true_and]
    constructor
    · intro h
      have : a.array = b.array := by
        by_contra hc
        have : (a.array != b.array) = true := by simpa using hc
        simp [this] at h
      intro idx hi
      rw [Raw.get_inRange hi, Raw.get_inRange (hs ▸ hi), this, hs]
    · intro h
      have : a.array = b.array := by
        apply ext_allIndices (shape := b.shape) (by rw [← hs]; exact ha) hb
        intro idx hi
        have hi' : InRange a.shape idx := by rw [hs]; exact hi
        have e := h idx hi
        rw [Raw.get_inRange hi', Raw.get_inRange hi, hs] at e
        obtain ⟨x, hx, _⟩ := Raw.get_ok ha hi'
        rw [Raw.elem?, hs] at hx
        rw [hx]
        rw [idxR_eq_ok.2 hx] at e
        exact (idxR_eq_ok.1 e.symm).symm
      simp [this]
  · have h1 : (a.shape != b.shape) = true := by simpa using hs
    simp [h1, hs]

/-- C26: gradients and history are irrelevant: comparison only looks at shape and data, and compares data by the
element comparison. -/
theorem C26_tensor_eq_beq [BEq T] (a b : Raw T) :
    a.eq b = (decide (a.shape = b.shape) && a.array == b.array) := by
  unfold Raw.eq
  by_cases hs : a.shape = b.shape
  · have h1 : (a.shape != b.shape) = false := by simp [hs]
    rw [h1]
    cases h2 : (a.array == b.array) <;> simp [bne, h2, hs]
  · have h1 : (a.shape != b.shape) = true := by simpa using hs
    simp [h1, hs]

/-- C26: a view compares equal to a tensor or view iff shapes agree and all elements compare equal; the comparison
always terminates with a Boolean. -/
theorem C26_view_eq [BEq T] (v : View T) (o : TL T) (hv : ViewOk v) (ho : Ok o) (hp : Pos v.shape) :
    ∃ b, v.eq o = .ok b ∧ (b = true ↔ o.shape = v.shape ∧ ∀ idx, InRange v.shape idx →
      ∃ x y, View.elem? v idx = some x ∧ elem? o idx = some y ∧ (x == y) = true) := by
  refine ⟨_, View.eq_eq hv ho hp, ?_⟩
  by_cases hs : o.shape = v.shape
  · simp only [hs, decide_true, Bool.true_and, List.all_eq_true, true_and]
    constructor
    · intro h idx hi
      have hi' : InRange o.shape idx := by rw [hs]; exact hi
      obtain ⟨x, hx, _⟩ := View.get_ok hv hi
      obtain ⟨y, hy, _⟩ := TL.get_ok ho hi'
      refine ⟨x, y, hx, hy, ?_⟩
      apply h (x, y)
      apply List.mem_iff_getElem?.2
      refine ⟨rowMajor v.shape idx, List.getElem?_zip_eq_some.2 ⟨?_, ?_⟩⟩
      · rw [show rowMajor v.shape idx = rowMajor (TL.view v).shape idx from rfl, elems_getElem? (x := .view v) hv hi]
        exact hx
      · rw [← hs, elems_getElem? ho hi']; exact hy
    · rintro h ⟨x, y⟩ hxy
      obtain ⟨p, hp'⟩ := List.mem_iff_getElem?.1 hxy
      obtain ⟨h1, h2⟩ := List.getElem?_zip_eq_some.1 hp'
      have hlt : p < (allIndices v.shape).length := by
        rw [allIndices_length]
        have := elems_length (x := .view v) hv
        simp only [TL.shape_view] at this
        rw [← this]
        exact (List.getElem?_eq_some_iff.1 h1).1
      have hi := inRange_getElem_allIndices hlt
      have hrm := rowMajor_getElem_allIndices hlt
      generalize (allIndices v.shape)[p] = idx at *
      obtain ⟨x', y', hx, hy, he⟩ := h idx hi
      have e1 := elems_getElem? (x := .view v) hv hi
      have e2 := elems_getElem? ho (idx := idx) (by rw [hs]; exact hi)
      rw [TL.shape_view, hrm, h1] at e1
      rw [hs, hrm, h2, hy] at e2
      rw [show elem? (.view v) idx = View.elem? v idx from rfl, hx] at e1
      rw [Option.some.inj e1, Option.some.inj e2]
      exact he
  · simp [hs]

private theorem list_beq_symm [BEq T] [EquivBEq T] : ∀ a b : List T, (a == b) = true → (b == a) = true
  | [], [], _ => rfl
  | [], _ :: _, h => by cases h
  | _ :: _, [], h => by cases h
  | x :: xs, y :: ys, h => by
    simp only [List.cons_beq_cons, Bool.and_eq_true] at h ⊢
    exact ⟨BEq.symm h.1, list_beq_symm xs ys h.2⟩

private theorem list_beq_trans [BEq T] [EquivBEq T] :
    ∀ a b c : List T, (a == b) = true → (b == c) = true → (a == c) = true
  | [], [], _, _, h => h
  | [], _ :: _, _, h, _ => by cases h
  | _ :: _, [], _, h, _ => by cases h
  | _ :: _, _ :: _, [], _, h => by cases h
  | x :: xs, y :: ys, z :: zs, h1, h2 => by
    simp only [List.cons_beq_cons, Bool.and_eq_true] at h1 h2 ⊢
    exact ⟨BEq.trans h1.1 h2.1, list_beq_trans xs ys zs h1.2 h2.2⟩

/-- C26: tensor equality is an equivalence relation when element equality is. -/
theorem C26_equivalence [BEq T] [EquivBEq T] (a b c : Raw T) :
    a.eq a = true ∧ (a.eq b = true → b.eq a = true) ∧ (a.eq b = true → b.eq c = true → a.eq c = true) := by
  simp only [C26_tensor_eq_beq, Bool.and_eq_true, decide_eq_true_eq]
  refine ⟨⟨trivial, BEq.refl _⟩, fun h => ⟨h.1.symm, list_beq_symm _ _ h.2⟩,
    fun h1 h2 => ⟨h1.1.trans h2.1, list_beq_trans _ _ _ h1.2 h2.2⟩⟩

/-- C26, test: same data under different shapes are different tensors. -/
example : (⟨[1, 2], [2]⟩ : Raw Nat).eq ⟨[1, 2], [1, 2]⟩ = false := by decide

end RL
