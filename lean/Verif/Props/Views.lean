import Verif.Lemmas.NarrowView
import Verif.Lemmas.Bmm
import Mathlib.Algebra.Ring.Int.Defs

/-!
# C21-C25, C28, C51, C52: views and zero-length dimensions
-/

namespace RL

open Spec

variable {T : Type}

/-! ## creation and reads (C21, C22) -/

/-- C22: a range is created iff its start does not exceed its end. -/
theorem C22_range (s e : Nat) :
    (s ≤ e → SliceRange.new s e = .ok ⟨s, e⟩) ∧ (¬ s ≤ e → Panics (SliceRange.new s e)) := by
  constructor
  · intro h; simp [SliceRange.new, h]
  · intro h; exact ⟨.assert, by simp [SliceRange.new, h, R.panic], by simp⟩

/-- C22: `view`/`slice` on a tensor succeeds iff there is one range per dimension and every range lies inside its
dimension; otherwise it panics. -/
theorem C22_view (t : Raw T) (rs : List SliceRange) (hrs : ∀ r ∈ rs, SliceRange.new r.start r.stop = .ok r) :
    ((rs.length = t.shape.length ∧ ∀ (q : Nat) (r : SliceRange) (d : Nat), rs[q]? = some r → t.shape[q]? = some d →
        r.stop ≤ d) → ∃ v, View.new t rs = .ok v) ∧
    (¬ (rs.length = t.shape.length ∧ ∀ (q : Nat) (r : SliceRange) (d : Nat), rs[q]? = some r → t.shape[q]? = some d →
        r.stop ≤ d) → Panics (View.new t rs)) := by
  have key : RangesFit rs t.shape ↔ (rs.length = t.shape.length ∧ ∀ (q : Nat) (r : SliceRange) (d : Nat),
      rs[q]? = some r → t.shape[q]? = some d → r.stop ≤ d) := by
    unfold RangesFit
    rw [List.forall₂_iff_get]
    refine and_congr_right fun hl => ?_
    constructor
    · intro h q r d h1 h2
      obtain ⟨b1, rfl⟩ := List.getElem?_eq_some_iff.1 h1
      obtain ⟨b2, rfl⟩ := List.getElem?_eq_some_iff.1 h2
      exact (h q b1 b2).2
    · intro h q b1 b2
      refine ⟨?_, h q _ _ (List.getElem?_eq_getElem b1) (List.getElem?_eq_getElem b2)⟩
      have h1 := hrs _ (List.getElem_mem b1)
      by_contra hc
      obtain ⟨p, hp, _⟩ := (C22_range _ _).2 hc
      rw [List.get_eq_getElem] at hp
      rw [hp] at h1
      cases h1
  rw [← key]
  exact ⟨fun h => ⟨_, View.new_ok h⟩, View.new_bad⟩

example : SliceRange.new 1 3 = .ok ⟨1, 3⟩ ∧
    View.new (⟨[1, 2, 3, 4], [4]⟩ : Raw Nat) [⟨1, 3⟩] = .ok ⟨⟨[1, 2, 3, 4], [4]⟩, [2], [⟨1, 3⟩]⟩ := by decide

/-- C21: shape and reads of a view. Every in-range view index reads the base element at the shifted index, through
`get` and through `[]`. -/
theorem C21_view_reads (t : Raw T) (ht : WF t) (rs : List SliceRange) (v : View T) (h : View.new t rs = .ok v) :
    v.shape = rs.map (fun r => r.stop - r.start) ∧ v.tensor = t ∧
    ∀ idx, InRange v.shape idx → InRange t.shape (shift rs idx) ∧
      ∃ x, Raw.elem? t (shift rs idx) = some x ∧ v.get idx = .ok x ∧ v.at idx = .ok x := by
  obtain ⟨hf, rfl⟩ := View.new_inv h
  refine ⟨rfl, rfl, fun idx hi => ⟨(globalIndex_view hf hi).2, ?_⟩⟩
  obtain ⟨x, h1, h2⟩ := View.get_ok (v := ⟨t, rs.map (fun r => r.stop - r.start), rs⟩) ⟨ht, hf, rfl⟩ hi
  refine ⟨x, h1, h2, ?_⟩
  simp only [View.get, View.at, Raw.getWithOffset] at h2 ⊢
  rw [(globalIndex_view hf hi).1] at h2 ⊢
  simp only [unwrapR_ok, R.bind_ok] at h2 ⊢
  rw [h2]
  rfl

/-- C21: a full-length index out of the window in a dimension where the base is longer than 1 panics. -/
theorem C21_out_of_range (t : Raw T) (ht : WF t) (rs : List SliceRange) (v : View T) (h : View.new t rs = .ok v)
    (idx : List Nat) (hl : idx.length = v.shape.length) (q d i n : Nat) (h1 : t.shape[q]? = some d)
    (h2 : idx[q]? = some i) (h3 : v.shape[q]? = some n) (hd : d ≠ 1) (hi : n ≤ i) : Panics (v.get idx) := by
  obtain ⟨hf, rfl⟩ := View.new_inv h
  exact ⟨.unwrap, View.get_bad (v := ⟨t, rs.map (fun r => r.stop - r.start), rs⟩) ⟨ht, hf, rfl⟩ hl h1 h2 h3 hd hi,
    by simp⟩

/-- C21, test: row 1, columns 1..3 of a 2x3 matrix. -/
example : (View.new (⟨[0, 1, 2, 3, 4, 5], [2, 3]⟩ : Raw Nat) [⟨1, 2⟩, ⟨1, 3⟩]).bind (fun v => v.get [0, 1]) = .ok 5 := by
  decide

/-! ## materialising (C23) -/

/-- C23: `to_tensor` of a view. -/
theorem C23_to_tensor [BEq T] [ReflBEq T] [Zero T] [Add T] (v : View T) (hv : ViewOk v) (hp : Pos v.shape) :
    ∃ t, (TL.view v).toTensor = .ok t ∧ t.shape = v.shape ∧ WF t ∧
      (∀ idx, InRange v.shape idx → t.get idx = v.get idx) ∧
      v.eq (.raw t) = .ok true ∧ (TL.raw t).sum = (TL.view v).sum := by
  have hwf : WF ({ array := elems (.view v), shape := v.shape } : Raw T) := elems_length (x := .view v) hv
  refine ⟨_, toTensor_view hv hp, rfl, hwf, ?_, ?_, ?_⟩
  · intro idx hi
    obtain ⟨x, h1, h2⟩ := View.get_ok hv hi
    rw [h2, Raw.get_inRange (by simpa using hi)]
    apply idxR_eq_ok.2
    have := elems_getElem? (x := .view v) hv hi
    exact this.trans h1
  · rw [View.eq_eq hv (o := .raw _) hwf hp]
    rw [elems_raw hwf]
    simp only [TL.shape_raw, decide_true, Bool.true_and]
    congr 1
    rw [List.all_eq_true]
    rintro ⟨x, y⟩ hxy
    obtain ⟨p, h⟩ := List.mem_iff_getElem?.1 hxy
    obtain ⟨h1, h2⟩ := List.getElem?_zip_eq_some.1 h
    rw [h1, Option.some.injEq] at h2
    simp only at h2
    simp [h2]
  · simp only [TL.sum]
    rw [forElems_eq (x := .view v) hv hp 0 (fun acc x => acc + x)]
    rfl

example : ViewOk { tensor := (⟨[0, 1, 2, 3, 4, 5], [2, 3]⟩ : Raw Nat), shape := [1, 2], offset := [⟨1, 2⟩, ⟨1, 3⟩] } ∧
    Pos [1, 2] := ⟨⟨rfl, .cons (by decide) (.cons (by decide) .nil), rfl⟩, by simp [Pos]⟩

/-! ## slicing a view (C24) -/

/-- C24, full statement: slicing a view with ranges that lie inside the view reads the composed elements. -/
def C24_statement (T : Type) : Prop :=
  ∀ (v : View T) (rs : List SliceRange), ViewOk v → RangesFit rs v.shape →
    ∃ w, v.slice rs = .ok w ∧ w.shape = rs.map (fun r => r.stop - r.start) ∧
      ∀ idx, InRange w.shape idx → ∃ x, View.elem? v (shift rs idx) = some x ∧ w.get idx = .ok x

/-- C24 is false: slicing `[0,1,2,3][2..4]` by `0..1` yields element 0 instead of element 2. -/
theorem C24_false : ¬ C24_statement Nat := by
  intro h
  obtain ⟨w, h1, _, h3⟩ := h { tensor := ⟨[0, 1, 2, 3], [4]⟩, shape := [2], offset := [⟨2, 4⟩] } [⟨0, 1⟩]
    ⟨rfl, .cons (by decide) .nil, rfl⟩ (.cons (by decide) .nil)
  have e : View.slice { tensor := (⟨[0, 1, 2, 3], [4]⟩ : Raw Nat), shape := [2], offset := [⟨2, 4⟩] } [⟨0, 1⟩]
      = .ok { tensor := ⟨[0, 1, 2, 3], [4]⟩, shape := [1], offset := [⟨0, 1⟩] } := by decide
  rw [e] at h1
  obtain rfl := Except.ok.inj h1
  obtain ⟨x, hx, hg⟩ := h3 [0] (.cons (by decide) .nil)
  have hx' : View.elem? { tensor := (⟨[0, 1, 2, 3], [4]⟩ : Raw Nat), shape := [2], offset := [⟨2, 4⟩] } (shift [⟨0, 1⟩] [0])
      = some 2 := by decide
  rw [hx', Option.some.injEq] at hx
  subst hx
  exact absurd hg (by decide)

/-- C24, what the code does: the ranges apply to the base tensor, whatever the view was. In particular a slice can
read outside the view. -/
theorem C24_actual (v : View T) (rs : List SliceRange) (hv : ViewOk v) (hrs : RangesFit rs v.tensor.shape) :
    ∃ w, v.slice rs = .ok w ∧ w.shape = rs.map (fun r => r.stop - r.start) ∧
      ∀ idx, InRange w.shape idx → ∃ x, Raw.elem? v.tensor (shift rs idx) = some x ∧ w.get idx = .ok x := by
  refine ⟨_, View.new_ok hrs, rfl, fun idx hi => ?_⟩
  exact View.get_ok (v := ⟨v.tensor, rs.map (fun r => r.stop - r.start), rs⟩) ⟨hv.1, hrs, rfl⟩ hi

theorem rangesFit_trans {rs : List SliceRange} {offset : List SliceRange} {shape : List Nat}
    (h : RangesFit offset shape) (hrs : RangesFit rs (offset.map (fun r => r.stop - r.start))) : RangesFit rs shape := by
  induction h generalizing rs with
  | nil => simpa using hrs
  | @cons o d os ds ho _ ih =>
    cases hrs with
    | cons h1 h2 => exact .cons ⟨h1.1, by have := h1.2; simp only at this; omega⟩ (ih h2)

/-- C24 for views whose every range starts at 0. Missing: views with a non-zero start, where it is false. -/
theorem C24_slice_partial (v : View T) (rs : List SliceRange) (hv : ViewOk v) (hrs : RangesFit rs v.shape)
    (h0 : ∀ r ∈ v.offset, r.start = 0) :
    ∃ w, v.slice rs = .ok w ∧ w.shape = rs.map (fun r => r.stop - r.start) ∧
      ∀ idx, InRange w.shape idx → ∃ x, View.elem? v (shift rs idx) = some x ∧ w.get idx = .ok x := by
  rw [hv.2.2] at hrs
  obtain ⟨w, h1, h2, h3⟩ := C24_actual v rs hv (rangesFit_trans hv.2.1 hrs)
  refine ⟨w, h1, h2, fun idx hi => ?_⟩
  obtain ⟨x, hx, hg⟩ := h3 idx hi
  refine ⟨x, ?_, hg⟩
  rw [← hx, View.elem?]
  congr 1
  have hl1 : rs.length = v.offset.length := by have := hrs.length; simpa using this
  have hl2 : rs.length = idx.length := by have := hi.length; rw [h2] at this; simpa using this
  apply List.ext_getElem
  · simp [shift]; omega
  · intro q b1 b2
    simp only [shift, List.getElem_zipWith]
    rw [h0 _ (List.getElem_mem _), Nat.zero_add]

example : ViewOk { tensor := (⟨[0, 1, 2, 3], [4]⟩ : Raw Nat), shape := [3], offset := [⟨0, 3⟩] } ∧
    RangesFit [⟨1, 2⟩] [3] := ⟨⟨rfl, .cons (by decide) .nil, rfl⟩, .cons (by decide) .nil⟩

/-! ## reshaping a view (C25) -/

/-- C25, acceptance: `reshape` accepts exactly the shapes with the same element count, and only the shape changes. -/
theorem C25_accepts (v : View T) (shape : List Nat) :
    (v.shape.prod = shape.prod → v.reshape shape = .ok { v with shape }) ∧
    (v.shape.prod ≠ shape.prod → Panics (v.reshape shape)) := by
  constructor
  · intro h; simp [View.reshape, h]
  · intro h
    have : (v.shape.prod == shape.prod) = false := by simpa using h
    exact ⟨.assert, by simp [View.reshape, this, R.panic], by simp⟩

/-- C25, full statement of the element order. -/
def C25_statement (T : Type) : Prop :=
  ∀ (v w : View T) (shape : List Nat), ViewOk v → Pos v.shape → Pos shape → v.reshape shape = .ok w →
    ∀ idx idx', InRange v.shape idx → InRange shape idx' → rowMajor v.shape idx = rowMajor shape idx' →
      w.get idx' = v.get idx

/-- C25 is false: after reshaping a view of shape `[4]` to `[2, 2]`, row 1 repeats row 0. -/
theorem C25_false : ¬ C25_statement Nat := by
  intro h
  have := h { tensor := ⟨[0, 1, 2, 3], [4]⟩, shape := [4], offset := [⟨0, 4⟩] }
    { tensor := ⟨[0, 1, 2, 3], [4]⟩, shape := [2, 2], offset := [⟨0, 4⟩] } [2, 2]
    ⟨rfl, .cons (by decide) .nil, rfl⟩ (by simp [Pos]) (by simp [Pos]) (by decide) [2] [1, 0]
    (.cons (by decide) .nil) (.cons (by decide) (.cons (by decide) .nil)) (by decide)
  exact absurd this (by decide)

/-- C25, what the code does: reads ignore the new shape; a reshaped view reads the same element at the same index
list as before. -/
theorem C25_actual (v w : View T) (shape : List Nat) (h : v.reshape shape = .ok w) (idx : List Nat) :
    w.get idx = v.get idx ∧ w.shape = shape := by
  by_cases hp : v.shape.prod = shape.prod
  · rw [(C25_accepts v shape).1 hp] at h
    obtain rfl := Except.ok.inj h
    exact ⟨rfl, rfl⟩
  · obtain ⟨p, hp', _⟩ := (C25_accepts v shape).2 hp
    rw [hp'] at h; cases h

theorem rowMajor_prepend_ones (c : Nat) (shape js idx : List Nat)
    (h : InRange (List.replicate c 1 ++ shape) (js ++ idx)) (hl : js.length = c) :
    js = List.replicate c 0 ∧ rowMajor (List.replicate c 1 ++ shape) (js ++ idx) = rowMajor shape idx := by
  induction c generalizing js with
  | zero => simp at hl; subst hl; simp
  | succ c ih =>
    cases js with
    | nil => simp at hl
    | cons j js =>
      rw [List.replicate_succ, List.cons_append, List.cons_append] at h
      cases h with
      | cons h1 h2 =>
        obtain ⟨h3, h4⟩ := ih js h2 (by simpa using hl)
        have hj : j = 0 := by omega
        subst hj
        refine ⟨by rw [h3, List.replicate_succ], ?_⟩
        rw [List.replicate_succ, List.cons_append, List.cons_append, rowMajor, h4]
        omega

/-- C25 when dimensions of length 1 are put in front (this includes the unchanged shape). Missing: every other
reshape, for which the statement is false in general. -/
theorem C25_prepend_ones_partial (v : View T) (hv : ViewOk v) (c : Nat) :
    ∃ w, v.reshape (List.replicate c 1 ++ v.shape) = .ok w ∧ w.shape = List.replicate c 1 ++ v.shape ∧
      ∀ idx idx', InRange v.shape idx → InRange (List.replicate c 1 ++ v.shape) idx' →
        rowMajor v.shape idx = rowMajor (List.replicate c 1 ++ v.shape) idx' → w.get idx' = v.get idx := by
  refine ⟨{ v with shape := List.replicate c 1 ++ v.shape }, (C25_accepts v _).1 (by simp), rfl, ?_⟩
  intro idx idx' hi hi' hrm
  have hl' := hi'.length
  simp only [List.length_append, List.length_replicate] at hl'
  rw [← List.take_append_drop c idx'] at hi' hrm
  have hlt : (idx'.take c).length = c := by simp; omega
  obtain ⟨h1, h2⟩ := rowMajor_prepend_ones c v.shape _ _ hi' hlt
  have hdrop : InRange v.shape (idx'.drop c) := by
    have := hi'
    unfold InRange at this ⊢
    have h3 := List.forall₂_drop c this
    simpa [hlt] using h3
  rw [h2] at hrm
  have he := rowMajor_inj hi hdrop hrm
  -- the surplus leading components are ignored by the read
  have hlen := hv.length
  unfold View.get
  simp only
  have : globalIndex idx' v.tensor.shape (some v.offset) = globalIndex idx v.tensor.shape (some v.offset) := by
    rw [globalIndex_some hv.2.1, globalIndex_some hv.2.1]
    have hli := hi.length
    rw [show v.tensor.shape.length - idx'.length = 0 by omega, show v.tensor.shape.length - idx.length = 0 by omega]
    have : trips idx' v.tensor.shape v.offset = trips idx v.tensor.shape v.offset := by
      unfold trips
      rw [show v.tensor.shape.length - idx'.length = 0 by omega, show v.tensor.shape.length - idx.length = 0 by omega,
        show idx.length - v.tensor.shape.length = 0 by omega, show idx'.length - v.tensor.shape.length = c by omega, he]
      rfl
    rw [this]
  rw [this]

/-! ## zero-length dimensions (C28, C52) -/

/-- C28: iterating a shape with a zero-length dimension panics. -/
theorem C28_iterate (shape : List Nat) (h : ¬ Pos shape) : Panics (iterIndices shape) :=
  ⟨.overflow, forIndices_zero_dim _ (fun acc idx => acc ++ [idx]) (fun _ _ => rfl) shape h [], by simp⟩

/-- C28: adding tensors panics if one of them has a zero-length dimension. -/
theorem C28_add [Zero T] [Add T] (l r : Raw T) (h : ¬ Pos l.shape ∨ ¬ Pos r.shape) :
    Panics (addRaw (.raw l) (.raw r)) := by
  unfold addRaw genericBinopRaw
  by_cases hb : (TL.raw l).broadcastable (TL.raw r).shape = true
  swap
  · have : (TL.raw l).broadcastable (TL.raw r).shape = false := by simpa using hb
    exact ⟨.assert, by rw [this]; rfl, by simp⟩
  rw [hb]
  simp only [assertR_true, R.bind_ok]
  have hlen : (maxShape l.shape r.shape).length = max l.shape.length r.shape.length := maxShape_length _ _
  have key : ∃ p, p ≠ Panic.diverge ∧ (do
      let a ← unwrapR (l.get (List.replicate (maxShape l.shape r.shape).length 0))
      let b ← unwrapR (r.get (List.replicate (maxShape l.shape r.shape).length 0))
      unwrapR ((Raw.newWithFiller (maxShape l.shape r.shape) (0 : T)).set
        (List.replicate (maxShape l.shape r.shape).length 0) (a + b))) = .error (.panic p) := by
    rcases Raw.get_not_diverge l (List.replicate (maxShape l.shape r.shape).length 0) with ⟨a, ha⟩ | ⟨e, he⟩ | hp
    · rw [ha]
      have hl : Pos l.shape := by
        by_contra hc
        obtain ⟨e, he⟩ := Raw.get_zero_dim hc (idx := List.replicate (maxShape l.shape r.shape).length 0)
          (by simp [hlen])
        rw [he] at ha; cases ha
      obtain ⟨e, he⟩ := Raw.get_zero_dim (h.resolve_left (not_not.2 hl))
        (idx := List.replicate (maxShape l.shape r.shape).length 0) (by simp [hlen])
      rw [he]
      exact ⟨.unwrap, by simp, rfl⟩
    · rw [he]; exact ⟨.unwrap, by simp, rfl⟩
    · rw [hp]; exact ⟨.index, by simp, rfl⟩
  obtain ⟨p, hp, hk⟩ := key
  exact ⟨p, forIndices_first _ _ _ hk, hp⟩

/-- C28: elementwise multiplication of two non-scalar tensors panics if one of them has a zero-length dimension. -/
theorem C28_mul [Mul T] (l r : Raw T) (hl : l.shape ≠ []) (hr : r.shape ≠ [])
    (h : ¬ Pos l.shape ∨ ¬ Pos r.shape) : Panics (mulRaw l (.raw r)) := by
  unfold mulRaw elementWiseMul
  have h1 : l.shape.isEmpty = false := by simpa using hl
  have h2 : ¬ (TL.raw r).shape.length = 0 := by simpa using hr
  simp only [h1, Bool.false_eq_true, if_false, h2]
  by_cases hs : l.shape = r.shape
  swap
  · have : (TL.raw l).sameShape (TL.raw r) = false := by simpa [TL.sameShape] using hs
    exact ⟨.assert, by rw [this]; rfl, by simp⟩
  have : (TL.raw l).sameShape (TL.raw r) = true := by simpa [TL.sameShape] using hs
  rw [this]
  simp only [assertR_true, R.bind_ok]
  have hz : ¬ Pos l.shape := by rcases h with h | h; exact h; rw [hs]; exact h
  obtain ⟨e, he⟩ := Raw.get_zero_dim hz (idx := List.replicate l.shape.length 0) (by simp)
  refine ⟨.unwrap, ?_, by simp⟩
  rw [forIndices_first]
  · rfl
  · simp [TL.get, he, R.err, R.panic]

/-- C28: `neg` and `sum` of a tensor with a zero-length dimension succeed: no elements, and zero. -/
theorem C28_neg_sum [Zero T] [Add T] [Neg T] (t : Raw T) (ht : WF t) (h : ¬ Pos t.shape) :
    negRaw (.raw t) = .ok { array := [], shape := t.shape } ∧ (TL.raw t).sum = .ok { array := [0], shape := [] } := by
  have h0 : t.shape.prod = 0 := by
    by_contra hc
    exact h (pos_of_prod_pos (Nat.pos_of_ne_zero hc))
  have ha : t.array = [] := by
    rw [← List.length_eq_zero_iff]
    exact ht.trans h0
  refine ⟨?_, ?_⟩
  · rw [negRaw_raw ht, ha]; rfl
  · simp [TL.sum, ha, Raw.scalar]

/-- C28: `bmm` with an empty inner dimension is the zero matrix. -/
theorem C28_bmm [Zero T] [Add T] [Mul T] (l r : TL T) (hl : Ok l) (hr : Ok r) (m n : Nat)
    (hls : l.shape = [m, 0]) (hrs : r.shape = [0, n]) :
    bmmRaw l r = .ok { array := List.replicate (m * n) 0, shape := [m, n] } := by
  rw [bmmRaw2_eq hl hr hls hrs]
  congr 2
  rw [List.eq_replicate_iff]
  refine ⟨by simp [allIndices_length], ?_⟩
  intro b hb
  simp [dotFold] at hb
  exact hb.2

example : WF (⟨[], [2, 0]⟩ : Raw Int) ∧ ¬ Pos [2, 0] := ⟨rfl, by simp [Pos]⟩

/-- C52, full statement: adding a view with a zero-length dimension never returns a result with elements. -/
def C52_statement (T : Type) [Zero T] [Add T] : Prop :=
  ∀ (l : Raw T) (v : View T), WF l → ViewOk v → ¬ Pos v.shape → ∀ t, addRaw (.raw l) (.view v) = .ok t → t.array = []

/-- C52 is false: an empty range `0..0` of a length-1 dimension is read as if it had length 1. -/
theorem C52_false : ¬ C52_statement Int := by
  intro h
  have := h ⟨[1], [1]⟩ { tensor := ⟨[5], [1]⟩, shape := [0], offset := [⟨0, 0⟩] } rfl
    ⟨rfl, .cons (by decide) .nil, rfl⟩ (by simp [Pos]) ⟨[6], [1]⟩ (by decide)
  exact absurd this (by decide)

/-- C52: the addition panics if the shapes are not compatible, if the tensor has a zero-length dimension, if the view has a zero-length
dimension to the left of those of the tensor, or if an empty range belongs to a dimension of length other than 1.
Missing: the remaining case, where C52 is false; see `C52_actual`. -/
theorem C52_partial [Zero T] [Add T] (l : Raw T) (v : View T) (hv : ViewOk v)
    (h : ¬ Compatible l.shape v.shape ∨ ¬ Pos l.shape ∨ ¬ Pos (v.shape.take (v.shape.length - l.shape.length)) ∨
      ¬ List.Forall₂ (fun r d => r.stop = r.start → d = 1) v.offset v.tensor.shape) :
    Panics (addRaw (.raw l) (.view v)) := by
  rcases h with h | h
  · refine ⟨.assert, ?_, by simp⟩
    have : (TL.raw l).broadcastable (TL.view v).shape = false := by
      rw [Bool.eq_false_iff]
      exact fun hb => h ((broadcastable_iff (.raw l) v.shape).1 hb)
    unfold addRaw genericBinopRaw
    rw [this]
    rfl
  apply addRaw_first
  have hlen : (maxShape (TL.raw l).shape (TL.view v).shape).length = max l.shape.length v.shape.length := maxShape_length _ _
  have hvl : v.shape.length = v.tensor.shape.length := by rw [hv.2.2, List.length_map, hv.2.1.length_eq]
  simp only [TL.get]
  rcases Raw.get_not_diverge l (List.replicate (maxShape (TL.raw l).shape (TL.view v).shape).length 0) with ⟨a, ha⟩ | ⟨e, he⟩ | hp
  · rw [ha]
    have hl : Pos l.shape := by
      by_contra hc
      obtain ⟨e, he⟩ := Raw.get_zero_dim hc (idx := List.replicate (maxShape (TL.raw l).shape (TL.view v).shape).length 0) (by
        rw [List.length_replicate, hlen]
        omega)
      rw [he] at ha
      cases ha
    by_cases hf : List.Forall₂ (fun r d => r.stop = r.start → d = 1) v.offset v.tensor.shape
    · have ht := (h.resolve_left (not_not.2 hl)).resolve_right (not_not.2 hf)
      rw [← widen_get hv hf]
      obtain ⟨hw, pw⟩ := widen_ok hv hf
      simp only [unwrapR_ok, R.bind_ok]
      cases hg : (widen v).get (List.replicate (maxShape (TL.raw l).shape (TL.view v).shape).length 0) with
      | ok b =>
        obtain ⟨e, he⟩ := newWithFiller_set_zero (T := T) (s := maxShape (TL.raw l).shape (TL.view v).shape) (fun hp => ht (maxShape_take hp))
          (idx := List.replicate (maxShape (TL.raw l).shape (TL.view v).shape).length 0) (by simp) (a + b)
        simp only [unwrapR_ok, R.bind_ok, he]
        exact ⟨.unwrap, by simp, rfl⟩
      | error f =>
        obtain ⟨x, hx⟩ := view_get_zeros hw pw (n := (maxShape (TL.raw l).shape (TL.view v).shape).length) (by
          rw [hlen]
          simp only [widen, List.length_map]
          omega)
        rw [hx] at hg
        cases hg
    · obtain ⟨p, hp, he⟩ := View.get_empty hv hf (idx := List.replicate (maxShape (TL.raw l).shape (TL.view v).shape).length 0) (by
        rw [List.length_replicate, hlen]
        omega)
      rw [he]
      exact ⟨p, hp, rfl⟩
  · rw [he]
    exact ⟨.unwrap, by simp, rfl⟩
  · rw [hp]
    exact ⟨.index, by simp, rfl⟩

/-- C52, what happens in all other cases: empty ranges are treated as the range `0..1`. -/
theorem C52_actual [Zero T] [Add T] (l : Raw T) (v : View T) (hv : ViewOk v) (hc : Compatible l.shape v.shape) (hl : Pos l.shape)
    (ht : Pos (v.shape.take (v.shape.length - l.shape.length)))
    (hf : List.Forall₂ (fun r d => r.stop = r.start → d = 1) v.offset v.tensor.shape) :
    ViewOk (widen v) ∧ Pos (widen v).shape ∧ addRaw (.raw l) (.view v) = addRaw (.raw l) (.view (widen v)) := by
  obtain ⟨hw, pw⟩ := widen_ok hv hf
  refine ⟨hw, pw, ?_⟩
  have b1 : (TL.raw l).broadcastable (TL.view v).shape = true := (broadcastable_iff (.raw l) v.shape).2 hc
  have b2 : (TL.raw l).broadcastable (TL.view (widen v)).shape = true :=
    (broadcastable_iff (.raw l) (widen v).shape).2 (compatible_widen hl hc)
  have hm : maxShape (TL.raw l).shape (TL.view (widen v)).shape = maxShape (TL.raw l).shape (TL.view v).shape := maxShape_widen hl ht
  unfold addRaw genericBinopRaw
  rw [b1, b2, hm]
  simp only [TL.get, widen_get hv hf]

/-- C52, test: the empty range `0..0` of a dimension of length 1, in a tensor of shape [1, 2], added to a tensor of shape [1, 1]. -/
example : ViewOk ({ tensor := ⟨[5, 7], [1, 2]⟩, shape := [0, 2], offset := [⟨0, 0⟩, ⟨0, 2⟩] } : View Int) ∧ Compatible [1, 1] [0, 2] ∧
    List.Forall₂ (fun r d => r.stop = r.start → d = 1) [(⟨0, 0⟩ : SliceRange), ⟨0, 2⟩] [1, 2] ∧
    addRaw (.raw (⟨[1], [1, 1]⟩ : Raw Int)) (.view { tensor := ⟨[5, 7], [1, 2]⟩, shape := [0, 2], offset := [⟨0, 0⟩, ⟨0, 2⟩] }) = .ok ⟨[6, 8], [1, 2]⟩ :=
  ⟨⟨rfl, .cons (by decide) (.cons (by decide) .nil), rfl⟩, .cons (by simp) (.cons (by simp) .nil), .cons (by simp) (.cons (by simp) .nil), by decide⟩

/-- C52, test: the empty range `1..1` of a dimension of length 2. -/
example : ViewOk ({ tensor := ⟨[5, 7], [2]⟩, shape := [0], offset := [⟨1, 1⟩] } : View Int) ∧
    ¬ List.Forall₂ (fun r d => r.stop = r.start → d = 1) [(⟨1, 1⟩ : SliceRange)] [2] :=
  ⟨⟨rfl, .cons (by decide) .nil, rfl⟩, by simp⟩

/-! ## views as operands of broadcasting (C51) -/

/-- C51, full statement: in an addition a view can be replaced by the tensor it materialises to. -/
def C51_statement (T : Type) [Zero T] [Add T] : Prop :=
  ∀ (l : Raw T) (v : View T) (t : Raw T), WF l → Pos l.shape → ViewOk v → Pos v.shape →
    (TL.view v).toTensor = .ok t → addRaw (.raw l) (.view v) = addRaw (.raw l) (.raw t)

/-- C51 is false: a view that narrows a dimension to length 1 does not broadcast. -/
theorem C51_false : ¬ C51_statement Int := by
  intro h
  have := h ⟨[10, 20], [2]⟩ { tensor := ⟨[1, 2], [2]⟩, shape := [1], offset := [⟨0, 1⟩] } ⟨[1], [1]⟩ rfl (by simp [Pos])
    ⟨rfl, .cons (by decide) .nil, rfl⟩ (by simp [Pos]) (by decide)
  exact absurd this (by decide)

/-- C51 for views that narrow no dimension to length 1. Missing: views that do, where it is false. -/
theorem C51_partial [Zero T] [Add T] (l : Raw T) (v : View T) (t : Raw T) (hl : WF l) (pl : Pos l.shape)
    (hv : ViewOk v) (hp : Pos v.shape) (ht : (TL.view v).toTensor = .ok t)
    (hn : List.Forall₂ (fun n d => n = 1 → d = 1) v.shape v.tensor.shape) :
    addRaw (.raw l) (.view v) = addRaw (.raw l) (.raw t) := by
  rw [toTensor_view hv hp] at ht
  obtain rfl := Except.ok.inj ht
  unfold addRaw
  rw [genericBinopRaw_eq (l := .raw l) (r := .view v) pl hp, 
    genericBinopRaw_eq (l := .raw l) (r := .raw { array := elems (.view v), shape := v.shape }) pl hp]
  by_cases hb : (TL.raw l).broadcastable (TL.view v).shape = true
  swap
  · have hb' : ¬ (TL.raw l).broadcastable (TL.raw { array := elems (.view v), shape := v.shape }).shape = true := hb
    rw [if_neg hb, if_neg hb']
  have hb' : (TL.raw l).broadcastable (TL.raw { array := elems (.view v), shape := v.shape }).shape = true := hb
  rw [if_pos hb, if_pos hb']
  have hc := (broadcastable_iff (.raw l) v.shape).1 hb
  refine congrArg (fun (z : R (List T)) => z >>= fun a => (pure ⟨a, maxShape l.shape v.shape⟩ : R (Raw T))) ?_
  apply mapM_congr'
  intro idx hi
  simp only [TL.shape_raw] at hc
  simp only [TL.shape_view, TL.shape_raw] at hi
  rw [maxShape_eq_bshape pl hp hc, mem_allIndices] at hi
  have hr := (readable_left_right hc hi).2
  obtain ⟨x, hx, hg⟩ := View.get_broadcast hv hp hn hr
  have h2 : (TL.raw { array := elems (.view v), shape := v.shape }).get idx = .ok x := by
    simp only [TL.get]
    rw [Raw.get_readable (t := { array := elems (.view v), shape := v.shape }) hr]
    apply idxR_eq_ok.2
    exact (elems_getElem? (x := .view v) hv (bproj_inRange hp hr)).trans hx
  rw [h2, show (TL.view v).get idx = .ok x from hg]

/-- C51, all cases: positions are counted from the right. If the view narrows a dimension to length 1 where the tensor has a length other
than 1, the addition panics; otherwise C51 holds. -/
theorem C51_actual [Zero T] [Add T] (l : Raw T) (v : View T) (t : Raw T) (hl : WF l) (pl : Pos l.shape)
    (hv : ViewOk v) (hp : Pos v.shape) (ht : (TL.view v).toTensor = .ok t) :
    ((∀ k d n : Nat, v.shape.reverse[k]? = some 1 → v.tensor.shape.reverse[k]? = some d → l.shape.reverse[k]? = some n → d = 1 ∨ n = 1) →
      addRaw (.raw l) (.view v) = addRaw (.raw l) (.raw t)) ∧
    (¬ (∀ k d n : Nat, v.shape.reverse[k]? = some 1 → v.tensor.shape.reverse[k]? = some d → l.shape.reverse[k]? = some n → d = 1 ∨ n = 1) →
      Panics (addRaw (.raw l) (.view v))) := by
  rw [toTensor_view hv hp] at ht
  obtain rfl := Except.ok.inj ht
  have hbl : (bshape l.shape v.shape).length = max l.shape.length v.shape.length := by simp [bshape, padLeft_length]
  constructor
  · intro hn
    unfold addRaw
    rw [genericBinopRaw_eq (l := .raw l) (r := .view v) pl hp, 
      genericBinopRaw_eq (l := .raw l) (r := .raw { array := elems (.view v), shape := v.shape }) pl hp]
    by_cases hb : (TL.raw l).broadcastable (TL.view v).shape = true
    swap
    · have hb' : ¬ (TL.raw l).broadcastable (TL.raw { array := elems (.view v), shape := v.shape }).shape = true := hb
      rw [if_neg hb, if_neg hb']
    have hb' : (TL.raw l).broadcastable (TL.raw { array := elems (.view v), shape := v.shape }).shape = true := hb
    rw [if_pos hb, if_pos hb']
    have hc := (broadcastable_iff (.raw l) v.shape).1 hb
    refine congrArg (fun (z : R (List T)) => z >>= fun a => (pure ⟨a, maxShape l.shape v.shape⟩ : R (Raw T))) ?_
    apply mapM_congr'
    intro idx hi
    simp only [TL.shape_raw] at hc
    simp only [TL.shape_view, TL.shape_raw] at hi
    rw [maxShape_eq_bshape pl hp hc, mem_allIndices] at hi
    have hr := (readable_left_right hc hi).2
    obtain ⟨x, hx, hg⟩ := (View.get_cases hv hp (by rw [← hi.length, hbl]; omega) hr).1 (by
      intro k d i h1 h2 h3
      have h4 := bshapeR_one l.shape.reverse _ k h1
      rw [← bshape_reverse] at h4
      have h5 : i < l.shape.reverse[k]?.getD 1 := by
        have h6 := List.forall₂_reverse_iff.2 hi
        obtain ⟨a, e1⟩ := List.getElem?_eq_some_iff.1 h4
        obtain ⟨b, e2⟩ := List.getElem?_eq_some_iff.1 h3
        have := (List.forall₂_iff_get.1 h6).2 k a b
        simp only [List.get_eq_getElem, e1, e2] at this
        exact this
      cases h7 : l.shape.reverse[k]? with
      | none =>
        rw [h7] at h5
        simp only [Option.getD_none] at h5
        omega
      | some n =>
        rw [h7] at h5
        simp only [Option.getD_some] at h5
        have := hn k d n h1 h2 h7
        omega)
    have h2 : (TL.raw { array := elems (.view v), shape := v.shape }).get idx = .ok x := by
      simp only [TL.get]
      rw [Raw.get_readable (t := { array := elems (.view v), shape := v.shape }) hr]
      apply idxR_eq_ok.2
      exact (elems_getElem? (x := .view v) hv (bproj_inRange hp hr)).trans hx
    rw [h2, show (TL.view v).get idx = .ok x from hg]
  · intro hn
    push Not at hn
    obtain ⟨k, d, n, h1, h2, h3, h4, h5⟩ := hn
    unfold addRaw
    rw [genericBinopRaw_eq (l := .raw l) (r := .view v) pl hp]
    by_cases hb : (TL.raw l).broadcastable (TL.view v).shape = true
    swap
    · rw [if_neg hb]
      exact ⟨.assert, rfl, by simp⟩
    rw [if_pos hb]
    have hc := (broadcastable_iff (.raw l) v.shape).1 hb
    simp only [TL.shape_raw] at hc
    simp only [TL.shape_view, TL.shape_raw]
    rw [maxShape_eq_bshape pl hp hc]
    have hpb : Pos (bshape l.shape v.shape) := by
      rw [← maxShape_eq_bshape pl hp hc]
      exact maxShape_pos pl hp
    have h6 := bshapeR_one l.shape.reverse _ k h1
    rw [← bshape_reverse, h3] at h6
    simp only [Option.getD_some] at h6
    obtain ⟨hk, h7⟩ := List.getElem?_eq_some_iff.1 h6
    rw [List.length_reverse] at hk
    rw [List.getElem_reverse] at h7
    have hn0 : 0 < n := pl n (by
      have := List.mem_of_getElem? h3
      simpa using this)
    have hL : ∀ idx ∈ allIndices (bshape l.shape v.shape), (∃ x, (TL.raw l).get idx = .ok x) ∧
        v.shape.length ≤ idx.length ∧ Readable v.shape idx := by
      intro idx hi
      rw [mem_allIndices] at hi
      obtain ⟨r1, r2⟩ := readable_left_right hc hi
      refine ⟨?_, by rw [← hi.length, hbl]; omega, r2⟩
      simp only [TL.get]
      rw [Raw.get_readable r1]
      have hlt : rowMajor l.shape (bproj l.shape idx) < l.array.length := by
        rw [show l.array.length = l.shape.prod from hl]
        exact rowMajor_lt (bproj_inRange pl r1)
      exact ⟨_, idxR_ok hlt⟩
    rw [mapM_fails (e := .panic .unwrap)]
    · exact ⟨.unwrap, rfl, by simp⟩
    · intro idx hi
      obtain ⟨⟨x, hx⟩, g1, g2⟩ := hL idx hi
      rw [hx]
      by_cases hq : ∀ k d i : Nat, v.shape.reverse[k]? = some 1 → v.tensor.shape.reverse[k]? = some d → idx.reverse[k]? = some i → d = 1 ∨ i = 0
      · obtain ⟨y, _, hy⟩ := (View.get_cases hv hp g1 g2).1 hq
        simp only [TL.get, hy]
        exact Or.inl ⟨_, rfl⟩
      · simp only [TL.get, (View.get_cases hv hp g1 g2).2 hq]
        exact Or.inr rfl
    · have hi : (List.replicate (bshape l.shape v.shape).length 0).set ((bshape l.shape v.shape).length - 1 - k) 1 ∈ allIndices (bshape l.shape v.shape) := by
        rw [mem_allIndices, InRange, List.forall₂_iff_get]
        refine ⟨by simp, fun j a b => ?_⟩
        simp only [List.get_eq_getElem, List.getElem_set, List.getElem_replicate]
        split
        · rename_i he
          subst he
          rw [h7]
          omega
        · exact hpb _ (List.getElem_mem a)
      refine ⟨_, hi, ?_⟩
      obtain ⟨⟨x, hx⟩, g1, g2⟩ := hL _ hi
      rw [hx]
      simp only [TL.get]
      rw [(View.get_cases hv hp g1 g2).2]
      · rfl
      · intro hq
        have := hq k d 1 h1 h2 (by
          rw [List.getElem?_reverse (by simpa using hk)]
          simp only [List.length_set, List.length_replicate]
          rw [List.getElem?_set_self (by simp; omega)])
        omega

example : List.Forall₂ (fun n d => n = 1 → d = 1) [2, 1] [5, 1] := .cons (by simp) (.cons (by simp) .nil)

end RL
