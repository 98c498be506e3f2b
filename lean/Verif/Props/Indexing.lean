import Verif.Lemmas.Construct

/-!
# C01-C08: indexing, iteration, constructors
-/

namespace RL

open Spec

variable {T : Type}

/-! ## constructors (C07) -/

/-- C07: `new` succeeds iff the lengths agree, and then stores its arguments; otherwise it panics. -/
theorem C07_new (array : List T) (shape : List Nat) :
    (array.length = shape.prod → Raw.new array shape = .ok { array, shape }) ∧
    (array.length ≠ shape.prod → Panics (Raw.new array shape)) := by
  refine ⟨Raw.new_ok, fun h => ⟨.assert, ?_, by simp⟩⟩
  unfold Raw.new
  rw [foldl_mul_eq, Nat.one_mul]
  have : (shape.prod == array.length) = false := by simpa using fun e => h e.symm
  simp [this, R.panic]

example : Raw.new [1, 2, 3, 4, 5, 6] [2, 3] = .ok ⟨[1, 2, 3, 4, 5, 6], [2, 3]⟩ := (C07_new _ _).1 rfl
example : Panics (Raw.new [1, 2, 3] [2, 2]) := (C07_new _ _).2 (by decide)

/-- C07: `new_with_filler` has the given shape, the right number of elements, and every read inside it is
the filler. -/
theorem C07_filler (shape : List Nat) (v : T) :
    (Raw.newWithFiller shape v).shape = shape ∧ WF (Raw.newWithFiller shape v) ∧
    ∀ idx, InRange shape idx → (Raw.newWithFiller shape v).get idx = .ok v := by
  refine ⟨by rw [Raw.newWithFiller_eq], Raw.newWithFiller_wf shape v, fun idx h => ?_⟩
  rw [Raw.newWithFiller_eq, Raw.get_inRange (by simpa using h)]
  have := rowMajor_lt h
  simp [idxR, this]

example : InRange [2, 3] [1, 2] := .cons (by decide) (.cons (by decide) .nil)

/-- C07: `scalar(v)` has shape `[]` and `elem()` returns `v`. -/
theorem C07_scalar (v : T) : (Raw.scalar v).shape = [] ∧ (TL.raw (Raw.scalar v)).elem = .ok v := by
  refine ⟨rfl, ?_⟩
  simp [TL.elem, TL.shape, Raw.scalar, TL.getFirstElem, TL.get, Raw.get, globalIndex, globalIndexLoop, idxR]

/-- C07: on a well-formed tensor `elem()` succeeds iff the tensor has rank 0, and panics otherwise. -/
theorem C07_elem (t : Raw T) (ht : WF t) :
    (t.shape = [] → ∃ v, t.array = [v] ∧ (TL.raw t).elem = .ok v) ∧
    (t.shape ≠ [] → Panics (TL.raw t).elem) := by
  constructor
  · intro hs
    have hl : t.array.length = 1 := by simpa [WF, hs] using ht
    obtain ⟨v, hv⟩ := List.length_eq_one_iff.1 hl
    refine ⟨v, hv, ?_⟩
    simp [TL.elem, TL.shape, TL.getFirstElem, TL.get, Raw.get, globalIndex, globalIndexLoop, idxR, hs, hv]
  · intro hs
    refine ⟨.assert, ?_, by simp⟩
    have : (TL.raw t).shape.isEmpty = false := by simpa [TL.shape] using hs
    simp [TL.elem, this, R.panic]

example : WF (⟨[7], []⟩ : Raw Nat) := rfl
example : WF (⟨[7], [1]⟩ : Raw Nat) ∧ (⟨[7], [1]⟩ : Raw Nat).shape ≠ [] := ⟨rfl, by decide⟩

/-! ## reads (C01-C04) -/

/-- C01: `get` at an in-range index is the element at the row-major position. -/
theorem C01_get_row_major (array : List T) (shape idx : List Nat) (t : Raw T)
    (ht : Raw.new array shape = .ok t) (h : InRange shape idx) :
    ∃ v, array[rowMajor shape idx]? = some v ∧ t.get idx = .ok v := by
  obtain ⟨hl, rfl⟩ := Raw.new_ok_iff.1 ht
  exact Raw.get_ok (t := { array, shape }) hl h

example : Raw.new [10, 11, 12, 13, 14, 15] [2, 3] = .ok ⟨[10, 11, 12, 13, 14, 15], [2, 3]⟩ ∧
    InRange [2, 3] [1, 2] ∧ rowMajor [2, 3] [1, 2] = 5 :=
  ⟨by decide, .cons (by decide) (.cons (by decide) .nil), by decide⟩

/-- C02: on tensors without zero-length dimensions `get` never panics: it returns `Ok` exactly on readable
indices and `Err` on all others. -/
theorem C02_get_total (t : Raw T) (ht : WF t) (hp : Pos t.shape) (idx : List Nat) :
    (Readable t.shape idx → ∃ v, t.get idx = .ok v) ∧
    (¬ Readable t.shape idx → ∃ e, t.get idx = R.err e) := by
  constructor
  · intro h
    have hlt : rowMajor t.shape (bproj t.shape idx) < t.array.length := by
      rw [ht]; exact rowMajor_lt (bproj_inRange hp h)
    exact ⟨_, by rw [Raw.get_readable h, idxR_ok hlt]⟩
  · intro h
    obtain ⟨e, he⟩ := globalIndex_none_err h
    exact ⟨e, by simp [Raw.get, he, R.err]⟩

/-- C02, as an absence of panics. -/
theorem C02_get_no_panic (t : Raw T) (ht : WF t) (hp : Pos t.shape) (idx : List Nat) (p : Panic) :
    t.get idx ≠ R.panic p := by
  by_cases h : Readable t.shape idx
  · obtain ⟨v, hv⟩ := (C02_get_total t ht hp idx).1 h
    simp [hv, R.panic]
  · obtain ⟨v, hv⟩ := (C02_get_total t ht hp idx).2 h
    simp [hv, R.panic, R.err]

/-- C02, test: both cases occur. -/
example : WF (⟨[1, 2, 3, 4], [2, 2]⟩ : Raw Nat) ∧ Pos [2, 2] ∧ Readable [2, 2] [0, 1] ∧ ¬ Readable [2, 2] [0, 2] ∧
    ¬ Readable [2, 2] [1] := by
  refine ⟨rfl, by simp [Pos], ?_, ?_, ?_⟩ <;> simp [Readable]

/-- C03: a readable index reads the element at the right-aligned index, with 0 on length-1 dimensions. -/
theorem C03_broadcast_read (t : Raw T) (ht : WF t) (hp : Pos t.shape) (idx : List Nat)
    (h : Readable t.shape idx) :
    ∃ v, Raw.elem? t (bproj t.shape idx) = some v ∧ t.get idx = .ok v := by
  have hlt : rowMajor t.shape (bproj t.shape idx) < t.array.length := by
    rw [ht]; exact rowMajor_lt (bproj_inRange hp h)
  exact ⟨_, by rw [Raw.elem?, List.getElem?_eq_getElem hlt], by rw [Raw.get_readable h, idxR_ok hlt]⟩

/-- C03, surplus leading components are ignored (whatever they are). -/
theorem C03_surplus (t : Raw T) (pre idx : List Nat) (h : InRange t.shape idx) :
    t.get (pre ++ idx) = t.get idx := by
  have hl := h.length
  have e : (pre ++ idx).length - t.shape.length = pre.length := by simp; omega
  have e2 : t.shape.length - (pre ++ idx).length = 0 := by simp; omega
  have hr : Readable t.shape (pre ++ idx) := by
    unfold Readable
    rw [e, e2]
    simp only [List.take_zero, List.drop_zero, List.drop_left]
    exact ⟨by simp, List.Forall₂.imp (fun _ _ h => Or.inr h) h⟩
  rw [Raw.get_readable hr, Raw.get_readable (readable_of_inRange h)]
  unfold bproj alignRight
  rw [e, e2]
  simp [hl]

/-- C03, a component meeting a length-1 dimension is ignored (whatever it is). -/
theorem C03_len_one (t : Raw T) (as bs is js : List Nat) (n m : Nat) (hs : t.shape = as ++ 1 :: bs)
    (h1 : InRange as is) (h2 : InRange bs js) :
    t.get (is ++ n :: js) = t.get (is ++ m :: js) := by
  have hr : ∀ k, Readable t.shape (is ++ k :: js) := by
    intro k
    rw [readable_of_length (by rw [hs]; simp [h1.length, h2.length]), hs]
    exact List.rel_append (List.Forall₂.imp (fun _ _ h => Or.inr h) h1)
      (.cons (Or.inl rfl) (List.Forall₂.imp (fun _ _ h => Or.inr h) h2))
  rw [Raw.get_readable (hr n), Raw.get_readable (hr m)]
  have e : ∀ k, bproj t.shape (is ++ k :: js) = bproj as is ++ 0 :: bproj bs js := by
    intro k
    unfold bproj
    rw [alignRight_of_length (by rw [hs]; simp [h1.length, h2.length]), alignRight_of_length h1.length,
      alignRight_of_length h2.length, hs, List.zipWith_append h1.length]
    simp
  rw [e, e]

example : Readable [2, 1, 3] [9, 1, 7, 2] ∧ bproj [2, 1, 3] [9, 1, 7, 2] = [1, 0, 2] := by
  refine ⟨?_, by decide⟩
  simp [Readable]

/-- C04: distinct in-range indices are stored at distinct positions ... -/
theorem C04_injective (shape a b : List Nat) (ha : InRange shape a) (hb : InRange shape b)
    (h : globalIndex a shape none = globalIndex b shape none) : a = b := by
  rw [globalIndex_inRange ha, globalIndex_inRange hb] at h
  exact rowMajor_inj ha hb (Except.ok.inj h)

/-- C04: ... and every position below the element count is the position of an in-range index. -/
theorem C04_surjective (shape : List Nat) (p : Nat) (h : p < shape.prod) :
    ∃ idx, InRange shape idx ∧ globalIndex idx shape none = .ok p := by
  have hl : p < (allIndices shape).length := by rw [allIndices_length]; exact h
  refine ⟨_, inRange_getElem_allIndices hl, ?_⟩
  rw [globalIndex_inRange (inRange_getElem_allIndices hl), rowMajor_getElem_allIndices hl]

/-- C04, through the interface: writing at an in-range index changes the element read there, and no other. -/
theorem C04_set_get (t : Raw T) (ht : WF t) (a b : List Nat) (v : T) (ha : InRange t.shape a)
    (hb : InRange t.shape b) :
    ∃ t', t.set a v = .ok t' ∧ t'.shape = t.shape ∧ WF t' ∧ t'.get b = if b = a then .ok v else t.get b := by
  have hlt : rowMajor t.shape a < t.array.length := by rw [ht]; exact rowMajor_lt ha
  have hltb : rowMajor t.shape b < t.array.length := by rw [ht]; exact rowMajor_lt hb
  refine ⟨{ t with array := t.array.set (rowMajor t.shape a) v }, ?_, rfl, by simpa [WF] using ht, ?_⟩
  · simp [Raw.set, globalIndex_inRange ha, hlt]
  · rw [Raw.get_inRange hb, Raw.get_inRange (by simpa using hb)]
    by_cases e : b = a
    · subst e; simp [idxR, hlt]
    · rw [if_neg e]
      have : rowMajor t.shape a ≠ rowMajor t.shape b := fun h => e (rowMajor_inj ha hb h).symm
      simp [idxR, List.getElem?_set, this]

example : InRange [2, 2] [0, 1] ∧ InRange [2, 2] [1, 0] ∧ WF (⟨[1, 2, 3, 4], [2, 2]⟩ : Raw Nat) :=
  ⟨.cons (by decide) (.cons (by decide) .nil), .cons (by decide) (.cons (by decide) .nil), rfl⟩

/-! ## iteration (C05) -/

/-- C05: iteration ends normally, yields exactly the in-range indices, each once, in row-major order. -/
theorem C05_iteration (shape : List Nat) (hp : Pos shape) :
    ∃ L, iterIndices shape = .ok L ∧ L.Nodup ∧ (∀ idx, idx ∈ L ↔ InRange shape idx) ∧
      L.map (rowMajor shape) = List.range shape.prod :=
  ⟨allIndices shape, iterIndices_eq hp, allIndices_nodup shape, fun _ => mem_allIndices,
    map_rowMajor_allIndices shape⟩

/-- C05: a scalar is iterated once, with the empty index. -/
theorem C05_scalar : iterIndices [] = .ok [[]] := iterIndices_eq (by simp [Pos])

example : Pos [2, 3] ∧ iterIndices [2, 3] = .ok [[0, 0], [0, 1], [0, 2], [1, 0], [1, 1], [1, 2]] :=
  ⟨by simp [Pos], iterIndices_eq (by simp [Pos])⟩

/-! ## flat and multi-dimensional indices (C06) -/

/-- C06: a flat position below the element count is converted to an in-range index that converts back. -/
theorem C06_flat_roundtrip (shape : List Nat) (hp : Pos shape) (g : Nat) (hg : g < shape.prod) :
    ∃ idx, tensorIndex g shape = .ok idx ∧ InRange shape idx ∧ globalIndex idx shape none = .ok g := by
  obtain ⟨idx, h1, h2, h3⟩ := tensorIndexLoop_eq shape hp g []
  refine ⟨idx, ?_, h2, ?_⟩
  · simp [tensorIndex, h1, Nat.div_eq_of_lt hg]
  · rw [globalIndex_inRange h2, h3, Nat.mod_eq_of_lt hg]

/-- C06: the converse round trip. -/
theorem C06_index_roundtrip (shape idx : List Nat) (h : InRange shape idx) :
    ∃ g, globalIndex idx shape none = .ok g ∧ g < shape.prod ∧ tensorIndex g shape = .ok idx := by
  refine ⟨rowMajor shape idx, globalIndex_inRange h, rowMajor_lt h, ?_⟩
  obtain ⟨idx', h1, h2, h3⟩ := C06_flat_roundtrip shape (inRange_pos h) _ (rowMajor_lt h)
  rw [globalIndex_inRange h2] at h3
  rw [h1, rowMajor_inj h2 h (Except.ok.inj h3)]

/-- C06: a flat position at or beyond the element count is rejected with `Err`. -/
theorem C06_too_big (shape : List Nat) (hp : Pos shape) (g : Nat) (hg : shape.prod ≤ g) :
    tensorIndex g shape = R.err .tooBig := by
  obtain ⟨idx, h1, _, _⟩ := tensorIndexLoop_eq shape hp g []
  have : 0 < g / shape.prod := Nat.div_pos hg (prod_pos_of_pos hp)
  simp [tensorIndex, h1, this]

example : Pos [2, 3] ∧ 4 < [2, 3].prod ∧ [2, 3].prod ≤ 7 ∧ tensorIndex 4 [2, 3] = .ok [1, 1] :=
  ⟨by simp [Pos], by decide, by decide, by decide⟩

/-! ## nested literals (C08) -/

/-- C08: a nested literal is accepted iff it is non-empty and rectangular at every level; then the tensor has
that shape, is well-formed, and reads like the literal. -/
theorem C08_nested (n : Nat) (v : NVec T n) (s : List Nat) :
    (NVec.HasShape n v s ↔ ∃ t, Raw.fromNested n v = .ok t ∧ t.shape = s) ∧
    ∀ t, Raw.fromNested n v = .ok t → WF t ∧
      ∀ idx, InRange t.shape idx → ∃ x, NVec.elem? n v idx = some x ∧ t.get idx = .ok x := by
  constructor
  · constructor
    · intro h; exact ⟨_, fromNested_ok h, rfl⟩
    · rintro ⟨t, h, rfl⟩; exact fromNested_inv h
  · intro t h
    have hs := fromNested_inv h
    rw [fromNested_ok hs] at h
    have ht := (Except.ok.inj h)
    have hw : WF t := by rw [← ht]; exact flat_length hs
    refine ⟨hw, fun idx hi => ?_⟩
    obtain ⟨x, h1, h2⟩ := Raw.get_ok hw hi
    refine ⟨x, ?_, h2⟩
    rw [← flat_getElem? hs hi, ← h1, Raw.elem?]
    congr 1
    rw [← ht]

/-- C08: everything else panics; in particular the literal is never reported as an `Err`. -/
theorem C08_nested_panics (n : Nat) (v : NVec T n) (h : ∀ s, ¬ NVec.HasShape n v s) :
    Panics (Raw.fromNested n v) := by
  suffices key : ∀ e, Raw.fromNested n v = .error e → ∃ p, e = .panic p ∧ p ≠ .diverge by
    cases hr : Raw.fromNested n v with
    | ok t => exact absurd (fromNested_inv hr) (h _)
    | error e =>
      obtain ⟨p, rfl, hp⟩ := key e hr
      exact ⟨p, rfl, hp⟩
  clear h
  induction n with
  | zero => intro e he; simp [Raw.fromNested] at he
  | succ n ih =>
    intro e he
    have hm : ∀ (l : List (NVec T n)) e, List.mapM (fun u => Raw.fromNested n u) l = .error e →
        ∃ p, e = .panic p ∧ p ≠ .diverge := by
      intro l
      induction l with
      | nil => intro e h; simp at h
      | cons u l ihl =>
        intro e h
        rw [List.mapM_cons] at h
        cases hu : Raw.fromNested n u with
        | error e' =>
          simp only [hu, R.bind_error, Except.error.injEq] at h
          subst h; exact ih u _ hu
        | ok t =>
          cases hl : List.mapM (fun u => Raw.fromNested n u) l with
          | error e' =>
            simp only [hu, hl, R.bind_ok, R.bind_error, Except.error.injEq] at h
            subst h; exact ihl _ hl
          | ok ts => simp [hu, hl] at h
    simp only [Raw.fromNested] at he
    cases hl : List.mapM (fun u => Raw.fromNested n u) v.toList with
    | error e' =>
      simp only [hl, R.bind_error, Except.error.injEq] at he
      subst he; exact hm _ _ hl
    | ok ts =>
      simp only [hl, R.bind_ok, Raw.fromVec] at he
      cases hall : (ts.map (fun t => t.shape)).all
          (fun shape => some shape == (ts.map (fun t => t.shape))[0]?) with
      | false =>
        rw [hall] at he
        simp only [assertR_false, R.panic, R.bind_error, Except.error.injEq] at he
        exact ⟨_, he.symm, by simp⟩
      | true =>
        rw [hall] at he
        simp only [assertR_true, R.bind_ok] at he
        cases hi : idxR (ts.map (fun t => t.shape)) 0 with
        | ok s => simp [hi] at he
        | error f =>
          simp only [hi, R.bind_error, Except.error.injEq] at he
          subst he
          unfold idxR at hi
          split at hi
          · simp at hi
          · simp only [R.panic, Except.error.injEq] at hi
            exact ⟨_, hi.symm, by simp⟩

example : NVec.HasShape (T := Nat) 2 ([[1, 2, 3], [4, 5, 6]] : List (List Nat)) [2, 3] := by
  refine ⟨by simp, [3], rfl, ?_⟩
  intro u hu
  replace hu : @Membership.mem (List Nat) (List (List Nat)) _ [[1, 2, 3], [4, 5, 6]] u := hu
  rcases List.mem_pair.1 hu with rfl | rfl <;> exact ⟨by simp, [], rfl, by intro u _; rfl⟩
/-- C08, test: a ragged literal is rejected. -/
example : Raw.fromNested (T := Nat) 2 ([[1, 2], [3]] : List (List Nat)) = R.panic .assert := by rfl

end RL
