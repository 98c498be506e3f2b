import Verif.Lemmas.Machine

/-!
# `usize` arithmetic (C71)
-/

namespace RL

open Spec

variable {T : Type}

/-- C71, full statement: with 64 bit arithmetic `new` accepts the same arguments as with unbounded numbers. It is false in both
profiles: see `C71_false`. -/
def C71_statement (p : Profile) : Prop := ∀ (array : List Nat) (shape : List Nat), array.length < 2 ^ 64 → (∀ d ∈ shape, d < 2 ^ 64) →
  Raw.newU p array shape = Raw.new array shape

/-- C71 is false. Release profile: an empty array is accepted for the shape `[2^32, 2^32]`. Debug profile: it is not accepted for
`[2^63, 4, 0]`. -/
theorem C71_false (p : Profile) : ¬ C71_statement p := by
  intro h
  cases p with
  | debug =>
    have := h [] [2 ^ 63, 4, 0] (by decide) (by decide)
    exact absurd this (by decide)
  | release =>
    have := h [] [2 ^ 32, 2 ^ 32] (by decide) (by decide)
    exact absurd this (by decide)

/-- C71 for shapes whose dimensions, zeros left out, have a product below `2^64`. Missing: other shapes; what happens for them is in
`C71_debug` and `C71_release`. -/
theorem C71_partial (p : Profile) (array : List T) (shape : List Nat) (h : Fits shape) : Raw.newU p array shape = Raw.new array shape := by
  rw [Raw.newU, prodU_fits h, R.bind_ok, Raw.new, foldl_mul_eq, one_mul]

/-- C71: in the debug profile `new` accepts exactly the arguments that fit and for which no intermediate product overflows. So it
accepts nothing wrong. -/
theorem C71_debug (array : List T) (shape : List Nat) (t : Raw T) : Raw.newU .debug array shape = .ok t ↔
    (t = ⟨array, shape⟩ ∧ WF t ∧ ∀ k, (shape.take k).prod < 2 ^ 64) := by
  rw [Raw.newU]
  simp only [R.bind_eq_ok, prodU, foldlM_debug _ _ _ (show 1 < 2 ^ 64 by norm_num), one_mul, R.pure_eq_ok]
  constructor
  · rintro ⟨n, ⟨rfl, h1⟩, ⟨⟩, h2, rfl⟩
    rw [assertR_eq_ok, beq_iff_eq] at h2
    exact ⟨rfl, h2.symm, h1⟩
  · rintro ⟨rfl, h1, h2⟩
    exact ⟨_, ⟨rfl, h2⟩, (), by rw [assertR_eq_ok, beq_iff_eq]; exact h1.symm, rfl⟩

/-- C71: in the release profile it accepts everything that fits modulo `2^64`. -/
theorem C71_release (array : List T) (shape : List Nat) (t : Raw T) : Raw.newU .release array shape = .ok t ↔
    (t = ⟨array, shape⟩ ∧ array.length = shape.prod % 2 ^ 64) := by
  rw [Raw.newU, prodU, foldlM_release _ _ (by norm_num), R.bind_ok, one_mul]
  simp only [R.bind_eq_ok, R.pure_eq_ok]
  constructor
  · rintro ⟨⟨⟩, h1, rfl⟩
    rw [assertR_eq_ok, beq_iff_eq] at h1
    exact ⟨rfl, h1.symm⟩
  · rintro ⟨rfl, h1⟩
    exact ⟨(), by rw [assertR_eq_ok, beq_iff_eq]; exact h1.symm, rfl⟩

/-- C71: every tensor with at least one element that holds as many elements as its shape says fits. So a non-empty tensor made by
`new` in the debug profile does. -/
theorem C71_fits (t : Raw T) (hw : WF t) (h0 : t.array ≠ []) (hl : t.array.length < 2 ^ 64) : Fits t.shape := by
  have h1 : ∀ d ∈ t.shape, d ≠ 0 := by
    intro d hd h2
    subst h2
    have : t.shape.prod = 0 := by
      obtain ⟨l1, l2, e⟩ := List.append_of_mem hd
      rw [e]; simp
    rw [WF, this] at hw
    exact h0 (List.length_eq_zero_iff.1 hw)
  have h2 : t.shape.map (max 1) = t.shape := by
    conv_rhs => rw [← List.map_id t.shape]
    exact List.map_congr_left fun d hd => max_eq_right (Nat.one_le_iff_ne_zero.2 (h1 d hd))
  rw [Fits, h2, ← hw]
  exact hl

/-- C71: `new_with_filler`. -/
theorem C71_filler (p : Profile) (shape : List Nat) (x : T) (h : Fits shape) :
    Raw.newWithFillerU p shape x = .ok (Raw.newWithFiller shape x) := by
  rw [Raw.newWithFillerU, Raw.newWithFiller]
  split
  · rfl
  · rw [prodU_fits h, R.bind_ok, foldl_mul_eq, one_mul]; rfl

/-- C71: reads, with success, errors and panics, for every index. -/
theorem C71_get (p : Profile) (t : Raw T) (index : List Nat) (h : Fits t.shape) (hi : ∀ i ∈ index, i < 2 ^ 64) :
    t.getU p index = t.get index := by
  rw [Raw.getU, Raw.get, globalIndexU_eq h hi (fun _ h => by cases h)]

/-- C71: reads with an offset. In the debug profile the sum of the start of a range and a component of the index has to be a
`usize`. -/
theorem C71_offset (p : Profile) (t : Raw T) (index : List Nat) (offset : List SliceRange) (h : Fits t.shape) (hi : ∀ i ∈ index, i < 2 ^ 64)
    (ho : ∀ r ∈ offset, r.start ≤ r.stop ∧ r.stop < 2 ^ 64) (hd : p = .debug → ∀ r ∈ offset, ∀ i ∈ index, r.start + i < 2 ^ 64) :
    t.getWithOffsetU p index offset = t.getWithOffset index offset := by
  rw [Raw.getWithOffsetU, Raw.getWithOffset, globalIndexU_eq h hi]
  rintro rs h1 r hr
  cases h1
  exact ⟨(ho r hr).1, (ho r hr).2, fun hp => hd hp r hr⟩

/-- C71: reads through views. -/
theorem C71_view_get (p : Profile) (v : View T) (index : List Nat) (h : Fits v.tensor.shape) (hi : ∀ i ∈ index, i < 2 ^ 64)
    (ho : ∀ r ∈ v.offset, r.start ≤ r.stop ∧ r.stop < 2 ^ 64) (hd : p = .debug → ∀ r ∈ v.offset, ∀ i ∈ index, r.start + i < 2 ^ 64) :
    v.getU p index = v.get index := by
  rw [View.getU, View.get, globalIndexU_eq h hi]
  rintro rs h1 r hr
  cases h1
  exact ⟨(ho r hr).1, (ho r hr).2, fun hp => hd hp r hr⟩

/-- C71: views of ranges made by `SliceRange::new`. -/
theorem C71_view (p : Profile) (t : Raw T) (offset : List SliceRange) (ho : ∀ r ∈ offset, SliceRange.new r.start r.stop = .ok r) :
    View.newU p t offset = View.new t offset := by
  have key : ∀ l : List (SliceRange × Nat), (∀ x ∈ l, x.1.start ≤ x.1.stop) → viewShapeU p l = viewShape l := by
    intro l
    induction l with
    | nil => intro _; rfl
    | cons x l ih =>
      intro h
      obtain ⟨r, d⟩ := x
      have h1 := h (r, d) (by simp)
      rw [viewShapeU, viewShape, ih fun y hy => h y (by simp [hy]), subU_ok h1, subR, if_pos h1]
  rw [View.newU, View.new, key]
  intro x hx
  have h1 := ho x.1 (List.of_mem_zip (a := x.1) (b := x.2) hx).1
  simp only [SliceRange.new, R.bind_eq_ok] at h1
  obtain ⟨⟨⟩, h1, _⟩ := h1
  rw [assertR_eq_ok] at h1
  simpa using h1

/-- C71: `reshape`. -/
theorem C71_reshape (p : Profile) (v : View T) (shape : List Nat) (h : Fits v.shape) (hs : Fits shape) :
    v.reshapeU p shape = v.reshape shape := by
  rw [View.reshapeU, prodU_fits h, R.bind_ok, prodU_fits hs, R.bind_ok, View.reshape]

/-- C71: `increment_index`, for shapes without zeros. -/
theorem C71_increment (p : Profile) (index shape : List Nat) (hs : ∀ d ∈ shape, 1 ≤ d ∧ d < 2 ^ 64) :
    incrementIndexU p index shape = incrementIndex index shape := by
  rw [incrementIndexU, incrementIndex]
  generalize index.length = n
  induction n with
  | zero => rfl
  | succ i ih =>
    rw [incrementLoopU, incrementLoop]
    cases hv : index[i]? with
    | none => simp only [idxR, hv]; rfl
    | some v =>
      cases hd : shape[i]? with
      | none => simp only [idxR, hv, hd]; rfl
      | some d =>
        obtain ⟨h1, h2⟩ := hs d (List.mem_of_getElem? hd)
        simp only [idxR, hv, hd, R.bind_ok, subU_ok h1, subR, if_pos h1]
        split
        · next h3 => rw [addU, wrapU_ok (by omega)]; rfl
        · exact ih

/-- C71: with a zero at the last position it panics in the debug profile; in the release profile it goes on counting. -/
theorem C71_increment_zero (index shape : List Nat) (v : Nat) (hl : shape.length = index.length) (hv : v < 2 ^ 64 - 1) :
    incrementIndexU .debug (index ++ [v]) (shape ++ [0]) = .error (.panic .overflow) ∧
    incrementIndexU .release (index ++ [v]) (shape ++ [0]) = .ok (index ++ [v + 1], true) := by
  have h1 : (index ++ [v])[index.length]? = some v := by simp
  have h2 : (shape ++ [0])[index.length]? = some 0 := by rw [← hl]; simp
  constructor
  · rw [incrementIndexU, List.length_append, List.length_singleton, incrementLoopU]
    simp only [idxR, h1, h2, R.bind_ok]
    rfl
  · rw [incrementIndexU, List.length_append, List.length_singleton, incrementLoopU]
    have h3 : subU .release 0 1 = .ok (2 ^ 64 - 1) := by decide
    simp only [idxR, h1, h2, R.bind_ok, h3]
    rw [if_pos hv, addU, wrapU_ok (by omega), R.bind_ok]
    simp [resetTrailing, List.set_append]

/-- C71, test: the hypotheses are met by ordinary shapes, also with zeros. -/
example : Fits [3, 4] ∧ Fits [] ∧ Fits [5, 0, 7] ∧ ¬ Fits [2 ^ 63, 4, 0] ∧
    Raw.newU .release [1, 2, 3, 4] [2, 2] = .ok ⟨[1, 2, 3, 4], [2, 2]⟩ ∧
    Raw.getU .debug ⟨[1, 2, 3, 4], [2, 2]⟩ [1, 0] = .ok 3 ∧
    Raw.getWithOffsetU .release ⟨[1, 2, 3, 4], [2, 2]⟩ [0, 1] [⟨1, 2⟩, ⟨0, 2⟩] = .ok 4 := by
  refine ⟨by unfold Fits; decide, by unfold Fits; decide, by unfold Fits; decide, by unfold Fits; decide, by decide, by decide, by decide⟩

/-- C71, test: in the release profile one element is accepted for `[3, 12297829382473034411]`, as `3 * 12297829382473034411 = 2^65 + 1`;
the view of one element can be given this shape; the read of another element panics. -/
example : Raw.newU .release [7] [3, 12297829382473034411] = .ok ⟨[7], [3, 12297829382473034411]⟩ ∧
    Raw.newU .debug [7] [3, 12297829382473034411] = .error (.panic .overflow) ∧
    View.reshapeU .release ⟨⟨[7], [1]⟩, [1], [⟨0, 1⟩]⟩ [3, 12297829382473034411] =
      .ok ⟨⟨[7], [1]⟩, [3, 12297829382473034411], [⟨0, 1⟩]⟩ ∧
    Raw.getU .release ⟨[7], [3, 12297829382473034411]⟩ [1, 0] = .error (.panic .index) := by decide

/-- C71, test: a component of the index near `usize::MAX` makes the debug profile panic where the release profile returns an error. -/
example : Raw.getWithOffsetU .debug ⟨[1, 2], [2]⟩ [2 ^ 64 - 1] [⟨1, 2⟩] = .error (.panic .overflow) ∧
    Raw.getWithOffsetU .release ⟨[1, 2], [2]⟩ [2 ^ 64 - 1] [⟨1, 2⟩] = .error (.err .viewBounds) := by decide

end RL
