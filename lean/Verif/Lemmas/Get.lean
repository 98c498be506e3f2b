import Verif.Lemmas.Index

namespace RL

open Spec

/-- the loop of `globalIndex` with the ranges zipped in (least significant dimension first) -/
def tripLoop : List (Nat × Nat × SliceRange) → Nat → Nat → R Nat
  | [], acc, _ => .ok acc
  | (d, i, r) :: rest, acc, m =>
    if d = 1 then tripLoop rest acc m
    else if r.stop - r.start ≤ i then R.err .viewBounds
    else if d ≤ r.start + i then R.err .dimBounds
    else tripLoop rest (acc + (r.start + i) * m) (m * d)

theorem globalIndexLoop_some {len : Nat} {rv : List SliceRange} :
    ∀ (ds is : List Nat) (rs : List SliceRange) (n acc m : Nat), ds.length = is.length → is.length = rs.length →
      (∀ k r, rs[k]? = some r → rv[len - (n + k) - 1]? = some r ∧ r.start ≤ r.stop) →
      globalIndexLoop len (some rv) (ds.zip is) n acc m = tripLoop (ds.zip (is.zip rs)) acc m := by
  intro ds
  induction ds with
  | nil => intro is rs n acc m _ _ _; simp [globalIndexLoop, tripLoop]
  | cons d ds ih =>
    intro is rs n acc m h1 h2 h
    match is, rs, h1, h2 with
    | i :: is, r :: rs, h1, h2 =>
      simp only [List.length_cons, Nat.add_right_cancel_iff] at h1 h2
      have h0 := h 0 r (by simp)
      have hrest : ∀ k r', rs[k]? = some r' → rv[len - ((n + 1) + k) - 1]? = some r' ∧ r'.start ≤ r'.stop := by
        intro k r' hk
        have := h (k + 1) r' (by simpa using hk)
        rwa [show n + (k + 1) = n + 1 + k by omega] at this
      simp only [List.zip_cons_cons, globalIndexLoop, tripLoop]
      by_cases hd : d = 1
      · simp only [hd, if_true]
        exact ih is rs (n + 1) acc m h1 h2 hrest
      · simp only [hd, if_false]
        have e1 : idxR rv (len - n - 1) = .ok r := idxR_eq_ok.2 (by simpa using h0.1)
        have e2 : subR r.stop r.start = .ok (r.stop - r.start) := by simp [subR, h0.2]
        simp only [e1, e2, R.bind_ok, R.pure_eq]
        split
        · rfl
        · split
          · rfl
          · exact ih is rs (n + 1) _ _ h1 h2 hrest

theorem globalIndexLoop_none {len : Nat} :
    ∀ (ds is : List Nat) (n acc m : Nat), ds.length = is.length →
      globalIndexLoop len none (ds.zip is) n acc m
        = tripLoop (ds.zip (is.zip (ds.map (fun d => ⟨0, d⟩)))) acc m := by
  intro ds
  induction ds with
  | nil => intro is n acc m _; simp [globalIndexLoop, tripLoop]
  | cons d ds ih =>
    intro is n acc m h1
    match is, h1 with
    | i :: is, h1 =>
      simp only [List.length_cons, Nat.add_right_cancel_iff] at h1
      simp only [List.zip_cons_cons, List.map_cons, globalIndexLoop, tripLoop, R.pure_eq, R.bind_ok, Nat.sub_zero,
        Nat.zero_add, ih is _ _ _ h1]

/-- component of the addressed base element -/
def tripComp (t : Nat × Nat × SliceRange) : Nat := if t.1 = 1 then 0 else t.2.2.start + t.2.1

theorem tripLoop_ok (L : List (Nat × Nat × SliceRange))
    (hfit : ∀ t ∈ L, t.2.2.start ≤ t.2.2.stop ∧ t.2.2.stop ≤ t.1)
    (hok : ∀ t ∈ L, t.1 = 1 ∨ t.2.1 < t.2.2.stop - t.2.2.start) :
    ∀ acc m, tripLoop L.reverse acc m = .ok (acc + m * rowMajor (L.map Prod.fst) (L.map tripComp)) := by
  induction L using List.reverseRecOn with
  | nil => intro acc m; simp [tripLoop, rowMajor]
  | append_singleton L t ih =>
    intro acc m
    have ih := ih (fun t ht => hfit t (by simp [ht])) (fun t ht => hok t (by simp [ht]))
    have h1 := hfit t (by simp)
    have h2 := hok t (by simp)
    obtain ⟨d, i, r⟩ := t
    simp only at h1 h2
    simp only [List.reverse_append, List.reverse_cons, List.reverse_nil, List.nil_append, List.singleton_append,
      List.map_append, List.map_cons, List.map_nil]
    rw [rowMajor_append (by simp)]
    simp only [tripLoop, tripComp]
    by_cases hd : d = 1
    · simp [hd, ih]
    · have h3 : i < r.stop - r.start := by
        rcases h2 with h2 | h2
        · exact absurd h2 hd
        · exact h2
      simp only [hd, if_false]
      rw [if_neg (by omega), if_neg (by omega), ih]
      congr 1
      ring

theorem tripLoop_err (L : List (Nat × Nat × SliceRange))
    (hfit : ∀ t ∈ L, t.2.2.start ≤ t.2.2.stop ∧ t.2.2.stop ≤ t.1)
    (hbad : ¬ ∀ t ∈ L, t.1 = 1 ∨ t.2.1 < t.2.2.stop - t.2.2.start) :
    ∀ acc m, tripLoop L acc m = R.err .viewBounds := by
  induction L with
  | nil => simp at hbad
  | cons t L ih =>
    intro acc m
    obtain ⟨d, i, r⟩ := t
    have h1 := hfit _ (List.mem_cons_self)
    simp only at h1
    have ih' : (¬ ∀ t ∈ L, t.1 = 1 ∨ t.2.1 < t.2.2.stop - t.2.2.start) →
        ∀ acc m, tripLoop L acc m = R.err .viewBounds := ih (fun t ht => hfit t (by simp [ht]))
    simp only [tripLoop]
    simp only [List.mem_cons, forall_eq_or_imp, not_and] at hbad
    by_cases hd : d = 1
    · simp only [hd, if_true]
      exact ih' (hbad (Or.inl hd)) _ _
    · simp only [hd, if_false]
      by_cases hlt : r.stop - r.start ≤ i
      · rw [if_pos hlt]
      · rw [if_neg hlt, if_neg (by omega)]
        exact ih' (hbad (Or.inr (by omega))) _ _

/-! ### reversed zips -/

theorem reverse_zip_reverse {α β : Type _} (a : List α) (b : List β) :
    a.reverse.zip b.reverse
      = (a.drop (a.length - b.length)).reverse.zip (b.drop (b.length - a.length)).reverse := by
  rw [List.zip_eq_zip_take_min]
  congr 1
  · rw [List.take_reverse]
    simp only [List.length_reverse]
    congr 2; omega
  · rw [List.take_reverse]
    simp only [List.length_reverse]
    congr 2; omega

theorem zip_reverse_eq {α β : Type _} {a : List α} {b : List β} (h : a.length = b.length) :
    a.reverse.zip b.reverse = (a.zip b).reverse := by
  simp only [List.zip, List.reverse_zipWith h]

theorem drop_len {α β : Type _} (a : List α) (b : List β) :
    (a.drop (a.length - b.length)).length = (b.drop (b.length - a.length)).length := by
  simp only [List.length_drop]; omega

theorem Spec.RangesFit.length {rv : List SliceRange} {shape : List Nat} (h : RangesFit rv shape) :
    rv.length = shape.length := List.Forall₂.length_eq h

/-- dimensions, index components and ranges, aligned on the right -/
def trips (idx shape : List Nat) (rv : List SliceRange) : List (Nat × Nat × SliceRange) :=
  (shape.drop (shape.length - idx.length)).zip
    ((idx.drop (idx.length - shape.length)).zip (rv.drop (shape.length - idx.length)))

theorem globalIndex_some {idx shape : List Nat} {rv : List SliceRange} (fit : RangesFit rv shape) :
    globalIndex idx shape (some rv) =
      if ∀ d ∈ shape.take (shape.length - idx.length), d ≤ 1 then tripLoop (trips idx shape rv).reverse 0 1
      else R.err .tooShort := by
  have hl := RangesFit.length fit
  unfold globalIndex trips
  by_cases hlead : ∀ d ∈ shape.take (shape.length - idx.length), d ≤ 1
  · rw [if_pos hlead, if_neg]
    · rw [reverse_zip_reverse, globalIndexLoop_some (rs := (rv.drop (shape.length - idx.length)).reverse)]
      · rw [zip_reverse_eq (b := rv.drop _), zip_reverse_eq]
        · simp only [List.length_zip, List.length_drop]; omega
        · simp only [List.length_drop]; omega
      · simp only [List.length_reverse, List.length_drop]; omega
      · simp only [List.length_reverse, List.length_drop]; omega
      · intro k r hk
        have hk' : k < (rv.drop (shape.length - idx.length)).reverse.length := by
          rw [List.getElem?_eq_some_iff] at hk; exact hk.1
        have hk2 : k < rv.length - (shape.length - idx.length) := by simpa using hk'
        rw [List.getElem?_reverse (by simpa using hk'), List.length_drop, List.getElem?_drop] at hk
        rw [show shape.length - idx.length + (rv.length - (shape.length - idx.length) - 1 - k)
          = shape.length - (0 + k) - 1 by omega] at hk
        refine ⟨hk, ?_⟩
        have hm := List.mem_of_getElem? hk
        obtain ⟨n, hn, rfl⟩ := List.mem_iff_getElem.1 hm
        have := (List.forall₂_iff_get.1 fit).2 n hn (by omega)
        exact this.1
    · rintro ⟨_, h⟩
      rw [List.any_eq_true] at h
      obtain ⟨d, hd, h1⟩ := h
      have := hlead d hd
      simp at h1; omega
  · rw [if_neg hlead, if_pos]
    simp only [not_forall] at hlead
    obtain ⟨d, hd, h1⟩ := hlead
    refine ⟨?_, ?_⟩
    · by_contra hc
      rw [show shape.length - idx.length = 0 by omega] at hd
      simp at hd
    · rw [List.any_eq_true]
      exact ⟨d, hd, by simp; omega⟩

def fullRanges (shape : List Nat) : List SliceRange := shape.map (fun d => ⟨0, d⟩)

theorem fullRanges_fit (shape : List Nat) : RangesFit (fullRanges shape) shape := by
  induction shape with
  | nil => exact .nil
  | cons d ds ih => exact .cons ⟨Nat.zero_le _, Nat.le_refl _⟩ ih

theorem globalIndex_none (idx shape : List Nat) :
    globalIndex idx shape none = globalIndex idx shape (some (fullRanges shape)) := by
  rw [globalIndex_some (fullRanges_fit shape)]
  unfold globalIndex trips
  by_cases hlead : ∀ d ∈ shape.take (shape.length - idx.length), d ≤ 1
  · rw [if_pos hlead, if_neg]
    · rw [reverse_zip_reverse, globalIndexLoop_none]
      · congr 1
        rw [List.map_reverse, zip_reverse_eq (a := idx.drop _), zip_reverse_eq, fullRanges, List.map_drop]
        all_goals simp; try omega
      all_goals simp; omega
    · rintro ⟨_, h⟩
      rw [List.any_eq_true] at h
      obtain ⟨d, hd, h1⟩ := h
      have := hlead d hd
      simp at h1; omega
  · rw [if_neg hlead, if_pos]
    simp only [not_forall] at hlead
    obtain ⟨d, hd, h1⟩ := hlead
    refine ⟨?_, ?_⟩
    · by_contra hc
      rw [show shape.length - idx.length = 0 by omega] at hd
      simp at hd
    · rw [List.any_eq_true]
      exact ⟨d, hd, by simp; omega⟩

theorem trips_fst {idx shape : List Nat} {rv : List SliceRange} (h : rv.length = shape.length) :
    (trips idx shape rv).map Prod.fst = shape.drop (shape.length - idx.length) := by
  unfold trips
  rw [List.map_fst_zip]
  simp only [List.length_zip, List.length_drop]; omega

theorem rowMajor_zeros_append (n : Nat) (shape js : List Nat) (h : n ≤ shape.length) :
    rowMajor shape (List.replicate n 0 ++ js) = rowMajor (shape.drop n) js := by
  induction n generalizing shape with
  | zero => simp
  | succ n ih =>
    cases shape with
    | nil => simp at h
    | cons d ds => simp [List.replicate_succ, rowMajor, ih ds (by simpa using h)]

/-- component-wise version of the aligned data -/
theorem trips_getElem? {idx shape : List Nat} {rv : List SliceRange}
    {t : Nat × Nat × SliceRange} :
    t ∈ trips idx shape rv ↔ ∃ k : Nat, (shape.drop (shape.length - idx.length))[k]? = some t.1 ∧
      (idx.drop (idx.length - shape.length))[k]? = some t.2.1 ∧
      (rv.drop (shape.length - idx.length))[k]? = some t.2.2 := by
  obtain ⟨d, i, r⟩ := t
  unfold trips
  simp only [List.mem_iff_getElem?, List.getElem?_zip_eq_some]

theorem trips_fit {idx shape : List Nat} {rv : List SliceRange} (fit : RangesFit rv shape) :
    ∀ t ∈ trips idx shape rv, t.2.2.start ≤ t.2.2.stop ∧ t.2.2.stop ≤ t.1 := by
  intro t ht
  obtain ⟨k, h1, _, h3⟩ := trips_getElem?.1 ht
  rw [List.getElem?_drop] at h1 h3
  rw [List.getElem?_eq_some_iff] at h1 h3
  obtain ⟨a1, e1⟩ := h1
  obtain ⟨a3, e3⟩ := h3
  have := (List.forall₂_iff_get.1 fit).2 _ a3 a1
  simp only [List.get_eq_getElem] at this
  rwa [e1, e3] at this

theorem globalIndex_none_ok {idx shape : List Nat} (h : Readable shape idx) :
    globalIndex idx shape none = .ok (rowMajor shape (bproj shape idx)) := by
  have hl := RangesFit.length (fullRanges_fit shape)
  rw [globalIndex_none, globalIndex_some (fullRanges_fit shape), if_pos h.1,
    tripLoop_ok _ (trips_fit (fullRanges_fit shape))]
  · simp only [Nat.zero_add, Nat.one_mul, trips_fst hl]
    congr 1
    have e : bproj shape idx = List.replicate (shape.length - idx.length) 0 ++
        List.zipWith (fun d i => if d = 1 then 0 else i) (shape.drop (shape.length - idx.length))
          (idx.drop (idx.length - shape.length)) := by
      unfold bproj alignRight
      conv_lhs => rw [← List.take_append_drop (shape.length - idx.length) shape]
      rw [List.zipWith_append (by simp)]
      congr 1
      · apply List.ext_getElem
        · simp
        · intro n h1 h2; simp
      · simp
    rw [e, rowMajor_zeros_append _ _ _ (by omega)]
    congr 1
    apply List.ext_getElem?
    intro k
    unfold trips fullRanges
    simp only [List.getElem?_map, List.getElem?_zipWith, List.zip, List.getElem?_drop]
    cases shape[shape.length - idx.length + k]? <;> cases idx[idx.length - shape.length + k]? <;>
      simp [tripComp]
  · intro t ht
    obtain ⟨k, h1, h2, h3⟩ := trips_getElem?.1 ht
    have hf := (List.forall₂_iff_get.1 h.2).2 k
    rw [List.getElem?_eq_some_iff] at h1 h2
    obtain ⟨a1, e1⟩ := h1
    obtain ⟨a2, e2⟩ := h2
    have := hf a1 a2
    simp only [List.get_eq_getElem, e1, e2] at this
    rcases this with h | h
    · exact Or.inl h
    · right
      have h3' := h3
      rw [fullRanges, ← List.map_drop, List.getElem?_map] at h3
      rw [List.getElem?_eq_getElem a1, e1] at h3
      simp only [Option.map_some, Option.some.injEq] at h3
      rw [← h3]; simpa using h

theorem globalIndex_none_err {idx shape : List Nat} (h : ¬ Readable shape idx) :
    ∃ e, globalIndex idx shape none = R.err e := by
  have hl := RangesFit.length (fullRanges_fit shape)
  rw [globalIndex_none, globalIndex_some (fullRanges_fit shape)]
  split
  · rename_i hlead
    refine ⟨_, tripLoop_err _ ?_ ?_ _ _⟩
    · intro t ht; exact trips_fit (fullRanges_fit shape) t (List.mem_reverse.1 ht)
    · intro hall
      refine h ⟨hlead, List.forall₂_iff_get.2 ⟨drop_len _ _, ?_⟩⟩
      intro k a1 a2
      have hr : k < (fullRanges shape).length - (shape.length - idx.length) := by
        rw [hl]; simpa using a1
      have := hall ((shape.drop (shape.length - idx.length))[k], (idx.drop (idx.length - shape.length))[k],
        ⟨0, (shape.drop (shape.length - idx.length))[k]⟩) (by
          rw [List.mem_reverse, trips_getElem?]
          refine ⟨k, List.getElem?_eq_getElem a1, List.getElem?_eq_getElem a2, ?_⟩
          rw [fullRanges, ← List.map_drop, List.getElem?_map, List.getElem?_eq_getElem a1]
          rfl)
      simpa using this
  · exact ⟨_, rfl⟩

/-! ### full-length indices -/

theorem readable_of_length {shape idx : List Nat} (hl : shape.length = idx.length) :
    Readable shape idx ↔ List.Forall₂ (fun d i => d = 1 ∨ i < d) shape idx := by
  unfold Readable
  simp [hl]

theorem readable_of_inRange {shape idx : List Nat} (h : InRange shape idx) : Readable shape idx := by
  rw [readable_of_length h.length]
  exact List.Forall₂.imp (fun _ _ h => Or.inr h) h

theorem alignRight_of_length {n : Nat} {idx : List Nat} (h : n = idx.length) : alignRight n idx = idx := by
  simp [alignRight, h]

theorem bproj_of_inRange {shape idx : List Nat} (h : InRange shape idx) : bproj shape idx = idx := by
  unfold bproj
  rw [alignRight_of_length h.length]
  induction h with
  | nil => rfl
  | @cons d i ds is hi _ ih =>
    simp only [List.zipWith_cons_cons, ih]
    congr 1
    split <;> omega

theorem globalIndex_inRange {shape idx : List Nat} (h : InRange shape idx) :
    globalIndex idx shape none = .ok (rowMajor shape idx) := by
  rw [globalIndex_none_ok (readable_of_inRange h), bproj_of_inRange h]

theorem Raw.get_inRange {T : Type} {t : Raw T} {idx : List Nat} (h : InRange t.shape idx) :
    t.get idx = idxR t.array (rowMajor t.shape idx) := by
  simp [Raw.get, globalIndex_inRange h]

theorem Raw.get_readable {T : Type} {t : Raw T} {idx : List Nat} (h : Readable t.shape idx) :
    t.get idx = idxR t.array (rowMajor t.shape (bproj t.shape idx)) := by
  simp [Raw.get, globalIndex_none_ok h]

theorem bproj_inRange {shape idx : List Nat} (hp : Pos shape) (h : Readable shape idx) :
    InRange shape (bproj shape idx) := by
  unfold bproj InRange
  rw [List.forall₂_iff_get]
  have hlen : (alignRight shape.length idx).length = shape.length := by
    simp [alignRight]; omega
  refine ⟨by simp [hlen], ?_⟩
  intro k h1 h2
  simp only [List.get_eq_getElem, List.getElem_zipWith]
  have hpos := hp shape[k] (List.getElem_mem _)
  split
  · exact hpos
  · rename_i hne
    simp only [alignRight, List.getElem_append]
    split
    · simpa using hpos
    · rename_i hge
      simp only [List.length_replicate, not_lt] at hge
      have hf := (List.forall₂_iff_get.1 h.2).2 (k - (shape.length - idx.length))
        (by simp; omega) (by simp; omega)
      simp only [List.get_eq_getElem, List.getElem_drop] at hf
      simp only [List.getElem_drop, List.length_replicate]
      have e : shape.length - idx.length + (k - (shape.length - idx.length)) = k := by omega
      simp only [e] at hf
      rcases hf with hf | hf
      · exact absurd hf hne
      · exact hf

/-! ### views -/

theorem Spec.ViewOk.length {T : Type} {v : View T} (h : ViewOk v) : v.shape.length = v.tensor.shape.length := by
  rw [h.2.2, List.length_map, RangesFit.length h.2.1]

theorem trips_full {idx shape : List Nat} {rv : List SliceRange} (h2 : shape.length = idx.length) :
    trips idx shape rv = shape.zip (idx.zip rv) := by
  simp [trips, h2]

theorem globalIndex_view {idx shape : List Nat} {rv : List SliceRange} (fit : RangesFit rv shape)
    (h : InRange (rv.map (fun r => r.stop - r.start)) idx) :
    globalIndex idx shape (some rv) = .ok (rowMajor shape (shift rv idx)) ∧ InRange shape (shift rv idx) := by
  have hl := RangesFit.length fit
  have hl2 : rv.length = idx.length := by have := h.length; simpa using this
  rw [globalIndex_some fit, if_pos, tripLoop_ok _ (trips_fit fit)]
  · rw [trips_full (by omega)]
    simp only [Nat.zero_add, Nat.one_mul]
    rw [List.map_fst_zip (by simp; omega)]
    have key : List.map tripComp (shape.zip (idx.zip rv)) = shift rv idx ∧ InRange shape (shift rv idx) := by
      clear hl hl2
      induction fit generalizing idx with
      | nil => cases h; exact ⟨rfl, .nil⟩
      | @cons r d rs ds hrd _ ih =>
        rw [List.map_cons] at h
        cases h with
        | @cons _ i _ is hi hr =>
          have := ih hr
          simp only [List.zip_cons_cons, List.map_cons, shift, List.zipWith_cons_cons]
          refine ⟨?_, .cons (by omega) this.2⟩
          rw [this.1]
          simp only [tripComp, shift]
          congr 1
          split <;> omega
    exact ⟨by rw [key.1], key.2⟩
  · intro t ht
    obtain ⟨k, h1, h2, h3⟩ := trips_getElem?.1 ht
    right
    have e1 : shape.length - idx.length = 0 := by omega
    have e2 : idx.length - shape.length = 0 := by omega
    rw [e2, List.drop_zero, List.getElem?_eq_some_iff] at h2
    rw [e1, List.drop_zero, List.getElem?_eq_some_iff] at h3
    obtain ⟨a2, b2⟩ := h2
    obtain ⟨a3, b3⟩ := h3
    have := (List.forall₂_iff_get.1 h).2 k (by simpa using a3) a2
    simp only [List.get_eq_getElem, List.getElem_map, b3, b2] at this
    exact this
  · intro d hd
    rw [show shape.length - idx.length = 0 by omega] at hd
    simp at hd

end RL
