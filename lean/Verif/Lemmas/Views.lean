import Verif.Lemmas.Arith

/-! Helper lemmas: views, zero-length dimensions -/

namespace RL

open Spec

variable {T : Type}

theorem viewShape_ok {rs : List SliceRange} {ds : List Nat} (h : RangesFit rs ds) :
    viewShape (rs.zip ds) = .ok (rs.map (fun r => r.stop - r.start)) := by
  induction h with
  | nil => rfl
  | @cons r d rs ds hr _ ih =>
    simp [viewShape, hr.1, hr.2, subR, ih]

theorem viewShape_bad {rs : List SliceRange} {ds : List Nat} (hl : rs.length = ds.length) (h : ¬ RangesFit rs ds) :
    Panics (viewShape (rs.zip ds)) := by
  induction rs generalizing ds with
  | nil =>
    cases ds with
    | nil => exact absurd .nil h
    | cons _ _ => simp at hl
  | cons r rs ih =>
    cases ds with
    | nil => simp at hl
    | cons d ds =>
      simp only [List.zip_cons_cons, viewShape]
      by_cases h1 : r.stop ≤ d
      · by_cases h2 : r.start ≤ r.stop
        · have h3 : ¬ RangesFit rs ds := fun hf => h (.cons ⟨h2, h1⟩ hf)
          obtain ⟨p, hp, hp'⟩ := ih (by simpa using hl) h3
          exact ⟨p, by simp [h1, h2, subR, hp], hp'⟩
        · exact ⟨.overflow, by simp [h1, h2, subR, R.panic], by simp⟩
      · exact ⟨.assert, by simp [h1, R.panic], by simp⟩

theorem View.new_ok {t : Raw T} {rs : List SliceRange} (h : RangesFit rs t.shape) :
    View.new t rs = .ok { tensor := t, shape := rs.map (fun r => r.stop - r.start), offset := rs } := by
  simp [View.new, RangesFit.length h, viewShape_ok h]

theorem View.new_bad {t : Raw T} {rs : List SliceRange} (h : ¬ RangesFit rs t.shape) : Panics (View.new t rs) := by
  unfold View.new
  by_cases hl : rs.length = t.shape.length
  · obtain ⟨p, hp, hp'⟩ := viewShape_bad hl h
    exact ⟨p, by simp [hl, hp], hp'⟩
  · have : (rs.length == t.shape.length) = false := by simpa using hl
    exact ⟨.assert, by simp [this, R.panic], by simp⟩

theorem View.new_inv {t : Raw T} {rs : List SliceRange} {v : View T} (h : View.new t rs = .ok v) :
    RangesFit rs t.shape ∧ v = { tensor := t, shape := rs.map (fun r => r.stop - r.start), offset := rs } := by
  by_cases hf : RangesFit rs t.shape
  · rw [View.new_ok hf] at h
    exact ⟨hf, (Except.ok.inj h).symm⟩
  · obtain ⟨p, hp, _⟩ := View.new_bad hf
    rw [hp] at h
    cases h

/-- an index of full length with a component out of the window, in a dimension longer than 1 -/
theorem View.get_bad {v : View T} (hv : ViewOk v) {idx : List Nat} (hl : idx.length = v.shape.length)
    {q : Nat} {d i n : Nat} (h1 : v.tensor.shape[q]? = some d) (h2 : idx[q]? = some i) (h3 : v.shape[q]? = some n)
    (hd : d ≠ 1) (hi : n ≤ i) : v.get idx = R.panic .unwrap := by
  have hlen := hv.length
  unfold View.get
  rw [globalIndex_some hv.2.1]
  have hbad : ¬ ∀ t ∈ (trips idx v.tensor.shape v.offset).reverse, t.1 = 1 ∨ t.2.1 < t.2.2.stop - t.2.2.start := by
    intro hall
    rw [hv.2.2, List.getElem?_map] at h3
    cases hr : v.offset[q]? with
    | none => simp [hr] at h3
    | some r =>
      simp only [hr, Option.map_some, Option.some.injEq] at h3
      have : (d, i, r) ∈ trips idx v.tensor.shape v.offset := by
        rw [trips_getElem?]
        refine ⟨q, ?_, ?_, ?_⟩ <;> simp [hl, hlen, h1, h2, hr]
      have := hall _ (List.mem_reverse.2 this)
      simp only at this
      omega
  split
  · rw [tripLoop_err _ (fun t ht => trips_fit hv.2.1 t (List.mem_reverse.1 ht)) hbad]
    rfl
  · rfl

/-- broadcasting reads of a view none of whose dimensions is narrowed to 1 -/
theorem View.get_broadcast {v : View T} (hv : ViewOk v) (hp : Pos v.shape)
    (hn : List.Forall₂ (fun n d => n = 1 → d = 1) v.shape v.tensor.shape) {idx : List Nat}
    (hr : Readable v.shape idx) : ∃ x, View.elem? v (bproj v.shape idx) = some x ∧ v.get idx = .ok x := by
  have hlen := hv.length
  have key : ∃ g, globalIndex idx v.tensor.shape (some v.offset) = .ok g := by
    rw [globalIndex_some hv.2.1, if_pos, tripLoop_ok _ (trips_fit hv.2.1)]
    · exact ⟨_, rfl⟩
    · intro t ht
      obtain ⟨k, h1, h2, h3⟩ := trips_getElem?.1 ht
      rw [List.getElem?_drop] at h1 h3
      have hsh : v.shape[v.tensor.shape.length - idx.length + k]? = some (t.2.2.stop - t.2.2.start) := by
        rw [hv.2.2, List.getElem?_map, h3]; rfl
      obtain ⟨b1, c1⟩ := List.getElem?_eq_some_iff.1 h1
      obtain ⟨b2, c2⟩ := List.getElem?_eq_some_iff.1 hsh
      have hn' := (List.forall₂_iff_get.1 hn).2 _ b2 b1
      simp only [List.get_eq_getElem, c1, c2] at hn'
      have hr2 := hr.2
      rw [List.forall₂_iff_get] at hr2
      rw [hlen] at hr2
      have b3 : k < (v.shape.drop (v.tensor.shape.length - idx.length)).length := by simp; omega
      obtain ⟨b4, c4⟩ := List.getElem?_eq_some_iff.1 h2
      have := hr2.2 k b3 b4
      simp only [List.get_eq_getElem, List.getElem_drop] at this
      simp only [List.getElem_drop] at c4
      rw [c2, c4] at this
      rcases this with h | h
      · exact Or.inl (hn' h)
      · exact Or.inr h
    · intro d hd
      obtain ⟨k, hk, rfl⟩ := List.mem_iff_getElem.1 hd
      have hk' : k < v.tensor.shape.length - idx.length := by simpa using (List.length_take ▸ hk : k < _)|>.trans_le (Nat.min_le_left _ _)
      have hkb : k < v.tensor.shape.length := by omega
      have hks : k < v.shape.length := by omega
      have hle := hr.1 v.shape[k] (by
        rw [hlen]
        exact List.mem_take_iff_getElem.2 ⟨k, by omega, rfl⟩)
      have hpos := hp v.shape[k] (List.getElem_mem hks)
      have := (List.forall₂_iff_get.1 hn).2 k hks hkb
      simp only [List.get_eq_getElem] at this
      rw [List.getElem_take]
      rw [this (by omega)]
  obtain ⟨g, hg⟩ := key
  have hin := bproj_inRange hp hr
  obtain ⟨x, hx, _⟩ := View.get_ok hv hin
  refine ⟨x, hx, ?_⟩
  have hgeq := (globalIndex_some_inv hv.2.1 (by rw [← hv.2.2]; exact hp) hg).1
  unfold View.get
  rw [hg]
  simp only [unwrapR_ok, R.bind_ok]
  apply idxR_eq_ok.2
  rw [hgeq, ← hv.2.2]
  exact hx

/-! ### zero-length dimensions -/

/-- the first iteration of an index loop -/
theorem forIndices_first {σ : Type _} (dims : List Nat) (init : σ) (body : σ → List Nat → R σ) {p : Panic}
    (h : body init (List.replicate dims.length 0) = .error (.panic p)) :
    forIndices dims init body = .error (.panic p) := by
  simp [forIndices, iterFuel, iterLoop, IndexIter.new, IndexIter.next, h]

theorem incrementLoop_zero_dim (idx dims : List Nat) :
    ∀ n, n ≤ dims.length → n ≤ idx.length →
      incrementLoop idx dims n = .error (.panic .overflow) ∨
      (incrementLoop idx dims n = incrementLoop idx (dims.map (max 1)) n ∧
        ((∃ k, ∃ h : k < dims.length, k < n ∧ dims[k] = 0) → ∃ r, incrementLoop idx dims n = .ok (r, true))) := by
  intro n
  induction n with
  | zero => intro _ _; exact Or.inr ⟨rfl, by rintro ⟨k, _, h, _⟩; omega⟩
  | succ n ih =>
    intro h1 h2
    simp only [incrementLoop]
    rw [idxR_ok (show n < idx.length by omega), idxR_ok (show n < dims.length by omega),
      idxR_ok (show n < (dims.map (max 1)).length by simp; omega)]
    simp only [R.bind_ok, List.getElem_map]
    by_cases hz : dims[n] = 0
    · left; simp [hz, subR, R.panic]
    · have hm : max 1 dims[n] = dims[n] := by omega
      rw [hm]
      have hs : subR dims[n] 1 = .ok (dims[n] - 1) := by simp [subR]; omega
      rw [hs]
      simp only [R.bind_ok]
      split
      · right
        exact ⟨rfl, fun _ => ⟨_, rfl⟩⟩
      · rcases ih (by omega) (by omega) with h | ⟨h, h'⟩
        · exact Or.inl h
        · refine Or.inr ⟨h, ?_⟩
          rintro ⟨k, hk, hkn, hk0⟩
          refine h' ⟨k, hk, ?_, hk0⟩
          rcases Nat.lt_succ_iff_lt_or_eq.1 hkn with h | h
          · exact h
          · subst h; exact absurd hk0 hz

theorem iterLoop_zero_dim {σ : Type _} (body : σ → List Nat → R σ) (g : σ → List Nat → σ)
    (hb : ∀ s i, body s i = .ok (g s i)) (dims : List Nat) (hz : ¬ Pos dims) :
    ∀ fuel (idx : List Nat) (first : Bool) (s r : σ), idx.length = dims.length →
      iterLoop body fuel { index := idx, dimensions := dims.map (max 1), first } s = .ok r →
      iterLoop body fuel { index := idx, dimensions := dims, first } s = .error (.panic .overflow) := by
  have hz' : ∃ k, ∃ h : k < dims.length, k < dims.length ∧ dims[k] = 0 := by
    simp only [Pos, not_forall] at hz
    obtain ⟨d, hd, h0⟩ := hz
    obtain ⟨k, hk, rfl⟩ := List.mem_iff_getElem.1 hd
    exact ⟨k, hk, hk, by omega⟩
  intro fuel
  induction fuel with
  | zero => intro idx first s r _ h; simp [iterLoop, R.panic] at h
  | succ fuel ih =>
    intro idx first s r hl h
    cases first with
    | true =>
      simp only [iterLoop, IndexIter.next, if_true, R.pure_eq, R.bind_ok, hb] at h ⊢
      exact ih idx false _ r hl h
    | false =>
      simp only [iterLoop, IndexIter.next, Bool.false_eq_true, if_false, incrementIndex] at h ⊢
      rcases incrementLoop_zero_dim idx dims dims.length (Nat.le_refl _) (by omega) with h1 | ⟨h1, h2⟩
      · rw [hl, h1]; rfl
      · obtain ⟨i', hi'⟩ := h2 hz'
        rw [hl] at h ⊢
        rw [← h1, hi'] at h
        rw [hi']
        simp only [R.bind_ok, if_true, R.pure_eq, hb] at h ⊢
        refine ih i' false _ r ?_ h
        have : ∀ n idx i' b, incrementLoop idx dims n = .ok (i', b) → i'.length = idx.length := by
          intro n
          induction n with
          | zero => intro idx i' b h; simp [incrementLoop] at h; rw [h.1]
          | succ n ihn =>
            intro idx i' b h
            simp only [incrementLoop] at h
            cases h1 : idxR idx n with
            | error e => simp [h1] at h
            | ok v =>
              cases h2 : idxR dims n with
              | error e => simp [h1, h2] at h
              | ok d =>
                cases h3 : subR d 1 with
                | error e => simp [h1, h2, h3] at h
                | ok l =>
                  simp only [h1, h2, h3, R.bind_ok] at h
                  split at h
                  · simp only [R.pure_eq, Except.ok.injEq, Prod.mk.injEq] at h
                    rw [← h.1]
                    simp [resetTrailing]
                    omega
                  · exact ihn idx i' b h
        rw [this _ _ _ _ hi', hl]

theorem forIndices_zero_dim {σ : Type _} (body : σ → List Nat → R σ) (g : σ → List Nat → σ)
    (hb : ∀ s i, body s i = .ok (g s i)) (dims : List Nat) (hz : ¬ Pos dims) (init : σ) :
    forIndices dims init body = .error (.panic .overflow) := by
  have hp : Pos (dims.map (max 1)) := by
    intro d hd
    simp at hd
    obtain ⟨a, _, rfl⟩ := hd
    omega
  have h1 := forIndices_eq hp init body
  rw [foldlM_ok body g _ (fun s a _ => hb s a)] at h1
  unfold forIndices at h1 ⊢
  have hf : iterFuel (dims.map (max 1)) = iterFuel dims := by
    have : (max 1 ∘ max 1 : Nat → Nat) = max 1 := by funext x; simp
    simp [iterFuel, this]
  rw [hf] at h1
  have := iterLoop_zero_dim body g hb dims hz (iterFuel dims) (List.replicate dims.length 0) true init _ (by simp)
    (by simpa [IndexIter.new] using h1)
  exact this

/-- reading a tensor with a zero-length dimension at a full-length index fails -/
theorem Raw.get_zero_dim {t : Raw T} (h : ¬ Pos t.shape) {idx : List Nat} (hl : t.shape.length ≤ idx.length) :
    ∃ e, t.get idx = R.err e := by
  have hr : ¬ Readable t.shape idx := by
    intro hr
    apply h
    have h2 := hr.2
    rw [show t.shape.length - idx.length = 0 by omega, List.drop_zero] at h2
    intro d hd
    obtain ⟨k, hk, rfl⟩ := List.mem_iff_getElem.1 hd
    have := (List.forall₂_iff_get.1 h2).2 k hk (by rw [← h2.length_eq]; exact hk)
    simp only [List.get_eq_getElem] at this
    omega
  obtain ⟨e, he⟩ := globalIndex_none_err hr
  exact ⟨e, by simp [Raw.get, he, R.err]⟩

theorem Raw.get_not_diverge (t : Raw T) (idx : List Nat) :
    (∃ v, t.get idx = .ok v) ∨ (∃ e, t.get idx = R.err e) ∨ t.get idx = R.panic .index := by
  unfold Raw.get
  by_cases hr : Readable t.shape idx
  · rw [globalIndex_none_ok hr]
    simp only [R.bind_ok]
    unfold idxR
    split
    · exact Or.inl ⟨_, rfl⟩
    · exact Or.inr (Or.inr rfl)
  · obtain ⟨e, he⟩ := globalIndex_none_err hr
    exact Or.inr (Or.inl ⟨e, by simp [he, R.err]⟩)

theorem zipLongestMax_length : ∀ l r : List Nat, (zipLongestMax l r).length = max l.length r.length
  | [], r => by simp [zipLongestMax]
  | a :: l, [] => by simp [zipLongestMax]
  | a :: l, b :: r => by simp [zipLongestMax, zipLongestMax_length l r]

theorem maxShape_length (l r : List Nat) : (maxShape l r).length = max l.length r.length := by
  simp [maxShape, zipLongestMax_length]

end RL
