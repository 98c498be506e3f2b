import Verif.Lemmas.Construct
import Verif.Model.Functional

namespace RL

open Spec

variable {T : Type}

/-! ### reading -/

@[simp] theorem TL.shape_raw (t : Raw T) : (TL.raw t).shape = t.shape := rfl
@[simp] theorem TL.shape_view (v : View T) : (TL.view v).shape = v.shape := rfl
@[simp] theorem Spec.Ok_raw (t : Raw T) : Ok (TL.raw t) ↔ WF t := Iff.rfl
@[simp] theorem Spec.Ok_view (v : View T) : Ok (TL.view v) ↔ ViewOk v := Iff.rfl

theorem View.get_ok {v : View T} (hv : ViewOk v) {idx : List Nat} (h : InRange v.shape idx) :
    ∃ x, View.elem? v idx = some x ∧ v.get idx = .ok x := by
  rw [hv.2.2] at h
  obtain ⟨h1, h2⟩ := globalIndex_view hv.2.1 h
  have hlt : rowMajor v.tensor.shape (shift v.offset idx) < v.tensor.array.length := by
    rw [hv.1]; exact rowMajor_lt h2
  refine ⟨v.tensor.array[rowMajor v.tensor.shape (shift v.offset idx)], ?_, ?_⟩
  · simp [View.elem?, Raw.elem?, hlt]
  · simp [View.get, h1, idxR_ok hlt]

theorem TL.get_ok {x : TL T} (hx : Ok x) {idx : List Nat} (h : InRange x.shape idx) :
    ∃ v, elem? x idx = some v ∧ x.get idx = .ok v := by
  cases x with
  | raw t => exact Raw.get_ok hx h
  | view v => exact View.get_ok hx h

theorem mapM_get {x : TL T} (hx : Ok x) :
    (allIndices x.shape).mapM (fun idx => unwrapR (x.get idx)) = .ok (elems x) := by
  unfold elems
  have : ∀ l : List (List Nat), (∀ idx ∈ l, InRange x.shape idx) →
      l.mapM (fun idx => unwrapR (x.get idx)) = .ok (l.filterMap (elem? x)) := by
    intro l
    induction l with
    | nil => intro _; rfl
    | cons idx l ih =>
      intro h
      obtain ⟨v, h1, h2⟩ := TL.get_ok hx (h idx (by simp))
      rw [List.mapM_cons, ih (fun i hi => h i (by simp [hi])), h2, List.filterMap_cons_some h1]
      rfl
  exact this _ (fun idx h => mem_allIndices.1 h)

/-- reading off the result of a `mapM` over all indices -/
theorem mapM_allIndices {α : Type _} {shape : List Nat} {g : List Nat → R α} {arr : List α}
    (h : (allIndices shape).mapM g = .ok arr) :
    arr.length = shape.prod ∧
    ∀ idx, InRange shape idx → ∃ v, g idx = .ok v ∧ arr[rowMajor shape idx]? = some v := by
  have h' := mapM_ok_iff.1 h
  refine ⟨by rw [← h'.length_eq, allIndices_length], fun idx hi => ?_⟩
  have hlt : rowMajor shape idx < (allIndices shape).length := by
    rw [allIndices_length]; exact rowMajor_lt hi
  have hlt' : rowMajor shape idx < arr.length := by rw [← h'.length_eq]; exact hlt
  have := (List.forall₂_iff_get.1 h').2 _ hlt hlt'
  have e := getElem_allIndices_of hi
  rw [List.getElem?_eq_getElem hlt, Option.some.injEq] at e
  simp only [List.get_eq_getElem, e] at this
  exact ⟨_, this, List.getElem?_eq_getElem hlt'⟩

theorem elems_length {x : TL T} (hx : Ok x) : (elems x).length = x.shape.prod :=
  (mapM_allIndices (mapM_get hx)).1

theorem elems_getElem? {x : TL T} (hx : Ok x) {idx : List Nat} (h : InRange x.shape idx) :
    (elems x)[rowMajor x.shape idx]? = elem? x idx := by
  obtain ⟨v, h1, h2⟩ := (mapM_allIndices (mapM_get hx)).2 idx h
  obtain ⟨w, h3, h4⟩ := TL.get_ok hx h
  rw [h4] at h1
  simp only [unwrapR_ok, Except.ok.injEq] at h1
  rw [h2, h3, h1]

/-- two lists of the right length that agree on all in-range indices are equal -/
theorem ext_allIndices {α : Type _} {shape : List Nat} {a b : List α} (ha : a.length = shape.prod)
    (hb : b.length = shape.prod)
    (h : ∀ idx, InRange shape idx → a[rowMajor shape idx]? = b[rowMajor shape idx]?) : a = b := by
  apply List.ext_getElem?
  intro p
  by_cases hp : p < shape.prod
  · have hl : p < (allIndices shape).length := by rw [allIndices_length]; exact hp
    have := h _ (inRange_getElem_allIndices hl)
    rwa [rowMajor_getElem_allIndices hl] at this
  · rw [List.getElem?_eq_none (by omega), List.getElem?_eq_none (by omega)]

theorem elems_raw {t : Raw T} (ht : WF t) : elems (.raw t) = t.array := by
  apply ext_allIndices (shape := t.shape) (elems_length (x := .raw t) ht) ht
  intro idx h
  exact elems_getElem? (x := .raw t) ht h

/-! ### inversion of reads: a successful read is the broadcast element -/

theorem Raw.get_ok_inv {t : Raw T} {idx : List Nat} {v : T} (h : t.get idx = .ok v) :
    Readable t.shape idx ∧ Raw.elem? t (bproj t.shape idx) = some v := by
  by_cases hr : Readable t.shape idx
  · refine ⟨hr, ?_⟩
    rw [Raw.get_readable hr] at h
    exact idxR_eq_ok.1 h
  · obtain ⟨e, he⟩ := globalIndex_none_err hr
    simp [Raw.get, he, R.err] at h

theorem trips_map_fst_snd {idx shape : List Nat} {rv : List SliceRange} (h : rv.length = shape.length) :
    (trips idx shape rv).length = shape.length - (shape.length - idx.length) := by
  unfold trips
  simp only [List.length_zip, List.length_drop]; omega

/-- what a successful read through ranges read -/
theorem globalIndex_some_inv {idx shape : List Nat} {rv : List SliceRange} {g : Nat} (fit : RangesFit rv shape)
    (hp : Pos (rv.map (fun r => r.stop - r.start))) (h : globalIndex idx shape (some rv) = .ok g) :
    g = rowMajor shape (shift rv (bproj (rv.map (fun r => r.stop - r.start)) idx)) ∧
    (∀ d ∈ shape.take (shape.length - idx.length), d ≤ 1) ∧
    ∀ t ∈ trips idx shape rv, t.1 = 1 ∨ t.2.1 < t.2.2.stop - t.2.2.start := by
  have hl := RangesFit.length fit
  rw [globalIndex_some fit] at h
  split at h
  case isFalse => simp [R.err] at h
  rename_i hlead
  by_cases hok : ∀ t ∈ trips idx shape rv, t.1 = 1 ∨ t.2.1 < t.2.2.stop - t.2.2.start
  case neg =>
    rw [tripLoop_err _ (fun t ht => trips_fit fit t (List.mem_reverse.1 ht))
      (fun hall => hok (fun t ht => hall t (List.mem_reverse.2 ht)))] at h
    simp [R.err] at h
  rw [tripLoop_ok _ (trips_fit fit) hok] at h
  simp only [Nat.zero_add, Nat.one_mul, trips_fst hl, Except.ok.injEq] at h
  refine ⟨?_, hlead, hok⟩
  rw [← h]
  -- the leading part of the shifted index is zero
  have hsplit : shift rv (bproj (rv.map (fun r => r.stop - r.start)) idx)
      = List.replicate (shape.length - idx.length) 0 ++ (trips idx shape rv).map tripComp := by
    have hlen1 : (shift rv (bproj (rv.map (fun r => r.stop - r.start)) idx)).length = shape.length := by
      simp [shift, bproj, alignRight, hl]; omega
    apply List.ext_getElem
    · rw [hlen1, List.length_append, List.length_map, trips_map_fst_snd hl, List.length_replicate]; omega
    intro k h1 h2
    have hk : k < shape.length := by rwa [hlen1] at h1
    have hkr : k < rv.length := by omega
    have hfit := (List.forall₂_iff_get.1 fit).2 k hkr hk
    simp only [List.get_eq_getElem] at hfit
    have hpos := hp (rv[k].stop - rv[k].start) (List.mem_map.2 ⟨rv[k], List.getElem_mem _, rfl⟩)
    simp only [shift, bproj, alignRight, List.getElem_zipWith, List.getElem_map, List.length_map]
    rw [List.getElem_append, List.getElem_append]
    by_cases hk2 : k < shape.length - idx.length
    · have hd : shape[k] ≤ 1 := hlead _ (by
        rw [List.mem_take_iff_getElem]
        exact ⟨k, by omega, rfl⟩)
      rw [dif_pos (by simp [hl]; omega), dif_pos (by simp; omega)]
      simp only [List.getElem_replicate]
      split <;> omega
    · rw [dif_neg (by simp [hl]; omega), dif_neg (by simp; omega)]
      simp only [List.length_replicate, List.getElem_map, List.getElem_drop]
      have hkt : k - (shape.length - idx.length) < (trips idx shape rv).length := by
        rw [trips_map_fst_snd hl]; omega
      have ht := hok _ (List.getElem_mem hkt)
      have e1 : (trips idx shape rv)[k - (shape.length - idx.length)].1 = shape[k] := by
        simp only [trips, List.getElem_zip, List.getElem_drop]
        congr 1; omega
      have e3 : (trips idx shape rv)[k - (shape.length - idx.length)].2.2 = rv[k] := by
        simp only [trips, List.getElem_zip, List.getElem_drop]
        congr 1; omega
      have e2 : (trips idx shape rv)[k - (shape.length - idx.length)].2.1
          = idx[idx.length - rv.length + (k - (rv.length - idx.length))]'(by omega) := by
        simp only [trips, List.getElem_zip, List.getElem_drop]
        congr 1; omega
      simp only [tripComp]
      rw [e1, e2, e3] at ht ⊢
      split <;> split <;> omega
  rw [hsplit, rowMajor_zeros_append _ _ _ (by omega)]

theorem View.get_ok_inv {v : View T} (hv : ViewOk v) (hp : Pos v.shape) {idx : List Nat} {x : T}
    (h : v.get idx = .ok x) : View.elem? v (bproj v.shape idx) = some x := by
  unfold View.get at h
  cases hg : globalIndex idx v.tensor.shape (some v.offset) with
  | error e => cases e <;> simp [hg, R.panic] at h
  | ok g =>
    simp only [hg, unwrapR_ok, R.bind_ok] at h
    rw [hv.2.2] at hp
    have := (globalIndex_some_inv hv.2.1 hp hg).1
    rw [View.elem?, Raw.elem?, hv.2.2, ← this]
    exact idxR_eq_ok.1 h

theorem TL.get_ok_inv {x : TL T} (hx : Ok x) (hp : Pos x.shape) {idx : List Nat} {v : T}
    (h : x.get idx = .ok v) : elem? x (bproj x.shape idx) = some v := by
  cases x with
  | raw t => exact (Raw.get_ok_inv h).2
  | view w => exact View.get_ok_inv hx hp h

/-! ### loops that build an array -/

theorem foldlM_append {α β : Type _} (g : α → R β) (l : List α) (acc : List β) :
    l.foldlM (fun acc a => do let v ← g a; return acc ++ [v]) acc = (do let r ← l.mapM g; return acc ++ r) := by
  induction l generalizing acc with
  | nil => simp
  | cons a l ih =>
    rw [List.foldlM_cons, List.mapM_cons]
    cases g a with
    | error e => rfl
    | ok v =>
      simp only [R.bind_ok]
      refine (ih (acc ++ [v])).trans ?_
      cases l.mapM g <;> simp

theorem forIndices_append {β : Type _} {dims : List Nat} (hp : Pos dims) (g : List Nat → R β) :
    forIndices dims [] (fun acc a => do let v ← g a; return acc ++ [v]) = (allIndices dims).mapM g := by
  rw [forIndices_eq hp, foldlM_append]
  cases (allIndices dims).mapM g <;> simp

/-- writing every cell in order -/
theorem foldlM_set (shape : List Nat) (g : List Nat → R T) :
    ∀ (l : List (List Nat)) (pre suf : List T), l = (allIndices shape).drop pre.length →
      suf.length = l.length →
      l.foldlM (fun (t : Raw T) idx => do let v ← g idx; unwrapR (t.set idx v)) { array := pre ++ suf, shape }
        = (do let r ← l.mapM g; return { array := pre ++ r, shape }) := by
  intro l
  induction l with
  | nil =>
    intro pre suf _ hs
    have : suf = [] := by simpa using hs
    subst this; simp
  | cons idx l ih =>
    intro pre suf hl hs
    rw [List.foldlM_cons, List.mapM_cons]
    have hlt : pre.length < (allIndices shape).length := by
      by_contra hc
      rw [List.drop_of_length_le (by omega)] at hl
      simp at hl
    rw [List.drop_eq_getElem_cons hlt, List.cons.injEq] at hl
    have hin : InRange shape idx := by rw [hl.1]; exact inRange_getElem_allIndices hlt
    have hrm : rowMajor shape idx = pre.length := by rw [hl.1, rowMajor_getElem_allIndices]
    cases g idx with
    | error e => rfl
    | ok v =>
      match suf, hs with
      | s :: suf, hs =>
        have hset : Raw.set { array := pre ++ s :: suf, shape } idx v
            = .ok { array := (pre ++ [v]) ++ suf, shape } := by
          simp [Raw.set, globalIndex_inRange hin, hrm, List.set_append]
        simp only [R.bind_ok, hset, unwrapR_ok]
        rw [ih (pre ++ [v]) suf (by simpa using hl.2) (by simpa using hs)]
        cases l.mapM g <;> simp

theorem forIndices_set {shape : List Nat} (hp : Pos shape) (filler : T) (g : List Nat → R T) :
    forIndices shape (Raw.newWithFiller shape filler)
      (fun (t : Raw T) idx => do let v ← g idx; unwrapR (t.set idx v))
      = (do let r ← (allIndices shape).mapM g; return { array := r, shape }) := by
  rw [forIndices_eq hp, Raw.newWithFiller_eq]
  have := foldlM_set shape g (allIndices shape) [] (List.replicate shape.prod filler) (by simp)
    (by simp [allIndices_length])
  simpa using this

/-! ### broadcasting shapes -/

/-- broadcast shape on reversed lists -/
def bshapeR : List Nat → List Nat → List Nat
  | [], r => r
  | l, [] => l
  | a :: l, b :: r => (if a = 1 then b else a) :: bshapeR l r

/-- compatibility on reversed lists -/
def CompatR : List Nat → List Nat → Prop
  | [], _ => True
  | _, [] => True
  | a :: l, b :: r => (a = b ∨ a = 1 ∨ b = 1) ∧ CompatR l r

theorem padLeft_reverse (n : Nat) (s : List Nat) :
    (padLeft n s).reverse = s.reverse ++ List.replicate (n - s.length) 1 := by
  simp [padLeft]

theorem padLeft_length {n : Nat} {s : List Nat} (h : s.length ≤ n) : (padLeft n s).length = n := by
  simp [padLeft]; omega

theorem zipWith_padR (f : Nat → Nat → Nat) (g : List Nat → List Nat → List Nat)
    (h0 : ∀ r, g [] r = r) (h1 : ∀ l, g l [] = l) (h2 : ∀ a l b r, g (a :: l) (b :: r) = f a b :: g l r)
    (hf1 : ∀ b, f 1 b = b) (hf2 : ∀ a, f a 1 = a) :
    ∀ (l r : List Nat) (n : Nat), n = max l.length r.length →
      List.zipWith f (l ++ List.replicate (n - l.length) 1) (r ++ List.replicate (n - r.length) 1) = g l r := by
  intro l
  induction l with
  | nil =>
    intro r n hn
    rw [h0]
    simp only [List.length_nil, Nat.sub_zero, List.nil_append]
    simp only [List.length_nil, Nat.zero_max] at hn
    subst hn
    simp only [Nat.sub_self, List.replicate_zero, List.append_nil]
    apply List.ext_getElem
    · simp
    · intro k _ _; simp [hf1]
  | cons a l ih =>
    intro r n hn
    cases r with
    | nil =>
      rw [h1]
      simp only [List.length_nil, Nat.max_zero] at hn
      subst hn
      simp only [List.length_nil, Nat.sub_zero, List.nil_append, Nat.sub_self, List.replicate_zero,
        List.append_nil]
      apply List.ext_getElem
      · simp
      · intro k _ _; simp [hf2]
    | cons b r =>
      rw [h2]
      simp only [List.length_cons, List.cons_append, List.zipWith_cons_cons] at hn ⊢
      rw [← ih r (n - 1) (by omega)]
      congr 4 <;> omega

theorem bshape_reverse (l r : List Nat) : (bshape l r).reverse = bshapeR l.reverse r.reverse := by
  unfold bshape
  rw [List.reverse_zipWith (by rw [padLeft_length (le_max_left _ _), padLeft_length (le_max_right _ _)]),
    padLeft_reverse, padLeft_reverse]
  have := zipWith_padR (fun a b => if a = 1 then b else a) bshapeR (by intro r; simp [bshapeR])
    (by intro l; cases l <;> simp [bshapeR]) (by intros; simp [bshapeR]) (by simp)
    (by intro a; split <;> simp_all) l.reverse r.reverse (max l.length r.length) (by simp)
  simpa using this

theorem compat_iff (l r : List Nat) : Compatible l r ↔ CompatR l.reverse r.reverse := by
  unfold Compatible
  rw [← List.forall₂_reverse_iff, padLeft_reverse, padLeft_reverse]
  have key : ∀ (l r : List Nat) (n : Nat), n = max l.length r.length →
      (List.Forall₂ (fun a b => a = b ∨ a = 1 ∨ b = 1) (l ++ List.replicate (n - l.length) 1)
        (r ++ List.replicate (n - r.length) 1) ↔ CompatR l r) := by
    intro l
    induction l with
    | nil =>
      intro r n hn
      simp only [List.length_nil, Nat.zero_max] at hn
      subst hn
      simp only [CompatR, iff_true]
      rw [List.forall₂_iff_get]
      refine ⟨by simp, ?_⟩
      intro k _ _; simp
    | cons a l ih =>
      intro r n hn
      cases r with
      | nil =>
        simp only [List.length_nil, Nat.max_zero] at hn
        subst hn
        simp only [CompatR, iff_true]
        rw [List.forall₂_iff_get]
        refine ⟨by simp, ?_⟩
        intro k _ _; simp
      | cons b r =>
        simp only [List.length_cons, List.cons_append, List.forall₂_cons, CompatR] at hn ⊢
        rw [← ih r (n - 1) (by omega)]
        rw [show n - (l.length + 1) = n - 1 - l.length by omega,
          show n - (r.length + 1) = n - 1 - r.length by omega]
  have := key l.reverse r.reverse (max l.length r.length) (by simp)
  simpa using this

theorem maxShape_eq_bshape {l r : List Nat} (hl : Pos l) (hr : Pos r) (hc : Compatible l r) :
    maxShape l r = bshape l r := by
  rw [← List.reverse_inj, bshape_reverse, maxShape, List.reverse_reverse]
  rw [compat_iff] at hc
  have hl' : Pos l.reverse := fun d hd => hl d (by simpa using hd)
  have hr' : Pos r.reverse := fun d hd => hr d (by simpa using hd)
  generalize l.reverse = a at *
  generalize r.reverse = b at *
  clear hl hr
  induction a generalizing b with
  | nil => cases b <;> simp [zipLongestMax, bshapeR]
  | cons x a ih =>
    cases b with
    | nil => simp [zipLongestMax, bshapeR]
    | cons y b =>
      simp only [CompatR] at hc
      simp only [zipLongestMax, bshapeR, ih hl'.tail b hr'.tail hc.2]
      have h1 := hl' x (by simp)
      have h2 := hr' y (by simp)
      congr 1
      split <;> omega

theorem maxShape_pos {l r : List Nat} (hl : Pos l) (hr : Pos r) : Pos (maxShape l r) := by
  have hl' : Pos l.reverse := fun d hd => hl d (by simpa using hd)
  have hr' : Pos r.reverse := fun d hd => hr d (by simpa using hd)
  suffices Pos (zipLongestMax l.reverse r.reverse) by
    intro d hd; exact this d (by simpa [maxShape] using hd)
  generalize l.reverse = a at *
  generalize r.reverse = b at *
  clear hl hr
  induction a generalizing b with
  | nil => cases b <;> simpa [zipLongestMax] using hr'
  | cons x a ih =>
    cases b with
    | nil => simpa [zipLongestMax] using hl'
    | cons y b =>
      intro d hd
      simp only [zipLongestMax, List.mem_cons] at hd
      rcases hd with rfl | hd
      · have := hl' x (by simp); omega
      · exact ih hl'.tail b hr'.tail d hd

theorem broadcastable_iff (x : TL T) (s : List Nat) : x.broadcastable s = true ↔ Compatible x.shape s := by
  rw [compat_iff]
  unfold TL.broadcastable
  generalize x.shape.reverse = a
  generalize s.reverse = b
  induction a generalizing b with
  | nil => simp [CompatR]
  | cons x a ih =>
    cases b with
    | nil => simp [CompatR]
    | cons y b =>
      simp only [List.zip_cons_cons, List.all_cons, Bool.and_eq_true, ih, CompatR]
      constructor
      · rintro ⟨h1, h2⟩
        refine ⟨?_, h2⟩
        by_cases e : x = y
        · exact Or.inl e
        · simpa [e] using h1
      · rintro ⟨h1, h2⟩
        refine ⟨?_, h2⟩
        by_cases e : x = y
        · simp [e]
        · simpa [e] using h1

/-- readable, on reversed lists -/
theorem readable_iff_reverse {shape idx : List Nat} (h : shape.length ≤ idx.length) :
    Readable shape idx ↔ List.Forall₂ (fun d i => d = 1 ∨ i < d) shape.reverse (idx.reverse.take shape.length) := by
  unfold Readable
  rw [List.take_reverse, List.forall₂_reverse_iff]
  simp [show shape.length - idx.length = 0 by omega]

theorem readable_left_right {l r idx : List Nat} (hc : Compatible l r) (hi : InRange (bshape l r) idx) :
    Readable l idx ∧ Readable r idx := by
  have hlen := hi.length
  have hbl : (bshape l r).length = max l.length r.length := by
    simp [bshape, padLeft_length]
  have hi' : List.Forall₂ (fun d i => i < d) (bshapeR l.reverse r.reverse) idx.reverse := by
    rw [← bshape_reverse]; exact List.forall₂_reverse_iff.2 hi
  rw [compat_iff] at hc
  have e1 : l.length = l.reverse.length := by simp
  have e2 : r.length = r.reverse.length := by simp
  rw [readable_iff_reverse (by omega), readable_iff_reverse (by omega), e1, e2]
  generalize l.reverse = a at *
  generalize r.reverse = b at *
  generalize idx.reverse = c at *
  clear hlen hbl hi e1 e2
  induction a generalizing b c with
  | nil =>
    simp only [bshapeR] at hi'
    refine ⟨by simp, ?_⟩
    rw [hi'.length_eq, List.take_length]
    exact hi'.imp (fun _ _ h => Or.inr h)
  | cons x a ih =>
    cases b with
    | nil =>
      simp only [bshapeR] at hi'
      refine ⟨?_, by simp⟩
      rw [hi'.length_eq, List.take_length]
      exact hi'.imp (fun _ _ h => Or.inr h)
    | cons y b =>
      simp only [bshapeR] at hi'
      simp only [CompatR] at hc
      cases hi' with
      | @cons _ i _ is hi1 hi2 =>
        have := ih b hc.2 is hi2
        simp only [List.length_cons, List.take_succ_cons]
        refine ⟨.cons ?_ this.1, .cons ?_ this.2⟩
        · split at hi1 <;> omega
        · split at hi1 <;> omega

/-! ### binary operations -/

theorem genericBinopRaw_eq [Zero T] {l r : TL T} (hl : Pos l.shape) (hr : Pos r.shape) (op : T → T → T) :
    genericBinopRaw l r op = if l.broadcastable r.shape then
        (do let a ← (allIndices (maxShape l.shape r.shape)).mapM (fun idx => do
              let x ← unwrapR (l.get idx)
              let y ← unwrapR (r.get idx)
              return op x y)
            return { array := a, shape := maxShape l.shape r.shape })
      else R.panic .assert := by
  unfold genericBinopRaw
  cases l.broadcastable r.shape with
  | false => rfl
  | true =>
    simp only [assertR_true, R.bind_ok, if_true]
    rw [← forIndices_set (maxShape_pos hl hr) 0]
    congr 1
    funext t idx
    cases unwrapR (l.get idx) with
    | error e => rfl
    | ok x => cases unwrapR (r.get idx) <;> rfl

/-! ### unary operations, views to tensors, sums -/

theorem forElems_eq {σ : Type _} {x : TL T} (hx : Ok x) (hp : Pos x.shape) (init : σ) (f : σ → T → σ) :
    forElems x init (fun s e => return f s e) = .ok ((elems x).foldl f init) := by
  unfold forElems
  rw [forIndices_eq hp]
  have : ∀ (l : List (List Nat)) (es : List T) (s : σ), l.mapM (fun idx => unwrapR (x.get idx)) = .ok es →
      l.foldlM (fun s idx => do let e ← unwrapR (x.get idx); (pure (f s e) : R σ)) s = .ok (es.foldl f s) := by
    intro l
    induction l with
    | nil => intro es s h; simp at h; subst h; rfl
    | cons idx l ih =>
      intro es s h
      rw [mapM_ok_iff] at h
      cases h with
      | cons h1 h2 =>
        rw [List.foldlM_cons, h1]
        exact ih _ _ (mapM_ok_iff.2 h2)
  exact this _ _ _ (mapM_get hx)

theorem foldl_append_singleton {α : Type _} (l acc : List α) :
    l.foldl (fun acc e => acc ++ [e]) acc = acc ++ l := by
  induction l generalizing acc with
  | nil => simp
  | cons a l ih => simp [ih]

theorem toTensor_view {v : View T} (hv : ViewOk v) (hp : Pos v.shape) :
    (TL.view v).toTensor = .ok { array := elems (.view v), shape := v.shape } := by
  simp only [TL.toTensor]
  rw [forElems_eq (x := .view v) hv hp [] (fun acc e => acc ++ [e])]
  simp only [foldl_append_singleton, List.nil_append, R.bind_ok]
  exact Raw.new_ok (elems_length (x := .view v) hv)

theorem toTensor_ok {x : TL T} (hx : Ok x) (hp : Pos x.shape) :
    x.toTensor = .ok { array := elems x, shape := x.shape } := by
  cases x with
  | raw t => rw [elems_raw hx]; rfl
  | view v => exact toTensor_view hx hp

theorem unaryLoop {x : TL T} (hx : Ok x) (op : T → T) :
    ∀ (n k : Nat) (acc : List T), k + n = (allIndices x.shape).length → (hk : k < (allIndices x.shape).length) →
      ∃ idx', (List.replicate n ()).foldlM (init := (acc, (allIndices x.shape)[k]))
        (fun (st : List T × List Nat) _ => do
          let elem ← unwrapR (x.get st.2)
          let (idx', _) ← incrementIndex st.2 x.shape
          return (st.1 ++ [op elem], idx'))
        = (.ok (acc ++ ((elems x).drop k).map op, idx') : R (List T × List Nat)) := by
  intro n
  induction n with
  | zero => intro k acc h hk; omega
  | succ n ih =>
    intro k acc h hk
    have hin := inRange_getElem_allIndices hk
    obtain ⟨v, h1, h2⟩ := TL.get_ok hx hin
    have hkE : k < (elems x).length := by rw [elems_length hx, ← allIndices_length]; exact hk
    have hv : (elems x)[k] = v := by
      have := elems_getElem? hx hin
      rw [rowMajor_getElem_allIndices, h1, List.getElem?_eq_getElem hkE, Option.some.injEq] at this
      exact this
    rw [List.replicate_succ, List.foldlM_cons]
    simp only [h2, unwrapR_ok, R.bind_ok]
    rw [List.drop_eq_getElem_cons hkE, List.map_cons, hv]
    by_cases hk2 : k + 1 < (allIndices x.shape).length
    · rw [incrementIndex_getElem hk2]
      obtain ⟨idx', hidx⟩ := ih (k + 1) (acc ++ [op v]) (by omega) hk2
      refine ⟨idx', Eq.trans hidx ?_⟩
      simp
    · rw [incrementIndex_last (by omega)]
      have hn : n = 0 := by omega
      subst hn
      refine ⟨(allIndices x.shape)[k], ?_⟩
      rw [List.drop_of_length_le (by rw [elems_length hx, ← allIndices_length]; omega)]
      simp

theorem foldlM_range_const {σ : Type _} (f : σ → R σ) (n : Nat) (s : σ) :
    (List.range n).foldlM (fun s _ => f s) s = (List.replicate n ()).foldlM (fun s _ => f s) s := by
  have : ∀ (l : List Nat) s, l.foldlM (fun s _ => f s) s
      = (List.replicate l.length ()).foldlM (fun s _ => f s) s := by
    intro l
    induction l with
    | nil => intro s; rfl
    | cons a l ih =>
      intro s
      rw [List.foldlM_cons, List.length_cons, List.replicate_succ, List.foldlM_cons]
      congr 1
      funext s'
      exact ih s'
  rw [this, List.length_range]

theorem pos_of_prod_pos {shape : List Nat} (h : 0 < shape.prod) : Pos shape := by
  induction shape with
  | nil => simp [Pos]
  | cons d ds ih =>
    rw [List.prod_cons] at h
    intro x hx
    rcases List.mem_cons.1 hx with rfl | hx
    · exact Nat.pos_of_mul_pos_right h
    · exact ih (Nat.pos_of_mul_pos_left h) x hx

theorem genericUnaryOp_eq {x : TL T} (hx : Ok x) (hp : (∃ t, x = .raw t) ∨ Pos x.shape) (op : T → T) :
    genericUnaryOp x op = .ok { array := (elems x).map op, shape := x.shape } := by
  have htt : x.toTensor = .ok { array := elems x, shape := x.shape } := by
    rcases hp with ⟨t, rfl⟩ | hp
    · rw [elems_raw hx]; rfl
    · exact toTensor_ok hx hp
  unfold genericUnaryOp
  rw [htt]
  simp only [R.bind_ok, TL.count, elems_length hx]
  by_cases h0 : 0 < x.shape.prod
  · have hpos := pos_of_prod_pos h0
    have hlen : 0 < (allIndices x.shape).length := by rw [allIndices_length]; exact h0
    have hz : (allIndices x.shape)[0] = List.replicate x.shape.length 0 := by
      have := getElem_zero_allIndices hpos
      rw [List.getElem?_eq_getElem hlen] at this
      exact Option.some.inj this
    obtain ⟨idx', h⟩ := unaryLoop hx op x.shape.prod 0 [] (by rw [allIndices_length]; omega) hlen
    rw [hz] at h
    rw [foldlM_range_const (fun (st : List T × List Nat) => do
          let elem ← unwrapR (x.get st.2)
          let (idx', _) ← incrementIndex st.2 x.shape
          return (st.1 ++ [op elem], idx'))]
    rw [h]
    simp only [R.bind_ok, List.drop_zero, List.nil_append]
    exact Raw.new_ok (by rw [List.length_map, elems_length hx])
  · have h0' : x.shape.prod = 0 := by omega
    rw [h0']
    have he : elems x = [] := by
      have := elems_length hx
      rw [h0'] at this
      exact List.length_eq_zero_iff.1 this
    simp only [List.range_zero, List.foldlM_nil, R.pure_eq, R.bind_ok, he, List.map_nil]
    exact Raw.new_ok (by simp [h0'])

/-! ### elementwise product -/

theorem elementWiseMul_eq [Mul T] {l r : TL T} (hl : Ok l) (hr : Ok r) (hs : l.shape = r.shape) (hp : Pos l.shape) :
    elementWiseMul l r = .ok { array := List.zipWith (fun x y => x * y) (elems l) (elems r), shape := l.shape } := by
  unfold elementWiseMul
  have : l.sameShape r = true := by simp [TL.sameShape, hs]
  simp only [this, assertR_true, R.bind_ok]
  have e := forIndices_append hp (fun idx => do
    let x ← unwrapR (l.get idx)
    let y ← unwrapR (r.get idx)
    return x * y)
  have e2 : (fun (acc : List T) idx => (do
      let v ← (do
        let x ← unwrapR (l.get idx)
        let y ← unwrapR (r.get idx)
        return x * y : R T)
      return acc ++ [v] : R (List T)))
      = (fun acc idx => do
        let x ← unwrapR (l.get idx)
        let y ← unwrapR (r.get idx)
        return acc ++ [x * y]) := by
    funext acc idx
    cases unwrapR (l.get idx) with
    | error e => rfl
    | ok x => cases unwrapR (r.get idx) <;> rfl
  rw [e2] at e
  rw [e]
  have hm : (allIndices l.shape).mapM (fun idx => do
      let x ← unwrapR (l.get idx)
      let y ← unwrapR (r.get idx)
      return x * y) = .ok (List.zipWith (fun x y => x * y) (elems l) (elems r)) := by
    have h1 := mapM_get hl
    have h2 := mapM_get hr
    rw [← hs] at h2
    generalize elems l = as at *
    generalize elems r = bs at *
    generalize allIndices l.shape = L at *
    clear e e2 this hp hs hl hr
    induction L generalizing as bs with
    | nil => simp at h1 h2; subst h1; subst h2; rfl
    | cons idx L ih =>
      rw [mapM_ok_iff] at h1 h2
      cases h1 with
      | cons a1 a2 =>
        cases h2 with
        | cons b1 b2 =>
          rw [List.mapM_cons, a1, b1, ih _ _ (mapM_ok_iff.2 a2) (mapM_ok_iff.2 b2)]
          rfl
  rw [hm]
  simp only [R.bind_ok]
  exact Raw.new_ok (by rw [List.length_zipWith, elems_length hl, elems_length hr, hs]; simp)

end RL
