import Verif.Lemmas.Ops
import Mathlib.Algebra.Ring.Defs

namespace RL

open Spec

variable {T : Type}

theorem compat_symm {l r : List Nat} (h : Compatible l r) : Compatible r l := by
  unfold Compatible at *
  rw [max_comm]
  exact (List.Forall₂.flip h).imp (fun _ _ h => by omega)

theorem compat_self (s : List Nat) : Compatible s s :=
  List.forall₂_same.2 (fun _ _ => Or.inl rfl)

theorem bshape_self (s : List Nat) : bshape s s = s := by
  simp only [bshape, max_self, padLeft, Nat.sub_self, List.replicate_zero, List.nil_append]
  rw [List.zipWith_self]
  conv_rhs => rw [← List.map_id s]
  apply List.map_congr_left
  intro a _
  simp

theorem zipLongestMax_comm (a b : List Nat) : zipLongestMax a b = zipLongestMax b a := by
  induction a generalizing b with
  | nil => cases b <;> simp [zipLongestMax]
  | cons x a ih => cases b <;> simp [zipLongestMax, ih, Nat.max_comm]

theorem maxShape_comm (l r : List Nat) : maxShape l r = maxShape r l := by
  simp [maxShape, zipLongestMax_comm]

theorem zipLongestMax_self (a : List Nat) : zipLongestMax a a = a := by
  induction a with
  | nil => rfl
  | cons x a ih => simp [zipLongestMax, ih]

theorem maxShape_self (s : List Nat) : maxShape s s = s := by
  simp [maxShape, zipLongestMax_self]

theorem mapM_congr' {α β : Type} {f g : α → R β} {l : List α} (h : ∀ a ∈ l, f a = g a) : l.mapM f = l.mapM g := by
  induction l with
  | nil => rfl
  | cons a l ih => rw [List.mapM_cons, List.mapM_cons, h a (by simp), ih (fun b hb => h b (by simp [hb]))]

theorem mapM_exists {α β : Type} {f : α → R β} {l : List α} (h : ∀ a ∈ l, ∃ b, f a = .ok b) :
    ∃ bs, l.mapM f = .ok bs := by
  induction l with
  | nil => exact ⟨[], rfl⟩
  | cons a l ih =>
    obtain ⟨b, hb⟩ := h a (by simp)
    obtain ⟨bs, hbs⟩ := ih (fun a ha => h a (by simp [ha]))
    exact ⟨b :: bs, by rw [List.mapM_cons, hb, hbs]; rfl⟩

/-- broadcast value of a binary operation, from a successful run -/
theorem genericBinopRaw_inv [Zero T] {l r : TL T} (hl : Ok l) (hr : Ok r) (pl : Pos l.shape) (pr : Pos r.shape)
    {op : T → T → T} {t : Raw T} (h : genericBinopRaw l r op = .ok t) :
    Compatible l.shape r.shape ∧ t.shape = bshape l.shape r.shape ∧ WF t ∧
    ∀ idx, InRange t.shape idx → ∃ x y, elem? l (bproj l.shape idx) = some x ∧
      elem? r (bproj r.shape idx) = some y ∧ Raw.elem? t idx = some (op x y) := by
  rw [genericBinopRaw_eq pl pr] at h
  cases hb : l.broadcastable r.shape with
  | false => simp [hb, R.panic] at h
  | true =>
    have hc := (broadcastable_iff l r.shape).1 hb
    rw [hb, if_pos rfl, maxShape_eq_bshape pl pr hc] at h
    cases hm : (allIndices (bshape l.shape r.shape)).mapM (fun idx => do
              let x ← unwrapR (l.get idx)
              let y ← unwrapR (r.get idx)
              return op x y) with
    | error e => rw [hm] at h; simp at h
    | ok arr =>
      rw [hm] at h
      simp only [R.bind_ok, R.pure_eq, Except.ok.injEq] at h
      subst h
      obtain ⟨h1, h2⟩ := mapM_allIndices hm
      refine ⟨hc, rfl, h1, fun idx hi => ?_⟩
      obtain ⟨v, h3, h4⟩ := h2 idx hi
      cases hx : l.get idx with
      | error e => cases e <;> simp [hx, R.panic] at h3
      | ok x =>
        cases hy : r.get idx with
        | error e => cases e <;> simp [hx, hy, R.panic] at h3
        | ok y =>
          simp only [hx, hy, unwrapR_ok, R.bind_ok, R.pure_eq, Except.ok.injEq] at h3
          subst h3
          exact ⟨x, y, TL.get_ok_inv hl pl hx, TL.get_ok_inv hr pr hy, h4⟩

theorem genericBinopRaw_raw [Zero T] {l r : Raw T} (hl : WF l) (hr : WF r) (pl : Pos l.shape) (pr : Pos r.shape)
    (op : T → T → T) (hc : Compatible l.shape r.shape) :
    ∃ t, genericBinopRaw (.raw l) (.raw r) op = .ok t := by
  rw [genericBinopRaw_eq (l := .raw l) (r := .raw r) pl pr]
  rw [if_pos ((broadcastable_iff (.raw l) (TL.raw r).shape).2 hc)]
  simp only [TL.shape_raw]
  rw [maxShape_eq_bshape pl pr hc]
  obtain ⟨bs, hbs⟩ := mapM_exists (f := fun idx => (do
      let x ← unwrapR ((TL.raw l).get idx)
      let y ← unwrapR ((TL.raw r).get idx)
      return op x y : R T)) (l := allIndices (bshape l.shape r.shape)) (by
    intro idx hi
    obtain ⟨h1, h2⟩ := readable_left_right hc (mem_allIndices.1 hi)
    have hlt1 : rowMajor l.shape (bproj l.shape idx) < l.array.length := by
      rw [hl]; exact rowMajor_lt (bproj_inRange pl h1)
    have hlt2 : rowMajor r.shape (bproj r.shape idx) < r.array.length := by
      rw [hr]; exact rowMajor_lt (bproj_inRange pr h2)
    simp only [TL.get, Raw.get_readable h1, Raw.get_readable h2, idxR_ok hlt1, idxR_ok hlt2]
    exact ⟨_, rfl⟩)
  rw [hbs]
  exact ⟨_, rfl⟩

/-- same shape: plain zip -/
theorem genericBinopRaw_same [Zero T] {l r : TL T} (hl : Ok l) (hr : Ok r) (hs : l.shape = r.shape) (pl : Pos l.shape)
    (op : T → T → T) :
    genericBinopRaw l r op = .ok { array := List.zipWith op (elems l) (elems r), shape := l.shape } := by
  rw [genericBinopRaw_eq pl (hs ▸ pl), if_pos ((broadcastable_iff _ _).2 (by rw [hs]; exact compat_self _)),
    ← hs, maxShape_self]
  have hm : (allIndices l.shape).mapM (fun idx => do
      let x ← unwrapR (l.get idx)
      let y ← unwrapR (r.get idx)
      return op x y) = .ok (List.zipWith op (elems l) (elems r)) := by
    have h1 := mapM_get hl
    have h2 := mapM_get hr
    rw [← hs] at h2
    generalize elems l = as at *
    generalize elems r = bs at *
    generalize allIndices l.shape = L at *
    clear hs hl hr pl
    induction L generalizing as bs with
    | nil => simp at h1 h2; subst h1; subst h2; rfl
    | cons idx L ih =>
      rw [mapM_ok_iff] at h1 h2
      cases h1 with
      | cons a1 a2 =>
        cases h2 with
        | cons b1 b2 =>
          rw [List.mapM_cons, a1, b1, ih _ _ (mapM_ok_iff.2 a2) (mapM_ok_iff.2 b2)]
          rfl
  rw [hm]; rfl

theorem addRaw_same [Zero T] [Add T] {l r : Raw T} (hl : WF l) (hr : WF r) (hs : l.shape = r.shape) (pl : Pos l.shape) :
    addRaw (.raw l) (.raw r) = .ok { array := List.zipWith (· + ·) l.array r.array, shape := l.shape } := by
  have := genericBinopRaw_same (l := .raw l) (r := .raw r) hl hr hs pl (fun a b => a + b)
  rw [elems_raw hl, elems_raw hr] at this
  exact this

theorem negRaw_raw [Neg T] {t : Raw T} (ht : WF t) :
    negRaw (.raw t) = .ok { array := t.array.map (fun v => -v), shape := t.shape } := by
  have := genericUnaryOp_eq (x := .raw t) ht (Or.inl ⟨t, rfl⟩) (fun v => -v)
  rw [elems_raw ht] at this
  exact this

/-- a tensor is determined by its shape and elements -/
theorem Raw.ext_elem {a b : Raw T} (ha : WF a) (hb : WF b) (hs : a.shape = b.shape)
    (h : ∀ idx, InRange a.shape idx → Raw.elem? a idx = Raw.elem? b idx) : a = b := by
  obtain ⟨aa, as⟩ := a
  obtain ⟨ba, bs⟩ := b
  simp only at hs
  subst hs
  congr 1
  exact ext_allIndices (shape := as) ha hb h

/-! ### dot -/

theorem dotLoop_aux [Zero T] [Add T] [Mul T] (a b : List T) (h : a.length = b.length) :
    ∀ (n : Nat) (acc : T), n ≤ a.length →
    (List.range n).foldlM (init := acc) (fun result i => do
      let l ← idxR a i
      let r ← idxR b i
      return result + l * r)
    = (.ok ((List.zipWith (· * ·) (a.take n) (b.take n)).foldl (· + ·) acc) : R T) := by
  intro n
  induction n with
  | zero => intro acc _; simp
  | succ n ih =>
    intro acc hn
    rw [List.range_succ, List.foldlM_append, ih acc (by omega)]
    have h1 : n < a.length := by omega
    have h2 : n < b.length := by omega
    simp only [R.bind_ok, List.foldlM_cons, List.foldlM_nil, idxR_ok h1, idxR_ok h2, R.pure_eq]
    rw [take_succ_eq h1, take_succ_eq h2, List.zipWith_append (by simp; omega), List.foldl_append]
    simp

theorem dotRaw_raw [Zero T] [Add T] [Mul T] {l r : Raw T} (hl : WF l) (hr : WF r) (hs : l.shape = r.shape) :
    dotRaw (.raw l) (.raw r) =
      .ok { array := [(List.zipWith (· * ·) l.array r.array).foldl (· + ·) 0], shape := [1] } := by
  have hlen : l.array.length = r.array.length := by rw [hl, hr, hs]
  unfold dotRaw
  have : (TL.raw l).sameShape (TL.raw r) = true := by simp [TL.sameShape, hs]
  simp only [this, assertR_true, R.bind_ok, TL.tensor]
  rw [dotLoop_aux l.array r.array hlen l.array.length 0 (le_refl _)]
  simp [List.take_of_length_le, hlen]

/-! ### comparison of views -/

theorem viewEqLoop_from [BEq T] {a b : TL T} (ha : Ok a) (hb : Ok b) (hs : a.shape = b.shape) :
    ∀ (fuel k : Nat) (hk : k < (allIndices a.shape).length),
      (allIndices a.shape).length ≤ k + fuel →
      viewEqLoop a b fuel { index := (allIndices a.shape)[k], dimensions := a.shape, first := false }
        = .ok (((elems a).drop (k + 1)).zip ((elems b).drop (k + 1)) |>.all (fun p => p.1 == p.2)) := by
  intro fuel
  induction fuel with
  | zero => intro k hk hf; omega
  | succ fuel ih =>
    intro k hk hf
    by_cases h : k + 1 < (allIndices a.shape).length
    · simp only [viewEqLoop, IndexIter.next, Bool.false_eq_true, if_false, incrementIndex_getElem h,
        R.bind_ok, if_true, R.pure_eq]
      have hin := inRange_getElem_allIndices h
      obtain ⟨x, x1, x2⟩ := TL.get_ok ha hin
      have hin' : InRange b.shape (allIndices a.shape)[k + 1] := by rw [← hs]; exact hin
      obtain ⟨y, y1, y2⟩ := TL.get_ok hb hin'
      have ex := elems_getElem? ha hin
      have ey := elems_getElem? hb hin'
      rw [← hs, rowMajor_getElem_allIndices] at ey
      rw [rowMajor_getElem_allIndices] at ex
      rw [x1, List.getElem?_eq_some_iff] at ex
      rw [y1, List.getElem?_eq_some_iff] at ey
      obtain ⟨lx, ex⟩ := ex
      obtain ⟨ly, ey⟩ := ey
      rw [x2, y2]
      rw [List.drop_eq_getElem_cons lx, List.drop_eq_getElem_cons ly, ex, ey]
      simp only [resultNe, R.pure_eq, R.bind_ok, List.zip_cons_cons, List.all_cons]
      cases hxy : x == y with
      | false => simp [bne, hxy]
      | true =>
        simp only [bne, hxy, Bool.not_true, Bool.false_eq_true, if_false, Bool.true_and]
        exact ih (k + 1) h (by omega)
    · have h' : k + 1 = (allIndices a.shape).length := by omega
      simp only [viewEqLoop, IndexIter.next, Bool.false_eq_true, if_false, incrementIndex_last h',
        R.bind_ok, R.pure_eq]
      rw [List.drop_of_length_le (by rw [elems_length ha, ← allIndices_length]; omega)]
      simp

theorem View.eq_eq [BEq T] {v : View T} {o : TL T} (hv : ViewOk v) (ho : Ok o) (hp : Pos v.shape) :
    v.eq o = .ok (decide (o.shape = v.shape) && ((elems (.view v)).zip (elems o)).all (fun p => p.1 == p.2)) := by
  unfold View.eq
  by_cases hs : o.shape = v.shape
  · have : (o.shape != v.shape) = false := by simp [hs]
    rw [this]
    simp only [Bool.false_eq_true, if_false, hs, decide_true, Bool.true_and]
    have hpos := prod_pos_of_pos hp
    have hlen : 0 < (allIndices v.shape).length := by rw [allIndices_length]; exact hpos
    have h0 : (allIndices v.shape)[0] = List.replicate v.shape.length 0 := by
      have := getElem_zero_allIndices hp
      rw [List.getElem?_eq_getElem hlen] at this
      exact Option.some.inj this
    have hin := inRange_getElem_allIndices hlen
    obtain ⟨x, x1, x2⟩ := TL.get_ok (x := .view v) hv hin
    have hin' : InRange o.shape (allIndices v.shape)[0] := by rw [hs]; exact hin
    obtain ⟨y, y1, y2⟩ := TL.get_ok ho hin'
    have ex := elems_getElem? (x := .view v) hv hin
    have ey := elems_getElem? ho hin'
    simp only [hs, TL.shape_view] at ex ey
    rw [rowMajor_getElem_allIndices] at ex ey
    rw [x1, List.getElem?_eq_some_iff] at ex
    rw [y1, List.getElem?_eq_some_iff] at ey
    obtain ⟨lx, ex⟩ := ex
    obtain ⟨ly, ey⟩ := ey
    have dx := List.drop_eq_getElem_cons lx
    have dy := List.drop_eq_getElem_cons ly
    rw [ex, List.drop_zero] at dx
    rw [ey, List.drop_zero] at dy
    unfold iterFuel
    simp only [viewEqLoop, IndexIter.new, IndexIter.next, if_true, R.pure_eq, R.bind_ok]
    rw [← h0, x2, y2]
    simp only [resultNe, R.pure_eq, R.bind_ok]
    rw [dx, dy]
    simp only [List.zip_cons_cons, List.all_cons]
    have hfrom := viewEqLoop_from (a := .view v) (b := o) hv ho hs.symm ((v.shape.map (max 1)).prod + 1) 0 hlen
      (by simp only [TL.shape_view]; rw [prod_map_max_one hp, allIndices_length]; omega)
    cases hxy : x == y with
    | false => simp [bne, hxy]
    | true =>
      simp only [bne, hxy, Bool.not_true, Bool.false_eq_true, if_false, Bool.true_and]
      exact hfrom
  · have : (o.shape != v.shape) = true := by simpa using hs
    simp [this, hs]

end RL
