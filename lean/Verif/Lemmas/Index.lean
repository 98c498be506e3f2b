import Verif.Spec
import Mathlib.Algebra.BigOperators.Group.List.Basic
import Mathlib.Data.List.Forall2
import Mathlib.Tactic.Ring
import Mathlib.Data.List.Range

namespace RL

open Spec

/-! ### monad simp lemmas -/

@[simp] theorem R.bind_ok {α β : Type _} (a : α) (f : α → R β) : (Except.ok a >>= f) = f a := rfl
@[simp] theorem R.bind_error {α β : Type _} (e : Fail) (f : α → R β) :
    ((Except.error e : R α) >>= f) = .error e := rfl
@[simp] theorem R.pure_eq {α : Type _} (a : α) : (pure a : R α) = .ok a := rfl
@[simp] theorem unwrapR_ok {α : Type _} (a : α) : unwrapR (Except.ok a) = .ok a := rfl
@[simp] theorem unwrapR_err {α : Type _} (e : IdxErr) :
    unwrapR (Except.error (.err e) : R α) = R.panic .unwrap := rfl
@[simp] theorem unwrapR_panic {α : Type _} (p : Panic) :
    unwrapR (Except.error (.panic p) : R α) = R.panic p := rfl
@[simp] theorem assertR_true : assertR true = .ok () := rfl
@[simp] theorem assertR_false : assertR false = R.panic .assert := rfl

theorem idxR_ok {α : Type _} {l : List α} {i : Nat} (h : i < l.length) : idxR l i = .ok l[i] := by
  simp [idxR, h]

theorem idxR_panic {α : Type _} {l : List α} {i : Nat} (h : l.length ≤ i) :
    idxR l i = R.panic .index := by
  simp [idxR, h]

theorem idxR_eq_ok {α : Type _} {l : List α} {i : Nat} {a : α} : idxR l i = .ok a ↔ l[i]? = some a := by
  unfold idxR
  cases h : l[i]? <;> simp [R.panic]

theorem assertR_of {c : Bool} (h : c = true) : assertR c = .ok () := by simp [h]

/-! ### row-major positions -/

theorem Spec.InRange.length {shape idx : List Nat} (h : InRange shape idx) : shape.length = idx.length :=
  List.Forall₂.length_eq h

theorem rowMajor_append {ds is : List Nat} (h : ds.length = is.length) (d i : Nat) :
    rowMajor (ds ++ [d]) (is ++ [i]) = rowMajor ds is * d + i := by
  induction ds generalizing is with
  | nil =>
    cases is with
    | nil => simp [rowMajor]
    | cons _ _ => simp at h
  | cons e ds ih =>
    cases is with
    | nil => simp at h
    | cons j is =>
      simp only [List.length_cons, Nat.add_right_cancel_iff] at h
      simp only [List.cons_append, rowMajor, ih h, List.prod_append, List.prod_cons, List.prod_nil]
      ring

theorem rowMajor_lt {shape idx : List Nat} (h : InRange shape idx) : rowMajor shape idx < shape.prod := by
  induction h with
  | nil => simp [rowMajor]
  | @cons d i ds is hi hr ih =>
    simp only [rowMajor, List.prod_cons]
    calc i * ds.prod + rowMajor ds is < i * ds.prod + ds.prod := by omega
      _ = (i + 1) * ds.prod := by ring
      _ ≤ d * ds.prod := Nat.mul_le_mul_right _ hi

theorem rowMajor_inj {shape a b : List Nat} (ha : InRange shape a) (hb : InRange shape b)
    (h : rowMajor shape a = rowMajor shape b) : a = b := by
  induction ha generalizing b with
  | nil => cases hb; rfl
  | @cons d i ds is hi hr ih =>
    cases hb with
    | @cons _ j _ js hj hs =>
      simp only [rowMajor] at h
      have h1 := rowMajor_lt hr
      have h2 := rowMajor_lt hs
      have hij : i = j := by
        rcases Nat.lt_trichotomy i j with hlt | heq | hgt
        · have : (i + 1) * ds.prod ≤ j * ds.prod := Nat.mul_le_mul_right _ hlt
          have e : (i + 1) * ds.prod = i * ds.prod + ds.prod := by ring
          omega
        · exact heq
        · have : (j + 1) * ds.prod ≤ i * ds.prod := Nat.mul_le_mul_right _ hgt
          have e : (j + 1) * ds.prod = j * ds.prod + ds.prod := by ring
          omega
      subst hij
      rw [ih hs (by omega)]

theorem prod_pos_of_pos {shape : List Nat} (h : Pos shape) : 0 < shape.prod := by
  induction shape with
  | nil => simp
  | cons d ds ih =>
    rw [List.prod_cons]
    exact Nat.mul_pos (h d (by simp)) (ih (fun x hx => h x (by simp [hx])))

theorem Spec.Pos.tail {d : Nat} {ds : List Nat} (h : Pos (d :: ds)) : Pos ds :=
  fun x hx => h x (by simp [hx])

theorem Spec.Pos.append {a b : List Nat} : Pos (a ++ b) ↔ Pos a ∧ Pos b := by
  simp only [Pos, List.mem_append]
  constructor
  · intro h; exact ⟨fun d hd => h d (Or.inl hd), fun d hd => h d (Or.inr hd)⟩
  · rintro ⟨h1, h2⟩ d (hd | hd)
    · exact h1 d hd
    · exact h2 d hd

theorem inRange_zero {shape : List Nat} (h : Pos shape) : InRange shape (List.replicate shape.length 0) := by
  induction shape with
  | nil => exact .nil
  | cons d ds ih => exact .cons (h d (by simp)) (ih h.tail)

theorem rowMajor_zero (shape : List Nat) : rowMajor shape (List.replicate shape.length 0) = 0 := by
  induction shape with
  | nil => rfl
  | cons d ds ih => simp [List.replicate_succ, rowMajor, ih]

/-! ### enumeration -/

theorem mem_allIndices {shape idx : List Nat} : idx ∈ allIndices shape ↔ InRange shape idx := by
  induction shape generalizing idx with
  | nil => simp [allIndices, InRange]
  | cons d ds ih =>
    simp only [allIndices, List.mem_flatMap, List.mem_range, List.mem_map, InRange]
    constructor
    · rintro ⟨i, hi, is, his, rfl⟩
      exact .cons hi (ih.1 his)
    · intro h
      cases h with
      | cons hi hr => exact ⟨_, hi, _, ih.2 hr, rfl⟩

theorem map_rowMajor_allIndices (shape : List Nat) :
    (allIndices shape).map (rowMajor shape) = List.range shape.prod := by
  induction shape with
  | nil => rfl
  | cons d ds ih =>
    simp only [allIndices, List.map_flatMap, List.map_map, List.prod_cons]
    have : ∀ i, List.map (rowMajor (d :: ds) ∘ fun is => i :: is) (allIndices ds)
        = (List.range ds.prod).map (fun k => i * ds.prod + k) := by
      intro i
      rw [← ih, List.map_map]
      rfl
    simp only [this]
    clear this ih
    induction d with
    | zero => simp
    | succ d ihd =>
      rw [List.range_succ, List.flatMap_append, ihd, Nat.succ_mul, List.range_add]
      simp

theorem allIndices_length (shape : List Nat) : (allIndices shape).length = shape.prod := by
  have := congrArg List.length (map_rowMajor_allIndices shape)
  simpa using this

theorem rowMajor_getElem_allIndices {shape : List Nat} {k : Nat} (h : k < (allIndices shape).length) :
    rowMajor shape (allIndices shape)[k] = k := by
  have h2 : k < ((allIndices shape).map (rowMajor shape)).length := by simpa using h
  have h1 : ((allIndices shape).map (rowMajor shape))[k] = k := by
    simp only [map_rowMajor_allIndices, List.getElem_range]
  simpa using h1

theorem inRange_getElem_allIndices {shape : List Nat} {k : Nat} (h : k < (allIndices shape).length) :
    InRange shape (allIndices shape)[k] :=
  mem_allIndices.1 (List.getElem_mem h)

theorem getElem_allIndices_of {shape idx : List Nat} (h : InRange shape idx) :
    (allIndices shape)[rowMajor shape idx]? = some idx := by
  have hl : rowMajor shape idx < (allIndices shape).length := by
    rw [allIndices_length]; exact rowMajor_lt h
  rw [List.getElem?_eq_getElem hl]
  congr 1
  exact rowMajor_inj (inRange_getElem_allIndices hl) h (rowMajor_getElem_allIndices hl)

theorem allIndices_nodup (shape : List Nat) : (allIndices shape).Nodup := by
  have : ((allIndices shape).map (rowMajor shape)).Nodup := by
    rw [map_rowMajor_allIndices]; exact List.nodup_range
  exact (List.pairwise_map.1 this).imp (fun {_ _} h he => h (congrArg _ he))

theorem getElem_zero_allIndices {shape : List Nat} (h : Pos shape) :
    (allIndices shape)[0]? = some (List.replicate shape.length 0) := by
  have := getElem_allIndices_of (inRange_zero h)
  rwa [rowMajor_zero] at this

/-! ### increment -/

/-- one odometer step on a list given with the last component first -/
private def stepR : List Nat → List Nat → Option (List Nat)
  | d :: ds, i :: is => if i + 1 < d then some ((i + 1) :: is) else (stepR ds is).map (fun r => 0 :: r)
  | _, _ => none

theorem take_succ_eq {α : Type _} {l : List α} {n : Nat} (h : n < l.length) :
    l.take (n + 1) = l.take n ++ [l[n]] := by
  simp

private theorem incrementLoop_eq (index shape : List Nat) (hl : shape.length = index.length) (hp : Pos shape) :
    ∀ n, n ≤ index.length →
      incrementLoop index shape n = .ok
        (match stepR (shape.take n).reverse (index.take n).reverse with
          | some r => (r.reverse ++ List.replicate (index.length - n) 0, true)
          | none => (index, false)) := by
  intro n
  induction n with
  | zero => intro _; simp [incrementLoop, stepR]
  | succ n ih =>
    intro hn
    have hn1 : n < index.length := hn
    have hn2 : n < shape.length := by omega
    have hd : 0 < shape[n] := hp _ (List.getElem_mem _)
    simp only [incrementLoop, idxR_ok hn1, idxR_ok hn2, subR, R.bind_ok]
    rw [if_pos (show 1 ≤ shape[n] from hd)]
    simp only [R.bind_ok, take_succ_eq hn1, take_succ_eq hn2, List.reverse_append, List.reverse_cons,
      List.reverse_nil, List.nil_append, List.singleton_append, stepR]
    by_cases hlt : index[n] + 1 < shape[n]
    · rw [if_pos (show index[n] < shape[n] - 1 by omega), if_pos hlt]
      simp only [R.pure_eq, List.reverse_cons, List.reverse_reverse]
      congr 2
      unfold resetTrailing
      congr 1
      · rw [List.take_set, take_succ_eq hn1, List.set_append]
        simp [hn1.le]
      · rw [List.map_const']
        simp
    · rw [if_neg (show ¬ index[n] < shape[n] - 1 by omega), if_neg hlt, ih (by omega)]
      cases stepR (shape.take n).reverse (index.take n).reverse with
      | none => rfl
      | some r =>
        simp only [Option.map_some, List.reverse_cons, List.append_assoc, List.singleton_append]
        rw [← List.replicate_succ]
        congr 4
        omega

private theorem stepR_spec {shape idx : List Nat} (h : InRange shape idx) :
    match stepR shape.reverse idx.reverse with
    | some r => InRange shape r.reverse ∧ rowMajor shape r.reverse = rowMajor shape idx + 1
    | none => rowMajor shape idx + 1 = shape.prod := by
  induction shape using List.reverseRecOn generalizing idx with
  | nil => cases h; simp [stepR, rowMajor]
  | append_singleton ds d ih =>
    obtain ⟨is, i, rfl⟩ : ∃ is i, idx = is ++ [i] := by
      rcases List.eq_nil_or_concat idx with h0 | ⟨is, i, h0⟩
      · subst h0; have := h.length; simp at this
      · exact ⟨is, i, by simpa using h0⟩
    have hl : ds.length = is.length := by have := h.length; simpa using this
    have hsplit : InRange ds is ∧ i < d := by
      unfold InRange at h
      rw [List.forall₂_iff_zip] at h
      obtain ⟨_, h2⟩ := h
      refine ⟨List.forall₂_iff_zip.2 ⟨hl, ?_⟩, ?_⟩
      · intro a b hab; exact h2 (by rw [List.zip_append hl]; simp [hab])
      · exact h2 (by rw [List.zip_append hl]; simp)
    obtain ⟨hr, hi⟩ := hsplit
    have mk : ∀ js j, InRange ds js → j < d → InRange (ds ++ [d]) (js ++ [j]) := by
      intro js j h1 h2
      exact List.rel_append h1 (.cons h2 .nil)
    simp only [List.reverse_append, List.reverse_cons, List.reverse_nil, List.nil_append,
      List.singleton_append, stepR]
    rw [rowMajor_append hl]
    by_cases hlt : i + 1 < d
    · rw [if_pos hlt]
      simp only [List.reverse_cons, List.reverse_reverse]
      exact ⟨mk _ _ hr hlt, by rw [rowMajor_append hl]; omega⟩
    · rw [if_neg hlt]
      have hd : i + 1 = d := by omega
      have := ih hr
      cases hs : stepR ds.reverse is.reverse with
      | none =>
        rw [hs] at this
        simp only [Option.map_none, List.prod_append, List.prod_cons, List.prod_nil, mul_one] at this ⊢
        rw [← this, ← hd]; ring
      | some r =>
        rw [hs] at this
        simp only [Option.map_some, List.reverse_cons] at this ⊢
        refine ⟨mk _ _ this.1 (by omega), ?_⟩
        rw [rowMajor_append this.1.length, this.2, ← hd]; ring

theorem inRange_pos {shape idx : List Nat} (h : InRange shape idx) : Pos shape := by
  induction h with
  | nil => intro d hd; simp at hd
  | cons hi _ ih =>
    intro d hd
    rcases List.mem_cons.1 hd with rfl | hd
    · omega
    · exact ih d hd

/-- the odometer step, stated by positions -/
theorem incrementIndex_spec {shape idx : List Nat} (h : InRange shape idx) :
    (rowMajor shape idx + 1 < shape.prod ∧
      ∃ idx', incrementIndex idx shape = .ok (idx', true) ∧ InRange shape idx' ∧
        rowMajor shape idx' = rowMajor shape idx + 1) ∨
    (rowMajor shape idx + 1 = shape.prod ∧ incrementIndex idx shape = .ok (idx, false)) := by
  have hl := h.length
  have e := incrementLoop_eq idx shape hl (inRange_pos h) idx.length le_rfl
  rw [List.take_of_length_le (le_of_eq hl), List.take_of_length_le le_rfl] at e
  have s := stepR_spec h
  cases hs : stepR shape.reverse idx.reverse with
  | none =>
    rw [hs] at s e
    exact Or.inr ⟨s, e⟩
  | some r =>
    rw [hs] at s e
    simp only [Nat.sub_self, List.replicate_zero, List.append_nil] at e
    refine Or.inl ⟨?_, r.reverse, e, s.1, s.2⟩
    rw [← s.2]; exact rowMajor_lt s.1

theorem incrementIndex_getElem {shape : List Nat} {k : Nat} (h : k + 1 < (allIndices shape).length) :
    incrementIndex (allIndices shape)[k] shape = .ok ((allIndices shape)[k + 1], true) := by
  have hk : k < (allIndices shape).length := by omega
  have hr := inRange_getElem_allIndices hk
  have hrm := rowMajor_getElem_allIndices hk
  rcases incrementIndex_spec hr with ⟨_, idx', he, hi, hrm'⟩ | ⟨h2, _⟩
  · rw [he]
    have : idx' = (allIndices shape)[k + 1] := by
      apply rowMajor_inj hi (inRange_getElem_allIndices h)
      rw [hrm', hrm, rowMajor_getElem_allIndices h]
    rw [this]
  · rw [hrm] at h2
    rw [allIndices_length] at h
    omega

theorem incrementIndex_last {shape : List Nat} {k : Nat} (h : k + 1 = (allIndices shape).length) :
    incrementIndex ((allIndices shape)[k]'(by omega)) shape =
      .ok ((allIndices shape)[k]'(by omega), false) := by
  have hk : k < (allIndices shape).length := by omega
  have hr := inRange_getElem_allIndices hk
  have hrm := rowMajor_getElem_allIndices hk
  rcases incrementIndex_spec hr with ⟨h1, _⟩ | ⟨_, h2⟩
  · rw [hrm, ← allIndices_length] at h1; omega
  · exact h2

/-! ### the index loop -/

theorem iterLoop_from {σ : Type _} (body : σ → List Nat → R σ) (shape : List Nat) :
    ∀ (fuel k : Nat) (hk : k < (allIndices shape).length) (s : σ),
      (allIndices shape).length ≤ k + fuel →
      iterLoop body fuel { index := (allIndices shape)[k], dimensions := shape, first := false } s
        = ((allIndices shape).drop (k + 1)).foldlM body s := by
  intro fuel
  induction fuel with
  | zero => intro k hk s hf; omega
  | succ fuel ih =>
    intro k hk s hf
    by_cases h : k + 1 < (allIndices shape).length
    · simp only [iterLoop, IndexIter.next, Bool.false_eq_true, if_false, incrementIndex_getElem h,
        R.bind_ok, if_true, R.pure_eq]
      rw [List.drop_eq_getElem_cons h, List.foldlM_cons]
      congr 1
      funext s'
      exact ih (k + 1) h s' (by omega)
    · have h' : k + 1 = (allIndices shape).length := by omega
      simp only [iterLoop, IndexIter.next, Bool.false_eq_true, if_false, incrementIndex_last h',
        R.bind_ok, R.pure_eq]
      rw [List.drop_of_length_le (by omega)]
      rfl

theorem prod_map_max_one {dims : List Nat} (h : Pos dims) : (dims.map (max 1)).prod = dims.prod := by
  congr 1
  conv_rhs => rw [← List.map_id dims]
  apply List.map_congr_left
  intro d hd
  exact max_eq_right (h d hd)

/-- the index loop is a fold over all indices -/
theorem forIndices_eq {σ : Type _} {dims : List Nat} (h : Pos dims) (init : σ) (body : σ → List Nat → R σ) :
    forIndices dims init body = (allIndices dims).foldlM body init := by
  have hpos := prod_pos_of_pos h
  have hlen : 0 < (allIndices dims).length := by rw [allIndices_length]; exact hpos
  have h0 : (allIndices dims)[0] = List.replicate dims.length 0 := by
    have := getElem_zero_allIndices h
    rw [List.getElem?_eq_getElem hlen] at this
    exact Option.some.inj this
  have hcons : allIndices dims = (allIndices dims)[0] :: (allIndices dims).drop 1 := by
    have := List.drop_eq_getElem_cons hlen
    simpa using this
  unfold forIndices iterFuel
  simp only [iterLoop, IndexIter.new, IndexIter.next, if_true, R.pure_eq, R.bind_ok]
  rw [hcons, List.foldlM_cons, h0]
  congr 1
  funext s
  have := iterLoop_from body dims ((dims.map (max 1)).prod + 1) 0 hlen s
    (by rw [prod_map_max_one h, allIndices_length]; omega)
  rw [h0] at this
  exact this

end RL
