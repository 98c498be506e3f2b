import Verif.Model.Iter
import Verif.Lemmas.Machine
import Verif.Lemmas.Ops

/-!
# Lemmas about iterators called one by one
-/

namespace RL

open Spec

/-- the number of values an index runs through in the release profile, where `0 - 1` is `2 ^ 64 - 1` -/
def releaseDim (d : Nat) : Nat := if d = 0 then 2 ^ 64 else d

theorem incrementIndexU_release (index shape : List Nat) (hs : ∀ d ∈ shape, d < 2 ^ 64) :
    incrementIndexU .release index shape = incrementIndex index (shape.map releaseDim) := by
  rw [incrementIndexU, incrementIndex]
  generalize index.length = n
  induction n with
  | zero => rfl
  | succ i ih =>
    rw [incrementLoopU, incrementLoop]
    cases hv : index[i]? with
    | none => simp only [idxR, hv]; rfl
    | some v =>
      cases hd : shape[i]? with
      | none => simp only [idxR, hv, hd, List.getElem?_map]; rfl
      | some d =>
        have h1 := hs d (List.mem_of_getElem? hd)
        have h2 : subU .release d 1 = .ok (releaseDim d - 1) := by
          unfold releaseDim subU
          split
          · next h => rw [if_neg (by omega)]
          · next h => subst_vars; simp at h ⊢; subst h; rfl
        have h3 : subR (releaseDim d) 1 = .ok (releaseDim d - 1) := by
          unfold releaseDim subR
          rw [if_pos (by split <;> omega)]
        have h4 : releaseDim d ≤ 2 ^ 64 := by unfold releaseDim; split <;> omega
        simp only [idxR, hv, hd, R.bind_ok, List.getElem?_map, Option.map_some, h2, h3]
        split
        · next h5 => rw [addU, wrapU_ok (by omega)]; rfl
        · exact ih

theorem incrementIndexU_debug (index shape : List Nat) (hs : ∀ d ∈ shape, d < 2 ^ 64) :
    incrementIndexU .debug index shape = incrementIndex index shape := by
  rw [incrementIndexU, incrementIndex]
  generalize index.length = n
  induction n with
  | zero => rfl
  | succ i ih =>
    rw [incrementLoopU, incrementLoop]
    cases hv : index[i]? with
    | none => simp only [idxR, hv]; rfl
    | some v =>
      cases hd : shape[i]? with
      | none => simp only [idxR, hv, hd]; rfl
      | some d =>
        have h1 := hs d (List.mem_of_getElem? hd)
        have h2 : subU .debug d 1 = subR d 1 := rfl
        simp only [idxR, hv, hd, R.bind_ok, h2, subR]
        split
        · rw [R.bind_ok, R.bind_ok]
          split
          · next h5 => rw [addU, wrapU_ok (by omega)]; rfl
          · exact ih
        · rfl

theorem allIndices_zero {shape : List Nat} (hp : Pos shape) : (allIndices shape)[0]? = some (List.replicate shape.length 0) := by
  induction shape with
  | nil => rfl
  | cons d ds ih =>
    obtain ⟨k, rfl⟩ : ∃ k, d = k + 1 := ⟨d - 1, by have := hp d (by simp); omega⟩
    have h1 := ih fun x hx => hp x (by simp [hx])
    rw [allIndices, List.range_succ_eq_map, List.flatMap_cons, List.getElem?_append_left, List.getElem?_map, h1]
    · rfl
    · rw [List.length_map]; exact getElem?_lt h1

/-- iterators over positive dimensions -/
theorem IndexIter.calls_from {p : Profile} {dims dims' : List Nat} (hstep : ∀ idx, incrementIndexU p idx dims = incrementIndex idx dims') :
    ∀ (k j : Nat) (hj : j < (allIndices dims').length),
      IndexIter.calls p k { index := (allIndices dims')[j], dimensions := dims, first := false } = .ok (allIndices dims')[j + k + 1]? := by
  intro k
  induction k with
  | zero =>
    intro j hj
    simp only [IndexIter.calls, IndexIter.call, IndexIter.nextU, Bool.false_eq_true, if_false, hstep]
    rcases Nat.lt_or_ge (j + 1) (allIndices dims').length with h | h
    · rw [incrementIndex_getElem h]
      simp [h]
    · rw [incrementIndex_last (by omega)]
      simp [h]
  | succ k ih =>
    intro j hj
    rw [IndexIter.calls]
    rcases Nat.lt_or_ge (j + 1) (allIndices dims').length with h | h
    · have : (IndexIter.call p { index := (allIndices dims')[j], dimensions := dims, first := false }).2 =
          { index := (allIndices dims')[j + 1], dimensions := dims, first := false } := by
        simp only [IndexIter.call, IndexIter.nextU, Bool.false_eq_true, if_false, hstep, incrementIndex_getElem h]
        rfl
      rw [this, ih (j + 1) h]
      congr 2; omega
    · have : (IndexIter.call p { index := (allIndices dims')[j], dimensions := dims, first := false }).2 =
          { index := (allIndices dims')[j], dimensions := dims, first := false } := by
        simp only [IndexIter.call, IndexIter.nextU, Bool.false_eq_true, if_false, hstep,
          incrementIndex_last (show j + 1 = (allIndices dims').length by omega)]
        rfl
      rw [this, ih j hj, List.getElem?_eq_none (by omega), List.getElem?_eq_none (by omega)]

theorem IndexIter.calls_eq {p : Profile} {dims dims' : List Nat} (hstep : ∀ idx, incrementIndexU p idx dims = incrementIndex idx dims')
    (hl : dims'.length = dims.length) (hp : Pos dims') (k : Nat) : (IndexIter.new dims).calls p k = .ok (allIndices dims')[k]? := by
  have h0 := allIndices_zero hp
  have hlt := getElem?_lt h0
  cases k with
  | zero => rw [h0, hl]; rfl
  | succ k =>
    rw [IndexIter.calls]
    have : (IndexIter.call p (IndexIter.new dims)).2 = { index := (allIndices dims')[0], dimensions := dims, first := false } := by
      rw [List.getElem?_eq_getElem hlt, Option.some.injEq] at h0
      rw [h0, hl]; rfl
    rw [this, IndexIter.calls_from hstep k 0 hlt]
    congr 2; omega

/-- a prefix of the index is left alone while the rest can be incremented -/
theorem incrementLoop_append (z s idx b : List Nat) (hz : z.length = s.length) : ∀ i ≤ idx.length,
    incrementLoop (z ++ idx) (s ++ b) (z.length + i) = match incrementLoop idx b i with
      | .ok (idx', true) => .ok (z ++ idx', true)
      | .ok (_, false) => incrementLoop (z ++ idx) (s ++ b) z.length
      | .error e => .error e := by
  intro i
  induction i with
  | zero => intro _; rfl
  | succ i ih =>
    intro hi
    rw [← Nat.add_assoc, incrementLoop, incrementLoop]
    have h1 : (z ++ idx)[z.length + i]? = idx[i]? := by rw [List.getElem?_append_right (by omega)]; congr 1; omega
    have h2 : (s ++ b)[z.length + i]? = b[i]? := by rw [List.getElem?_append_right (by omega)]; congr 1; omega
    simp only [idxR, h1, h2]
    cases hv : idx[i]? with
    | none => rfl
    | some v =>
      cases hd : b[i]? with
      | none => rfl
      | some d =>
        simp only [R.bind_ok]
        cases hs : subR d 1 with
        | error e => rfl
        | ok last =>
          simp only [R.bind_ok]
          split
          · have h3 : (z ++ idx).set (z.length + i) (v + 1) = z ++ idx.set i (v + 1) := by
              rw [List.set_append_right _ _ (by omega)]; congr 2; omega
            rw [h3]
            simp only [resetTrailing, R.pure_eq]
            rw [Nat.add_assoc, List.take_append, List.drop_append]
            simp
          · exact ih (by omega)

/-- iterators over dimensions of which one is zero, with overflow checks -/
theorem incrementIndex_zero (a b : List Nat) (k : Nat) (hk : k < (allIndices b).length) :
    incrementIndex (List.replicate (a.length + 1) 0 ++ (allIndices b)[k]) (a ++ 0 :: b) =
      if h : k + 1 < (allIndices b).length then .ok (List.replicate (a.length + 1) 0 ++ (allIndices b)[k + 1], true)
      else R.panic .overflow := by
  have hl := (inRange_getElem_allIndices hk).length
  have h1 := incrementLoop_append (List.replicate (a.length + 1) 0) (a ++ [0]) (allIndices b)[k] b (by simp) _ le_rfl
  rw [← List.length_append] at h1
  rw [show a ++ [0] ++ b = a ++ 0 :: b by simp] at h1
  rw [incrementIndex, h1]
  have h2 : incrementLoop (allIndices b)[k] b (allIndices b)[k].length = incrementIndex (allIndices b)[k] b := rfl
  rw [h2]
  split_ifs with h
  · rw [incrementIndex_getElem h]
  · rw [incrementIndex_last (show k + 1 = _ by omega)]
    simp only [List.length_replicate]
    rw [incrementLoop]
    have h3 : (List.replicate (a.length + 1) 0 ++ (allIndices b)[k])[a.length]? = some 0 := by
      rw [List.getElem?_append_left (by simp)]; simp
    have h4 : (a ++ 0 :: b)[a.length]? = some 0 := by simp
    simp only [idxR, h3, h4]
    rfl

theorem IndexIter.calls_zero_from {a b : List Nat} (hs : ∀ d ∈ a ++ 0 :: b, d < 2 ^ 64) : ∀ (k j : Nat) (hj : j < (allIndices b).length),
    IndexIter.calls .debug k { index := List.replicate (a.length + 1) 0 ++ (allIndices b)[j], dimensions := a ++ 0 :: b, first := false } =
      match (allIndices b)[j + k + 1]? with
      | some idx => .ok (some (List.replicate (a.length + 1) 0 ++ idx))
      | none => R.panic .overflow := by
  intro k
  induction k with
  | zero =>
    intro j hj
    simp only [IndexIter.calls, IndexIter.call, IndexIter.nextU, Bool.false_eq_true, if_false, incrementIndexU_debug _ _ hs,
      incrementIndex_zero a b j hj]
    rcases Nat.lt_or_ge (j + 1) (allIndices b).length with h | h
    · rw [dif_pos h]
      simp [h]
    · rw [dif_neg (by omega)]
      simp [h, R.panic]
  | succ k ih =>
    intro j hj
    rw [IndexIter.calls]
    have h1 := incrementIndex_zero a b j hj
    rcases Nat.lt_or_ge (j + 1) (allIndices b).length with h | h
    · rw [dif_pos h] at h1
      have : (IndexIter.call .debug { index := List.replicate (a.length + 1) 0 ++ (allIndices b)[j], dimensions := a ++ 0 :: b, first := false }).2 =
          { index := List.replicate (a.length + 1) 0 ++ (allIndices b)[j + 1], dimensions := a ++ 0 :: b, first := false } := by
        simp only [IndexIter.call, IndexIter.nextU, Bool.false_eq_true, if_false, incrementIndexU_debug _ _ hs, h1]
        rfl
      rw [this, ih (j + 1) h, show j + 1 + k + 1 = j + (k + 1) + 1 by omega]
    · rw [dif_neg (by omega)] at h1
      have : (IndexIter.call .debug { index := List.replicate (a.length + 1) 0 ++ (allIndices b)[j], dimensions := a ++ 0 :: b, first := false }).2 =
          { index := List.replicate (a.length + 1) 0 ++ (allIndices b)[j], dimensions := a ++ 0 :: b, first := false } := by
        simp only [IndexIter.call, IndexIter.nextU, Bool.false_eq_true, if_false, incrementIndexU_debug _ _ hs, h1]
        rfl
      rw [this, ih j hj, List.getElem?_eq_none (by omega), List.getElem?_eq_none (by omega)]

theorem IndexIter.calls_zero {a b : List Nat} (hs : ∀ d ∈ a ++ 0 :: b, d < 2 ^ 64) (hb : Pos b) (k : Nat) :
    (IndexIter.new (a ++ 0 :: b)).calls .debug k = match (allIndices b)[k]? with
      | some idx => .ok (some (List.replicate (a.length + 1) 0 ++ idx))
      | none => R.panic .overflow := by
  have h0 := allIndices_zero hb
  have hlt := getElem?_lt h0
  have h1 : List.replicate (a.length + 1) 0 ++ List.replicate b.length 0 = List.replicate (a ++ 0 :: b).length 0 := by
    rw [← List.replicate_add]; congr 1; simp; omega
  cases k with
  | zero => rw [h0]; simp only; rw [h1]; rfl
  | succ k =>
    rw [IndexIter.calls]
    have : (IndexIter.call .debug (IndexIter.new (a ++ 0 :: b))).2 =
        { index := List.replicate (a.length + 1) 0 ++ (allIndices b)[0], dimensions := a ++ 0 :: b, first := false } := by
      rw [List.getElem?_eq_getElem hlt, Option.some.injEq] at h0
      rw [h0, h1]; rfl
    rw [this, IndexIter.calls_zero_from hs k 0 hlt, show 0 + k + 1 = k + 1 by omega]

variable {T : Type}

theorem elemCalls_eq (p : Profile) (x : TL T) : ∀ (k : Nat) (it : IndexIter), elemCalls p x k it = (do
    match ← it.calls p k with
    | none => return none
    | some idx => return some (← unwrapR (x.getU p idx)))
  | 0, _ => rfl
  | k + 1, it => elemCalls_eq p x k (it.call p).2

end RL
