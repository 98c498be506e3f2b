import Verif.Lemmas.Arith
import Verif.SpecWindow
import Mathlib.Algebra.BigOperators.Group.Finset.Basic
import Mathlib.Algebra.BigOperators.Ring.Finset
import Mathlib.Algebra.Ring.Int.Defs

/-!
# Windows: lemmas
-/

namespace RL

open Spec

variable {T : Type}

theorem window_ok {A : List T} {sh : List Nat} {rs : List SliceRange} (hA : A.length = sh.prod) (fit : RangesFit rs sh) : ViewOk (window A sh rs) :=
  ⟨hA, fit, rfl⟩

theorem lens_prod_le {sh : List Nat} {rs : List SliceRange} (fit : RangesFit rs sh) : (lens rs).prod ≤ sh.prod := by
  induction fit with
  | nil => exact le_refl _
  | cons h _ ih =>
    simp only [lens, List.map_cons, List.prod_cons] at ih ⊢
    exact Nat.mul_le_mul (by omega) ih

/-- a window with as many elements as its tensor is the whole tensor -/
theorem lens_full {sh : List Nat} {rs : List SliceRange} (fit : RangesFit rs sh) (hp : Pos (lens rs)) (h : (lens rs).prod = sh.prod) : lens rs = sh := by
  induction fit with
  | nil => rfl
  | @cons r d rs sh hr fit ih =>
    have hp1 : 0 < r.stop - r.start := hp _ (by simp [lens])
    have hp2 : Pos (lens rs) := fun x hx => hp x (by simp only [lens, List.map_cons, List.mem_cons] at hx ⊢; exact .inr hx)
    have hle := lens_prod_le fit
    simp only [lens, List.map_cons, List.prod_cons] at h ⊢
    change (r.stop - r.start) * (lens rs).prod = _ at h
    have hpos : 0 < (lens rs).prod := prod_pos_of_pos hp2
    have hd : r.stop - r.start = d := by
      by_contra hne
      have h1 : r.stop - r.start < d := by omega
      have : (r.stop - r.start) * (lens rs).prod < d * sh.prod := Nat.mul_lt_mul_of_lt_of_le h1 hle (by omega)
      omega
    have h2 : (lens rs).prod = sh.prod := by
      rw [hd] at h
      exact Nat.eq_of_mul_eq_mul_left (by omega) h
    rw [hd]
    congr 1
    exact ih hp2 h2

theorem shift_full {sh : List Nat} {rs : List SliceRange} (fit : RangesFit rs sh) (h : lens rs = sh) {idx : List Nat} (hi : InRange sh idx) :
    shift rs idx = idx := by
  induction fit generalizing idx with
  | nil =>
    cases hi
    rfl
  | @cons r d rs sh hr fit ih =>
    cases hi with
    | @cons _ i _ is hi1 hi2 =>
      simp only [lens, List.map_cons, List.cons.injEq] at h
      simp only [shift, List.zipWith_cons_cons]
      rw [show List.zipWith (fun r i => r.start + i) rs is = is from ih h.2 hi2]
      congr 1
      omega

theorem firstStored_full {sh : List Nat} {rs : List SliceRange} (fit : RangesFit rs sh) (h : lens rs = sh) : FirstStored sh rs := by
  intro idx hi
  rw [h] at hi ⊢
  rw [shift_full fit h hi]

/-- the elements of a window of the first stored elements -/
theorem elems_firstStored {A : List T} {sh : List Nat} {rs : List SliceRange} (hA : A.length = sh.prod) (fit : RangesFit rs sh)
    (h : FirstStored sh rs) : elems (.view (window A sh rs)) = A.take (lens rs).prod := by
  have hok : Ok (.view (window A sh rs)) := window_ok hA fit
  have hle := lens_prod_le fit
  refine ext_allIndices (shape := lens rs) (elems_length hok) (by simp; omega) fun idx hi => ?_
  have h1 := elems_getElem? hok (idx := idx) hi
  change (elems _)[rowMajor (lens rs) idx]? = A[rowMajor sh (shift rs idx)]? at h1
  rw [h1, h idx hi, List.getElem?_take, if_pos (rowMajor_lt hi)]

section dot
variable [Zero T] [Add T] [Mul T]

theorem dotLoop_short (a b : List T) : ∀ n, n ≤ a.length → n ≤ b.length →
    (List.range n).foldlM (init := (0 : T)) (fun result i => do
      let l ← idxR a i
      let r ← idxR b i
      return result + l * r) = (.ok ((List.zipWith (· * ·) (a.take n) (b.take n)).foldl (· + ·) 0) : R T) := by
  intro n
  induction n with
  | zero => intros; rfl
  | succ n ih =>
    intro h1 h2
    rw [List.range_succ, List.foldlM_append, ih (by omega) (by omega), R.bind_ok]
    have e1 : idxR a n = .ok a[n] := idxR_eq_ok.2 (List.getElem?_eq_getElem _)
    have e2 : idxR b n = .ok b[n] := idxR_eq_ok.2 (List.getElem?_eq_getElem _)
    simp only [List.foldlM_cons, List.foldlM_nil, e1, e2, R.bind_ok]
    rw [List.take_add_one, List.take_add_one, List.getElem?_eq_getElem h1, List.getElem?_eq_getElem h2]
    simp only [Option.toList]
    rw [List.zipWith_append (by simp; omega)]
    simp [List.foldl_append]

theorem dotLoop_long {a b : List T} (h : b.length < a.length) :
    (List.range a.length).foldlM (init := (0 : T)) (fun result i => do
      let l ← idxR a i
      let r ← idxR b i
      return result + l * r) = (R.panic .index : R T) := by
  have e : List.range a.length = List.range b.length ++ b.length :: (List.range (a.length - b.length - 1)).map (fun i => b.length + 1 + i) := by
    have : a.length = b.length + 1 + (a.length - b.length - 1) := by omega
    conv_lhs => rw [this]
    rw [List.range_add, List.range_succ, List.append_assoc]
    rfl
  rw [e, List.foldlM_append, dotLoop_short a b _ (by omega) (le_refl _), R.bind_ok, List.foldlM_cons]
  have e1 : idxR a b.length = .ok a[b.length] := idxR_eq_ok.2 (List.getElem?_eq_getElem _)
  have e2 : idxR b b.length = R.panic .index := by simp [idxR]
  rw [e1, R.bind_ok, e2]
  rfl

end dot

/-- the scalar product with a unit vector -/
theorem dot_unit (L : List Int) (n p : Nat) (hp : p < n) (hn : n ≤ L.length) :
    (List.zipWith (· * ·) ((List.range n).map fun i => if i = p then (1 : Int) else 0) L).foldl (· + ·) 0 = L.getD p 0 := by
  rw [← List.sum_eq_foldl]
  have : List.zipWith (· * ·) ((List.range n).map fun i => if i = p then (1 : Int) else 0) L =
      (List.range n).map fun i => if i = p then L.getD p 0 else 0 := by
    refine List.ext_getElem (by simp; omega) fun i h1 h2 => ?_
    simp only [List.length_map, List.length_range] at h2
    simp only [List.getElem_zipWith, List.getElem_map, List.getElem_range]
    split
    · next h =>
      subst h
      rw [List.getD_eq_getElem?_getD, List.getElem?_eq_getElem (by omega)]
      simp
    · simp
  rw [this]
  have key := Finset.sum_ite_eq' (Finset.range n) p (fun _ => L.getD p 0)
  rw [if_pos (Finset.mem_range.2 hp)] at key
  exact key

theorem dot_ones (m n : Nat) (h : m ≤ n) :
    (List.zipWith (· * ·) (List.replicate m (1 : Int)) (List.replicate n 1)).foldl (· + ·) 0 = (m : Int) := by
  rw [← List.sum_eq_foldl]
  have : List.zipWith (· * ·) (List.replicate m (1 : Int)) (List.replicate n 1) = List.replicate m 1 := by
    refine List.ext_getElem (by simp; omega) fun i h1 h2 => ?_
    simp
  rw [this]
  simp

end RL
