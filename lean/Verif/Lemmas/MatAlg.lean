import Verif.Lemmas.Bmm
import Mathlib.Algebra.BigOperators.Ring.Finset
import Mathlib.Algebra.BigOperators.Group.Finset.Sigma

/-! Helper lemmas: entries of matrix products as finite sums -/

namespace RL

open Spec

variable {T : Type}

theorem dotFold_sum [NonUnitalNonAssocSemiring T] (k : Nat) (a b : Nat → T) : dotFold k a b = ∑ kk ∈ Finset.range k, a kk * b kk := by
  unfold dotFold
  induction k with
  | zero => simp
  | succ k ih => rw [List.range_succ, List.foldl_append, ih, Finset.sum_range_succ]; rfl

/-- an index of a shape with a batch part and two further dimensions -/
theorem inRange_batch {B p : List Nat} {m n i j : Nat} (hp : InRange B p) (hi : i < m) (hj : j < n) : InRange (B ++ [m, n]) (p ++ [i, j]) :=
  List.rel_append hp (inRange2.2 ⟨hi, hj⟩)

theorem inRange_batch_inv {B : List Nat} {m n : Nat} {idx : List Nat} (h : InRange (B ++ [m, n]) idx) :
    ∃ p i j, InRange B p ∧ i < m ∧ j < n ∧ idx = p ++ [i, j] := by
  obtain ⟨p, q, rfl, hp, hq⟩ : ∃ p q, idx = p ++ q ∧ InRange B p ∧ InRange [m, n] q := by
    refine ⟨idx.take B.length, idx.drop B.length, (List.take_append_drop _ _).symm, ?_, ?_⟩
    · exact List.forall₂_take_append idx B [m, n] h.flip |>.flip
    · exact List.forall₂_drop_append idx B [m, n] h.flip |>.flip
  match q, hq with
  | [i, j], hq => exact ⟨p, i, j, hp, (inRange2.1 hq).1, (inRange2.1 hq).2, rfl⟩

theorem ext_batch [Zero T] {a b : Raw T} {B : List Nat} {m n : Nat} (ha : WF a) (hb : WF b) (has : a.shape = B ++ [m, n])
    (hbs : b.shape = B ++ [m, n]) (h : ∀ p, InRange B p → ∀ i < m, ∀ j < n, ent (.raw a) (p ++ [i, j]) = ent (.raw b) (p ++ [i, j])) :
    a = b := by
  refine Raw.ext_elem ha hb (has.trans hbs.symm) fun idx hi => ?_
  obtain ⟨p, i, j, hp, hi', hj, rfl⟩ := inRange_batch_inv (has ▸ hi)
  have e1 := (ent_get (x := .raw a) ha hi).2
  have e2 := (ent_get (x := .raw b) hb (idx := p ++ [i, j]) (by rw [TL.shape_raw, hbs, ← has]; exact hi)).2
  simp only [elem?] at e1 e2
  rw [e1, e2, h p hp i hi' j hj]

theorem bmm_sum [NonUnitalNonAssocSemiring T] {a b : Raw T} {B : List Nat} {m k n : Nat} (hB : B.length ≤ 1) (ha : WF a) (hb : WF b)
    (has : a.shape = B ++ [m, k]) (hbs : b.shape = [k, n]) :
    ∃ t, bmmRaw (.raw a) (.raw b) = .ok t ∧ t.shape = B ++ [m, n] ∧ WF t ∧ ∀ p, InRange B p → ∀ i < m, ∀ j < n,
      ent (.raw t) (p ++ [i, j]) = ∑ kk ∈ Finset.range k, ent (.raw a) (p ++ [i, kk]) * ent (.raw b) [kk, j] := by
  match B, hB with
  | [], _ =>
    refine ⟨_, bmmRaw2_eq (l := .raw a) (r := .raw b) ha hb has hbs, rfl, by simp [WF, allIndices_length], fun p hp i hi j hj => ?_⟩
    obtain rfl : p = [] := by simpa [InRange] using hp
    have hin := inRange2.2 ⟨hi, hj⟩
    simp only [ent, elem?, Raw.elem?, List.nil_append]
    rw [map_allIndices_get _ hin, Option.getD_some, dotFold_sum]
    rfl
  | [nb], _ =>
    refine ⟨_, bmmRaw3_eq (l := .raw a) (r := .raw b) ha hb has hbs, rfl, by simp [WF, allIndices_length], fun p hp i hi j hj => ?_⟩
    obtain ⟨q, hq, rfl⟩ : ∃ q, q < nb ∧ p = [q] := by
      match p, hp with
      | [q], hp => exact ⟨q, by simpa [InRange] using hp, rfl⟩
    have hin := inRange3.2 ⟨hq, hi, hj⟩
    simp only [ent, elem?, Raw.elem?, List.cons_append, List.nil_append]
    rw [map_allIndices_get _ hin, Option.getD_some, dotFold_sum]
    rfl

theorem add_ent [Zero T] [Add T] {a b : Raw T} (ha : WF a) (hb : WF b) (hs : a.shape = b.shape) (hp : Pos a.shape) :
    ∃ t, addRaw (.raw a) (.raw b) = .ok t ∧ t.shape = a.shape ∧ WF t ∧ ∀ idx, InRange a.shape idx →
      ent (.raw t) idx = ent (.raw a) idx + ent (.raw b) idx := by
  have la : a.array.length = a.shape.prod := ha
  have lb : b.array.length = a.shape.prod := by rw [hs]; exact hb
  refine ⟨_, addRaw_same ha hb hs hp, rfl, by simp [WF, la, lb], fun idx hi => ?_⟩
  have hlt := rowMajor_lt hi
  simp only [ent, elem?, Raw.elem?, ← hs]
  simp [List.getElem?_zipWith, la, lb, hlt]

theorem map_ent [Zero T] {a : Raw T} (ha : WF a) (f : T → T) :
    WF (⟨a.array.map f, a.shape⟩ : Raw T) ∧ ∀ idx, InRange a.shape idx → ent (.raw ⟨a.array.map f, a.shape⟩) idx = f (ent (.raw a) idx) := by
  have la : a.array.length = a.shape.prod := ha
  refine ⟨by simp [WF, la], fun idx hi => ?_⟩
  have hlt := rowMajor_lt hi
  simp [ent, elem?, Raw.elem?, la, hlt]

end RL
