import Verif.Lemmas.ParamGraph

/-!
# Two runs of the same program: integers
-/

namespace RL

open Spec

theorem Wrap.ofInt_add' (w : Nat) (a b : Int) : Wrap.ofInt w a + Wrap.ofInt w b = Wrap.ofInt w (a + b) :=
  congrArg Wrap.mk (BitVec.ofInt_add ..).symm

theorem Wrap.ofInt_mul' (w : Nat) (a b : Int) : Wrap.ofInt w a * Wrap.ofInt w b = Wrap.ofInt w (a * b) :=
  congrArg Wrap.mk (BitVec.ofInt_mul ..).symm

theorem Wrap.ofInt_neg' (w : Nat) (a : Int) : -Wrap.ofInt w a = Wrap.ofInt w (-a) :=
  congrArg Wrap.mk (BitVec.ofInt_neg ..).symm

theorem Wrap.ofInt_zero' (w : Nat) : (0 : Wrap w) = Wrap.ofInt w 0 := congrArg Wrap.mk (by simp)

theorem Wrap.ofInt_one' (w : Nat) : (1 : Wrap w) = Wrap.ofInt w 1 := congrArg Wrap.mk (by simp)

theorem residue_arith (w : Nat) (K : JvpKind → Prop) : Arith K (Residue w) where
  zero := Wrap.ofInt_zero' w
  one := Wrap.ofInt_one' w
  add {a b x y} h1 h2 := by rw [Residue] at *; rw [h1, h2, Wrap.ofInt_add']
  mul {a b x y} h1 h2 := by rw [Residue] at *; rw [h1, h2, Wrap.ofInt_mul']
  neg _ {a x} h1 := by rw [Residue] at *; rw [h1, Wrap.ofInt_neg']

theorem whole_arith (w : Nat) (K : JvpKind → Prop) : Arith K (Whole w) where
  zero := ⟨0, Wrap.ofInt_zero' w, by simp⟩
  one := ⟨1, Wrap.ofInt_one' w, by simp⟩
  add {a b x y} h1 h2 := by
    obtain ⟨z1, rfl, rfl⟩ := h1
    obtain ⟨z2, rfl, rfl⟩ := h2
    exact ⟨z1 + z2, Wrap.ofInt_add' .., by push_cast; rfl⟩
  mul {a b x y} h1 h2 := by
    obtain ⟨z1, rfl, rfl⟩ := h1
    obtain ⟨z2, rfl, rfl⟩ := h2
    exact ⟨z1 * z2, Wrap.ofInt_mul' .., by push_cast; rfl⟩
  neg _ {a x} h1 := by
    obtain ⟨z1, rfl, rfl⟩ := h1
    exact ⟨-z1, Wrap.ofInt_neg' .., by push_cast; rfl⟩

theorem check_exact {lo hi : Int} (z : Int) : Exact (Checked.check z : Checked lo hi) z := by
  unfold Exact Checked.check
  split
  · exact Or.inr rfl
  · exact Or.inl rfl

theorem exact_arith (lo hi : Int) (K : JvpKind → Prop) : Arith K (Exact (lo := lo) (hi := hi)) where
  zero := Or.inr rfl
  one := Or.inr rfl
  add {a b x y} h1 h2 := by
    obtain ⟨a⟩ := a
    obtain ⟨b⟩ := b
    cases a with
    | none => exact Or.inl rfl
    | some a =>
      cases b with
      | none => exact Or.inl rfl
      | some b =>
        simp only [Exact, reduceCtorEq, Option.some.injEq, false_or] at h1 h2
        subst h1 h2
        exact check_exact _
  mul {a b x y} h1 h2 := by
    obtain ⟨a⟩ := a
    obtain ⟨b⟩ := b
    cases a with
    | none => exact Or.inl rfl
    | some a =>
      cases b with
      | none => exact Or.inl rfl
      | some b =>
        simp only [Exact, reduceCtorEq, Option.some.injEq, false_or] at h1 h2
        subst h1 h2
        exact check_exact _
  neg _ {a x} h1 := by
    obtain ⟨a⟩ := a
    cases a with
    | none => exact Or.inl rfl
    | some a =>
      simp only [Exact, reduceCtorEq, Option.some.injEq, false_or] at h1
      subst h1
      exact check_exact _

theorem Wrap.ofInt_toInt {w : Nat} (x : Wrap w) : Wrap.ofInt w x.toInt = x := congrArg Wrap.mk (BitVec.ofInt_toInt)

theorem check_agree {w : Nat} (hw : 0 < w) (z : Int) : Agree w (Checked.check z) (Wrap.ofInt w z) := by
  intro z' hz
  rw [Checked.check] at hz
  split at hz
  · rename_i h
    cases hz
    exact BitVec.toInt_ofInt_eq_self hw h.1 (by omega)
  · cases hz

theorem agree_arith (w : Nat) (hw : 1 < w) (K : JvpKind → Prop) : Arith K (Agree w) where
  zero := by
    intro z hz
    cases hz
    rw [Wrap.ofInt_zero']
    exact BitVec.toInt_ofInt_eq_self (by omega) (by have := Nat.two_pow_pos (w - 1); zify at this; omega) (by have := Nat.two_pow_pos (w - 1); zify at this; omega)
  one := by
    intro z hz
    cases hz
    have h := Nat.pow_le_pow_right (n := 2) (by omega) (show 1 ≤ w - 1 by omega)
    zify at h
    rw [Wrap.ofInt_one']
    exact BitVec.toInt_ofInt_eq_self (by omega) (by omega) (by omega)
  add {a b x y} h1 h2 := by
    obtain ⟨a⟩ := a
    obtain ⟨b⟩ := b
    cases a with
    | none => intro z hz; cases hz
    | some a =>
      cases b with
      | none => intro z hz; cases hz
      | some b =>
        rw [← Wrap.ofInt_toInt x, ← Wrap.ofInt_toInt y, h1 a rfl, h2 b rfl, Wrap.ofInt_add']
        exact check_agree (by omega) _
  mul {a b x y} h1 h2 := by
    obtain ⟨a⟩ := a
    obtain ⟨b⟩ := b
    cases a with
    | none => intro z hz; cases hz
    | some a =>
      cases b with
      | none => intro z hz; cases hz
      | some b =>
        rw [← Wrap.ofInt_toInt x, ← Wrap.ofInt_toInt y, h1 a rfl, h2 b rfl, Wrap.ofInt_mul']
        exact check_agree (by omega) _
  neg _ {a x} h1 := by
    obtain ⟨a⟩ := a
    cases a with
    | none => intro z hz; cases hz
    | some a =>
      rw [← Wrap.ofInt_toInt x, h1 a rfl, Wrap.ofInt_neg']
      exact check_agree (by omega) _

theorem ring_functions {T S : Type} [Zero T] [One T] [Sub T] [LT T] [DecidableLT T] [LE T] [DecidableLE T] [RealFn T]
    [Zero S] [One S] [Sub S] [LT S] [DecidableLT S] [LE S] [DecidableLE S] [RealFn S] (rel : T → S → Prop) : Functions RingKind rel :=
  ⟨fun h => absurd rfl h.2.2, fun h => absurd rfl h.1, fun h => absurd rfl h.2.1⟩

theorem forall₂_getElem?_right {α β : Type _} {P : α → β → Prop} {l : List α} {l' : List β} (h : List.Forall₂ P l l') {i : Nat} {b : β}
    (hb : l'[i]? = some b) : ∃ a, l[i]? = some a ∧ P a b := by
  induction h generalizing i with
  | nil => simp at hb
  | cons h _ ih =>
    cases i with
    | zero => simp only [List.getElem?_cons_zero, Option.some.injEq] at hb ⊢; subst hb; exact ⟨_, rfl, h⟩
    | succ i => simp only [List.getElem?_cons_succ] at hb ⊢; exact ih hb

theorem elem_rel {T S : Type} {rel : T → S → Prop} {a : Raw T} {b : Raw S} (h : RawRel rel a b) {idx : List Nat} {y : S}
    (hy : Raw.elem? b idx = some y) : ∃ x, Raw.elem? a idx = some x ∧ rel x y := by
  rw [Raw.elem?] at hy ⊢
  rw [h.2]
  exact forall₂_getElem?_right h.1 hy

theorem gradOf_rel {T S : Type} {rel : T → S → Prop} {K : JvpKind → Prop} {h : Heap T} {h' : Heap S} (hh : HeapRel K rel h h') {t : Nat} {b : Raw S}
    (hb : gradOf h' t = some b) : ∃ a, gradOf h t = some a ∧ RawRel rel a b := by
  simp only [gradOf, Option.bind_eq_some_iff, Option.map_eq_some_iff] at hb ⊢
  obtain ⟨n', h1, g, h2, m', h3, rfl⟩ := hb
  obtain ⟨n, k1, k2⟩ := forall₂_getElem?_right hh h1
  obtain ⟨m, k3, k4⟩ := forall₂_getElem?_right hh h3
  exact ⟨_, ⟨n, k1, g, k2.2.1.trans h2, m, k3, rfl⟩, k4.1⟩

end RL
