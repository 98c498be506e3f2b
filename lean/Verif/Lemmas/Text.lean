import Verif.SpecText
import Verif.Model.Text
import Verif.Lemmas.Heap
import Std.Data.String.ToInt

/-!
# Lemmas on printed tensors
-/

namespace RL

open Spec

variable {T : Type}

theorem vecText_fold (text : T → List Char) (xs : List T) (out : List Char) :
    (xs.foldl (vecTextStep text) (out, true)).1 = out ++ (xs.map fun x => [',', ' '] ++ text x).flatten := by
  induction xs generalizing out with
  | nil => simp
  | cons x xs ih =>
    rw [List.foldl_cons]
    simp only [vecTextStep, if_true]
    rw [ih]; simp

theorem intercalate_cons (sep a : List Char) (l : List (List Char)) :
    sep.intercalate (a :: l) = a ++ (l.map fun x => sep ++ x).flatten := by
  induction l generalizing a with
  | nil => simp [List.intercalate]
  | cons b l ih =>
    rw [List.intercalate_cons_cons, ih]; simp

theorem vecText_eq (text : T → List Char) (xs : List T) : vecText text xs = listed (xs.map text) := by
  cases xs with
  | nil => rfl
  | cons x xs =>
    rw [vecText, List.foldl_cons, vecTextStep]
    simp only [Bool.false_eq_true, if_false]
    rw [vecText_fold, listed, List.map_cons, intercalate_cons, List.map_map]
    simp [Function.comp_def]

theorem split_comma {a b : List Char} (ha : ',' ∉ a) (hb : ',' ∉ b) {s t : List Char} (hs : s = [] ∨ s.head? = some ',')
    (ht : t = [] ∨ t.head? = some ',') (e : a ++ s = b ++ t) : a = b ∧ s = t := by
  induction a generalizing b with
  | nil =>
    cases b with
    | nil => exact ⟨rfl, e⟩
    | cons c b =>
      rw [List.nil_append] at e; subst e
      rcases hs with h | h
      · exact absurd h (by simp)
      · simp only [List.cons_append, List.head?_cons, Option.some.injEq] at h
        exact absurd (by simp [h]) hb
  | cons c a ih =>
    cases b with
    | nil =>
      rw [List.nil_append] at e; subst e
      rcases ht with h | h
      · exact absurd h (by simp)
      · simp only [List.cons_append, List.head?_cons, Option.some.injEq] at h
        exact absurd (by simp [h]) ha
    | cons d b =>
      simp only [List.cons_append, List.cons.injEq] at e
      obtain ⟨h1, h2⟩ := ih (fun h => ha (by simp [h])) (fun h => hb (by simp [h])) e.2
      exact ⟨by rw [e.1, h1], h2⟩

theorem flatten_sep_inj {text : T → List Char} (ht : Legible text) {xs ys : List T}
    (e : (xs.map fun x => [',', ' '] ++ text x).flatten = (ys.map fun x => [',', ' '] ++ text x).flatten) : xs = ys := by
  have hd : ∀ zs : List T, (zs.map fun x => [',', ' '] ++ text x).flatten = [] ∨
      (zs.map fun x => [',', ' '] ++ text x).flatten.head? = some ',' := by
    intro zs; cases zs <;> simp
  induction xs generalizing ys with
  | nil => cases ys with
    | nil => rfl
    | cons y ys => simp at e
  | cons x xs ih => cases ys with
    | nil => simp at e
    | cons y ys =>
      simp only [List.map_cons, List.flatten_cons, List.append_assoc, List.append_cancel_left_eq] at e
      obtain ⟨h1, h2⟩ := split_comma (ht.noComma x) (ht.noComma y) (hd xs) (hd ys) e
      rw [ht.injective h1, ih h2]

theorem listed_inj {text : T → List Char} (ht : Legible text) {xs ys : List T}
    (e : listed (xs.map text) = listed (ys.map text)) : xs = ys := by
  have hd : ∀ zs : List T, (zs.map fun x => [',', ' '] ++ text x).flatten = [] ∨
      (zs.map fun x => [',', ' '] ++ text x).flatten.head? = some ',' := by
    intro zs; cases zs <;> simp
  unfold listed at e
  rw [List.append_left_inj, List.append_right_inj] at e
  cases xs with
  | nil => cases ys with
    | nil => rfl
    | cons y ys =>
      rw [List.map_cons, intercalate_cons] at e
      exact absurd (List.append_eq_nil_iff.1 e.symm).1 (ht.nonempty y)
  | cons x xs => cases ys with
    | nil =>
      rw [List.map_cons, intercalate_cons] at e
      exact absurd (List.append_eq_nil_iff.1 e).1 (ht.nonempty x)
    | cons y ys =>
      rw [List.map_cons, List.map_cons, intercalate_cons, intercalate_cons, List.map_map, List.map_map] at e
      obtain ⟨h1, h2⟩ := split_comma (ht.noComma x) (ht.noComma y) (hd xs) (hd ys) e
      rw [ht.injective h1, flatten_sep_inj ht h2]

theorem intText_legible : Legible (fun n : Int => n.repr.toList) where
  injective := fun a b h => Int.repr_injective (String.toList_injective h)
  nonempty := fun x => by
    rw [Int.repr_eq_if]
    split
    · simp [Nat.repr, Nat.toDigits_ne_nil]
    · simp
  noComma := fun x h => by
    have hd : ∀ n : Nat, ',' ∉ n.repr.toList := by
      intro n h
      rw [Nat.repr, String.toList_ofList] at h
      exact absurd (Nat.isDigit_of_mem_toDigits (by decide) (by decide) h) (by decide)
    rw [Int.repr_eq_if] at h
    split at h
    · exact hd _ h
    · rw [String.toList_append, List.mem_append] at h
      rcases h with h | h
      · exact absurd h (by decide)
      · exact hd _ h

end RL
