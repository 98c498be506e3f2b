import Verif.Lemmas.Views
import Verif.Lemmas.Ops

/-!
# Lemmas for the exact conditions of C24 and C25
-/

namespace RL

open Spec

variable {T : Type}

/-- contents that tell one place from all others -/
def markAt (a b : T) (n p : Nat) : List T := (List.range n).map fun k => if k = p then a else b

theorem markAt_length (a b : T) (n p : Nat) : (markAt a b n p).length = n := by simp [markAt]

theorem markAt_eq {a b : T} (hab : a ≠ b) {n p q : Nat} (h : (markAt a b n p)[q]? = some a) : q = p := by
  unfold markAt at h
  rw [List.getElem?_map, Option.map_eq_some_iff] at h
  obtain ⟨k, hk, h⟩ := h
  have hkq : q = k := by
    obtain ⟨h1, h2⟩ := List.getElem?_eq_some_iff.1 hk
    simpa using h2
  subst hkq
  by_contra hne
  rw [if_neg hne] at h
  exact hab h.symm

theorem markAt_self {a b : T} {n p : Nat} (h : p < n) : (markAt a b n p)[p]? = some a := by
  simp [markAt, h]

theorem starts_inRange {offset rs : List SliceRange} {shape : List Nat} (ho : RangesFit offset shape)
    (hrs : RangesFit rs (offset.map fun r => r.stop - r.start)) (hne : ∀ r ∈ rs, r.start ≠ r.stop) :
    InRange (rs.map fun r => r.stop - r.start) (List.replicate rs.length 0) ∧
    shift rs (List.replicate rs.length 0) = rs.map (·.start) ∧
    InRange shape (rs.map (·.start)) ∧ InRange shape (shift offset (rs.map (·.start))) ∧
    (shift offset (rs.map (·.start)) = rs.map (·.start) → ∀ r ∈ offset, r.start = 0) := by
  induction ho generalizing rs with
  | nil =>
    rw [List.map_nil] at hrs
    cases hrs
    exact ⟨.nil, rfl, .nil, .nil, by simp⟩
  | @cons o d os ds h1 _ ih =>
    rw [List.map_cons] at hrs
    cases hrs with
    | @cons r _ rs _ h2 h3 =>
      obtain ⟨i1, i2, i3, i4, i5⟩ := ih h3 fun r hr => hne r (by simp [hr])
      have hr := hne r (by simp)
      refine ⟨.cons (show 0 < r.stop - r.start by omega) i1, ?_, .cons (show r.start < d by omega) i3,
        .cons (show o.start + r.start < d by omega) i4, ?_⟩
      · simp only [shift, List.length_cons, List.replicate_succ, List.zipWith_cons_cons, List.map_cons, Nat.add_zero, List.cons.injEq,
          true_and]
        exact i2
      · intro e
        simp only [shift, List.map_cons, List.zipWith_cons_cons, List.cons.injEq] at e
        intro q hq
        rcases List.mem_cons.1 hq with rfl | hq
        · omega
        · exact i5 e.2 q hq

theorem shift_inRange {offset : List SliceRange} {shape idx : List Nat} (ho : RangesFit offset shape)
    (hi : InRange (offset.map fun r => r.stop - r.start) idx) : InRange shape (shift offset idx) := by
  induction ho generalizing idx with
  | nil => cases hi; exact .nil
  | @cons o d os ds h1 _ ih =>
    rw [List.map_cons] at hi
    cases hi with
    | @cons _ i _ is h2 h3 => exact .cons (show o.start + i < d by omega) (ih h3)

theorem shift_inj {offset : List SliceRange} {a b : List Nat} (ha : a.length = offset.length) (hb : b.length = offset.length)
    (e : shift offset a = shift offset b) : a = b := by
  refine List.ext_getElem (by omega) fun k h1 h2 => ?_
  have := congrArg (fun l => l[k]?) e
  simp only [shift, List.getElem?_zipWith, List.getElem?_eq_getElem h1, List.getElem?_eq_getElem h2,
    List.getElem?_eq_getElem (show k < offset.length by omega), Option.some.injEq] at this
  omega

theorem rowMajor_last {shape : List Nat} (hp : Pos shape) :
    InRange shape (shape.map (· - 1)) ∧ rowMajor shape (shape.map (· - 1)) + 1 = shape.prod := by
  induction shape with
  | nil => exact ⟨.nil, rfl⟩
  | cons d ds ih =>
    obtain ⟨h1, h2⟩ := ih fun x hx => hp x (by simp [hx])
    have hd := hp d (by simp)
    refine ⟨.cons (show d - 1 < d by omega) h1, ?_⟩
    simp only [List.map_cons, rowMajor, List.prod_cons]
    obtain ⟨e, rfl⟩ : ∃ e, d = e + 1 := ⟨d - 1, by omega⟩
    rw [Nat.add_assoc, h2, Nat.add_sub_cancel]
    ring

/-- an index that can be read is one of the shape of the view, up to broadcasting -/
theorem globalIndex_readable {idx shape : List Nat} {rv : List SliceRange} (fit : RangesFit rv shape)
    (hp : Pos (rv.map (fun r => r.stop - r.start))) {g : Nat} (h : globalIndex idx shape (some rv) = .ok g) :
    Readable (rv.map (fun r => r.stop - r.start)) idx := by
  obtain ⟨_, h1, h2⟩ := globalIndex_some_inv fit hp h
  have hl := RangesFit.length fit
  have hfit : ∀ k (hk : k < rv.length) (hk' : k < shape.length), rv[k].start ≤ rv[k].stop ∧ rv[k].stop ≤ shape[k] := by
    intro k hk hk'
    have := (List.forall₂_iff_get.1 fit).2 k hk hk'
    simpa using this
  constructor
  · intro d hd
    rw [List.mem_take_iff_getElem] at hd
    obtain ⟨k, hk, rfl⟩ := hd
    simp only [List.length_map] at hk
    have := h1 (shape[k]'(by omega)) (by rw [List.mem_take_iff_getElem]; exact ⟨k, by omega, rfl⟩)
    have := hfit k (by omega) (by omega)
    simp only [List.getElem_map]
    omega
  · rw [List.forall₂_iff_get]
    refine ⟨by simp; omega, fun k hk hk' => ?_⟩
    simp only [List.length_drop, List.length_map] at hk hk'
    have ht : k < (trips idx shape rv).length := by simp [trips]; omega
    have h3 := h2 _ (List.getElem_mem ht)
    simp only [trips, List.getElem_zip, List.getElem_drop] at h3
    have h4 := hfit (rv.length - idx.length + k) (by omega) (by omega)
    have h5 := hp (rv[rv.length - idx.length + k].stop - rv[rv.length - idx.length + k].start)
      (List.mem_map.2 ⟨_, List.getElem_mem _, rfl⟩)
    simp only [List.get_eq_getElem, List.getElem_drop, List.getElem_map, List.length_map]
    simp only [show shape.length = rv.length from hl.symm] at h3 h4
    rcases h3 with h3 | h3
    · left; omega
    · right; exact h3

theorem eq_of_le_of_prod {s t : List Nat} (h : List.Forall₂ (· ≤ ·) s t) (hp : Pos s) (e : t.prod ≤ s.prod) : s = t := by
  induction h with
  | nil => rfl
  | @cons a b s t hab h ih =>
    have hps : Pos s := fun x hx => hp x (by simp [hx])
    have ha := hp a (by simp)
    have hle : s.prod ≤ t.prod := by
      clear ih e hp
      induction h with
      | nil => exact le_refl _
      | cons h1 _ ih => simp only [List.prod_cons]; exact Nat.mul_le_mul h1 (ih fun x hx => hps x (by simp [hx]))
    have hs : 0 < s.prod := prod_pos_of_pos hps
    simp only [List.prod_cons] at e
    have h1 : a = b := by
      by_contra hne
      have : (a + 1) * s.prod ≤ b * t.prod := Nat.mul_le_mul (by omega) hle
      rw [Nat.add_mul] at this
      omega
    subst h1
    have h2 : t.prod ≤ s.prod := Nat.le_of_mul_le_mul_left e ha
    rw [ih hps h2]

theorem replicate_one_of_prod {t : List Nat} (h : t.prod = 1) : t = List.replicate t.length 1 := by
  induction t with
  | nil => rfl
  | cons a t ih =>
    rw [List.prod_cons] at h
    rw [Nat.eq_one_of_mul_eq_one_right h, ih (Nat.eq_one_of_mul_eq_one_left h)]
    simp [List.replicate_succ]

/-- shapes with the same number of elements whose last indices are aligned agree up to dimensions of length 1 in front -/
theorem shapes_of_last {s t : List Nat} (ps : Pos s) (pt : Pos t) (hprod : s.prod = t.prod)
    (e : bproj s (t.map (· - 1)) = s.map (· - 1)) :
    t = List.replicate (t.length - s.length) 1 ++ s ∨ t.length < s.length ∧ s = List.replicate (s.length - t.length) 1 ++ t := by
  have hk : ∀ k (hk : k < s.length), (k < s.length - t.length → s[k] = 1) ∧
      ∀ (h : s.length - t.length ≤ k), s[k] ≤ t[t.length - s.length + (k - (s.length - t.length))]'(by omega) := by
    intro k hk
    have := congrArg (fun l => l[k]?) e
    simp only [bproj, alignRight, List.length_map, List.getElem?_zipWith, List.getElem?_map, List.getElem?_eq_getElem hk] at this
    have hs := ps s[k] (List.getElem_mem hk)
    by_cases h : k < s.length - t.length
    · rw [List.getElem?_append_left (by simpa using h), List.getElem?_replicate, if_pos h] at this
      simp only [Option.map_some, Option.some.injEq] at this
      refine ⟨fun _ => ?_, fun h' => absurd h (by omega)⟩
      split at this <;> omega
    · refine ⟨fun h' => absurd h' h, fun h' => ?_⟩
      rw [List.getElem?_append_right (by simpa using h'), List.length_replicate, List.getElem?_drop, List.getElem?_map,
        List.getElem?_eq_getElem (by omega)] at this
      simp only [Option.map_some, Option.some.injEq] at this
      have ht := pt (t[t.length - s.length + (k - (s.length - t.length))]'(by omega)) (List.getElem_mem _)
      split at this <;> omega
  have hle : List.Forall₂ (· ≤ ·) (s.drop (s.length - t.length)) (t.drop (t.length - s.length)) := by
    rw [List.forall₂_iff_get]
    refine ⟨by simp; omega, fun k h1 h2 => ?_⟩
    simp only [List.length_drop] at h1 h2
    simp only [List.get_eq_getElem, List.getElem_drop]
    have := (hk (s.length - t.length + k) (by omega)).2 (by omega)
    simpa using this
  have hs1 : s.take (s.length - t.length) = List.replicate (s.length - t.length) 1 := by
    refine List.ext_getElem (by simp) fun k h1 h2 => ?_
    simp only [List.length_take] at h1
    simp only [List.getElem_take, List.getElem_replicate]
    exact (hk k (by omega)).1 (by omega)
  have hps : s.prod = (s.drop (s.length - t.length)).prod := by
    conv_lhs => rw [← List.take_append_drop (s.length - t.length) s, List.prod_append, hs1]
    simp
  have hpt : t.prod = (t.take (t.length - s.length)).prod * (t.drop (t.length - s.length)).prod := by
    conv_lhs => rw [← List.take_append_drop (t.length - s.length) t, List.prod_append]
  have h1 : 0 < (t.take (t.length - s.length)).prod := prod_pos_of_pos fun x hx => pt x (List.mem_of_mem_take hx)
  have heq := eq_of_le_of_prod hle (fun x hx => ps x (List.mem_of_mem_drop hx)) (by
    rw [← hps, hprod, hpt]; exact Nat.le_mul_of_pos_left _ h1)
  have h2 : 0 < (t.drop (t.length - s.length)).prod := prod_pos_of_pos fun x hx => pt x (List.mem_of_mem_drop hx)
  have hone : (t.take (t.length - s.length)).prod = 1 := by
    have : 1 * (t.drop (t.length - s.length)).prod = (t.take (t.length - s.length)).prod * (t.drop (t.length - s.length)).prod := by
      rw [Nat.one_mul, ← hpt, ← hprod, hps, heq]
    exact (Nat.eq_of_mul_eq_mul_right h2 this).symm
  have ht1 := replicate_one_of_prod hone
  by_cases hlt : t.length < s.length
  · right
    refine ⟨hlt, ?_⟩
    conv_lhs => rw [← List.take_append_drop (s.length - t.length) s, hs1, heq]
    rw [show t.length - s.length = 0 by omega, List.drop_zero]
  · left
    conv_lhs => rw [← List.take_append_drop (t.length - s.length) t, ht1, ← heq]
    rw [show s.length - t.length = 0 by omega, List.drop_zero]
    simp

theorem globalIndexLoop_append_ones (sl : Nat) (o : Option (List SliceRange)) {l' : List (Nat × Nat)} (h : ∀ p ∈ l', p.1 = 1) :
    ∀ (l : List (Nat × Nat)) (n g m : Nat), globalIndexLoop sl o (l ++ l') n g m = globalIndexLoop sl o l n g m := by
  intro l
  induction l with
  | nil =>
    induction l' with
    | nil => intros; rfl
    | cons p l' ih =>
      intro n g m
      obtain ⟨d, i⟩ := p
      obtain rfl : d = 1 := h (d, i) (by simp)
      show globalIndexLoop sl o l' (n + 1) g m = _
      exact ih (fun p hp => h p (by simp [hp])) _ _ _
  | cons p l ih =>
    intro n g m
    obtain ⟨d, i⟩ := p
    rw [List.cons_append, globalIndexLoop, globalIndexLoop]
    simp only [ih]

/-- leading zeros of an index for dimensions of length 1 can be left out -/
theorem globalIndex_drop_zeros {shape idx : List Nat} {c : Nat} (o : Option (List SliceRange)) (hl : shape.length = c + idx.length)
    (h1 : ∀ d ∈ shape.take c, d = 1) : globalIndex idx shape o = globalIndex (List.replicate c 0 ++ idx) shape o := by
  unfold globalIndex
  rw [if_neg, if_neg]
  · conv_rhs => rw [← List.take_append_drop c shape]
    rw [List.reverse_append, List.reverse_append, List.zip_append (by simp; omega), globalIndexLoop_append_ones]
    · rw [List.take_append_drop]
      congr 1
      conv_lhs => rw [← List.take_append_drop c shape, List.reverse_append, ← List.append_nil idx.reverse,
        List.zip_append (by simp; omega)]
      simp
    · intro p hp
      have := (List.of_mem_zip hp).1
      exact h1 _ (List.mem_reverse.1 this)
  · rintro ⟨h, _⟩
    simp at h; omega
  · rintro ⟨h, h2⟩
    rw [List.any_eq_true] at h2
    obtain ⟨d, hd, hd'⟩ := h2
    rw [show shape.length - idx.length = c by omega] at hd
    have := h1 d hd
    simp [this] at hd'

end RL
