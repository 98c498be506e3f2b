import Verif.Lemmas.Windows

/-!
# Scalar multiples and dot products of views, exactly (C14, C17)
-/

namespace RL

open Spec

variable {T : Type}

/-- C14: a view of the elements stored first is scaled correctly, as far as reading the result goes. -/
theorem C14_window_partial [Mul T] (s : T) (A : List T) (sh : List Nat) (rs : List SliceRange) (hA : A.length = sh.prod)
    (fit : RangesFit rs sh) (h : FirstStored sh rs) :
    ∃ t, mulRaw (Raw.scalar s) (.view (window A sh rs)) = .ok t ∧ t.shape = lens rs ∧
      ∀ idx, InRange (lens rs) idx → ∃ v, View.elem? (window A sh rs) idx = some v ∧ t.get idx = .ok (s * v) := by
  refine ⟨_, rfl, rfl, fun idx hi => ?_⟩
  obtain ⟨v, hv, _⟩ := View.get_ok (window_ok hA fit) hi
  refine ⟨v, hv, ?_⟩
  rw [Raw.get_inRange (by exact hi)]
  apply idxR_eq_ok.2
  change A[rowMajor sh (shift rs idx)]? = some v at hv
  change (A.map fun e => s * e)[rowMajor (lens rs) idx]? = some (s * v)
  rw [List.getElem?_map, ← h idx hi, hv]
  rfl

/-- C14, exactly for which windows: a view is scaled correctly whatever the numbers in its tensor if and only if its elements are the ones
stored first. Even then the result is only well formed if the view is the whole tensor. -/
theorem C14_exact (sh : List Nat) (rs : List SliceRange) (fit : RangesFit rs sh) (hp : Pos (lens rs)) :
    ((∀ (A : List Int) (s : Int), A.length = sh.prod →
      ∃ t, mulRaw (Raw.scalar s) (.view (window A sh rs)) = .ok t ∧ t.shape = lens rs ∧
        ∀ idx, InRange (lens rs) idx → ∃ v, View.elem? (window A sh rs) idx = some v ∧ t.get idx = .ok (s * v)) ↔ FirstStored sh rs) ∧
    ((∀ (A : List Int) (s : Int), A.length = sh.prod →
      ∃ t, mulRaw (Raw.scalar s) (.view (window A sh rs)) = .ok t ∧ WF t) ↔ lens rs = sh) := by
  refine ⟨⟨fun H idx hi => ?_, fun h A s hA => C14_window_partial s A sh rs hA fit h⟩, fun H => ?_, fun h A s hA => ?_⟩
  · obtain ⟨t, ht, _, h⟩ := H ((List.range sh.prod).map Int.ofNat) 1 (by simp)
    obtain rfl := Except.ok.inj ht
    obtain ⟨v, hv, hg⟩ := h idx hi
    change ((List.range sh.prod).map Int.ofNat)[rowMajor sh (shift rs idx)]? = some v at hv
    rw [Raw.get_inRange (by exact hi), idxR_eq_ok] at hg
    change (((List.range sh.prod).map Int.ofNat).map fun e => 1 * e)[rowMajor (lens rs) idx]? = some (1 * v) at hg
    rw [List.getElem?_map, Option.map_eq_some_iff] at hv
    obtain ⟨p, hp1, rfl⟩ := hv
    rw [List.getElem?_map, List.getElem?_map, Option.map_eq_some_iff] at hg
    obtain ⟨q, hq, hqp⟩ := hg
    rw [Option.map_eq_some_iff] at hq
    obtain ⟨r, hr, rfl⟩ := hq
    rw [List.getElem?_eq_some_iff] at hp1 hr
    obtain ⟨_, hp1⟩ := hp1
    obtain ⟨_, hr⟩ := hr
    simp at hqp hp1 hr
    omega
  · obtain ⟨t, ht, hw⟩ := H (List.replicate sh.prod 0) 1 (by simp)
    obtain rfl := Except.ok.inj ht
    refine lens_full fit hp ?_
    have : ((List.replicate sh.prod (0 : Int)).map fun e => 1 * e).length = (lens rs).prod := hw
    simp at this
    exact this.symm
  · refine ⟨_, rfl, ?_⟩
    change (A.map fun e => s * e).length = (lens rs).prod
    rw [List.length_map, hA, h]

/-- C14, test: the first row of a matrix is scaled correctly, but the result stores all elements; the first column is not. -/
example : mulRaw (Raw.scalar 2) (.view (window [1, 2, 3, 4] [2, 2] [⟨0, 1⟩, ⟨0, 2⟩])) = .ok (⟨[2, 4, 6, 8], [1, 2]⟩ : Raw Int) ∧
    FirstStored [2, 2] [⟨0, 1⟩, ⟨0, 2⟩] ∧ RangesFit [⟨0, 1⟩, ⟨0, 2⟩] [2, 2] ∧ ¬ FirstStored [2, 2] [⟨0, 2⟩, ⟨0, 1⟩] := by
  refine ⟨by decide, ?_, .cons (by decide) (.cons (by decide) .nil), ?_⟩
  · intro idx h
    cases h with
    | @cons _ i _ is h1 h2 =>
      cases h2 with
      | @cons _ j _ js h2 h3 =>
        cases h3
        simp at h1
        simp [rowMajor, shift, lens, h1]
  · intro h
    exact absurd (h [1, 0] (.cons (by decide) (.cons (by decide) .nil))) (by decide)

/-- C17, exactly what `dot` does, for tensors and views: it runs over everything stored in the tensor of the left operand, and panics when
the tensor of the right one stores less. -/
theorem C17_actual [Zero T] [Add T] [Mul T] (l r : TL T) :
    (l.shape ≠ r.shape → Panics (dotRaw l r)) ∧
    (l.shape = r.shape → r.tensor.array.length < l.tensor.array.length → Panics (dotRaw l r)) ∧
    (l.shape = r.shape → l.tensor.array.length ≤ r.tensor.array.length →
      dotRaw l r = .ok { array := [(List.zipWith (· * ·) l.tensor.array r.tensor.array).foldl (· + ·) 0], shape := [1] }) := by
  refine ⟨fun hs => ⟨.assert, ?_, by simp⟩, fun hs hl => ⟨.index, ?_, by simp⟩, fun hs hl => ?_⟩
  · have : l.sameShape r = false := by simpa [TL.sameShape] using hs
    simp [dotRaw, this, R.panic]
  · have : l.sameShape r = true := by simp [TL.sameShape, hs]
    rw [dotRaw, this, assertR_true, R.bind_ok, dotLoop_long hl]
    rfl
  · have : l.sameShape r = true := by simp [TL.sameShape, hs]
    rw [dotRaw, this, assertR_true, R.bind_ok, dotLoop_short _ _ _ (le_refl _) hl, R.bind_ok, List.take_length]
    have : List.zipWith (· * ·) l.tensor.array (r.tensor.array.take l.tensor.array.length) =
        List.zipWith (· * ·) l.tensor.array r.tensor.array := by
      refine List.ext_getElem (by simp) fun i h1 h2 => ?_
      simp
    rw [this]
    rfl

/-- C17, exactly for which windows: the dot product of two views is right whatever the numbers in their tensors if and only if the left
one is a whole tensor, and the elements of the right one are the ones its tensor stores first. -/
theorem C17_exact (sh sh' : List Nat) (rs rs' : List SliceRange) (fit : RangesFit rs sh) (fit' : RangesFit rs' sh') (hp : Pos (lens rs))
    (hs : lens rs = lens rs') :
    (∀ A B : List Int, A.length = sh.prod → B.length = sh'.prod → dotRaw (.view (window A sh rs)) (.view (window B sh' rs')) =
      .ok { array := [(List.zipWith (· * ·) (elems (.view (window A sh rs))) (elems (.view (window B sh' rs')))).foldl (· + ·) 0],
            shape := [1] }) ↔ lens rs = sh ∧ FirstStored sh' rs' := by
  have hle := lens_prod_le fit
  have hle' := lens_prod_le fit'
  have ok : ∀ A B : List Int, sh.prod ≤ sh'.prod → A.length = sh.prod → B.length = sh'.prod →
      dotRaw (.view (window A sh rs)) (.view (window B sh' rs')) = .ok { array := [(List.zipWith (· * ·) A B).foldl (· + ·) 0], shape := [1] } :=
    fun A B h hA hB => (C17_actual (.view (window A sh rs)) (.view (window B sh' rs'))).2.2 hs (by
      change A.length ≤ B.length
      omega)
  constructor
  · intro H
    have hlt : sh.prod ≤ sh'.prod := by
      by_contra hlt
      obtain ⟨p, hpan, _⟩ := (C17_actual (.view (window (List.replicate sh.prod (1 : Int)) sh rs))
        (.view (window (List.replicate sh'.prod 1) sh' rs'))).2.1 hs (by
          change (List.replicate sh'.prod (1 : Int)).length < (List.replicate sh.prod (1 : Int)).length
          simp only [List.length_replicate]
          omega)
      rw [H _ _ (by simp) (by simp)] at hpan
      cases hpan
    have hfull : lens rs = sh := by
      refine lens_full fit hp ?_
      have h1 := H (List.replicate sh.prod 1) (List.replicate sh'.prod 1) (by simp) (by simp)
      rw [ok _ _ hlt (by simp) (by simp), dot_ones _ _ hlt] at h1
      have e : ∀ (sh : List Nat) (rs : List SliceRange), RangesFit rs sh →
          elems (.view (window (List.replicate sh.prod (1 : Int)) sh rs)) = List.replicate (lens rs).prod 1 := by
        intro sh rs fit
        have hok : Ok (.view (window (List.replicate sh.prod (1 : Int)) sh rs)) := window_ok (by simp) fit
        refine List.eq_replicate_iff.2 ⟨elems_length hok, fun x hx => ?_⟩
        simp only [elems, List.mem_filterMap] at hx
        obtain ⟨idx, _, hx⟩ := hx
        change (List.replicate sh.prod (1 : Int))[rowMajor sh (shift rs idx)]? = some x at hx
        rw [List.getElem?_replicate] at hx
        split at hx
        · exact (Option.some.inj hx).symm
        · cases hx
      rw [e sh rs fit, e sh' rs' fit', dot_ones _ _ (by rw [hs])] at h1
      have h2 := Except.ok.inj h1
      simp only [Raw.mk.injEq, List.cons.injEq, and_true] at h2
      exact_mod_cast h2.symm
    refine ⟨hfull, fun idx hi => ?_⟩
    have hplt := rowMajor_lt hi
    generalize hpd : rowMajor (lens rs') idx = p at hplt ⊢
    have hpn : p < sh.prod := by rw [← hfull, hs]; exact hplt
    let A : List Int := (List.range sh.prod).map fun i => if i = p then (1 : Int) else 0
    let B : List Int := (List.range sh'.prod).map Int.ofNat
    have hA : A.length = sh.prod := by simp [A]
    have hB : B.length = sh'.prod := by simp [B]
    have hBok : Ok (.view (window B sh' rs')) := window_ok hB fit'
    have h1 := H A B hA hB
    rw [ok A B hlt hA hB, elems_firstStored hA fit (firstStored_full fit hfull), hfull, List.take_of_length_le (by omega)] at h1
    have h2 := Except.ok.inj h1
    simp only [Raw.mk.injEq, List.cons.injEq, and_true] at h2
    rw [dot_unit _ _ _ hpn (by omega), dot_unit _ _ _ hpn (by rw [elems_length hBok]; change sh.prod ≤ (lens rs').prod; rw [← hs, hfull])] at h2
    have hel := elems_getElem? hBok (idx := idx) hi
    change (elems (.view (window B sh' rs')))[rowMajor (lens rs') idx]? = B[rowMajor sh' (shift rs' idx)]? at hel
    rw [hpd] at hel
    have hval : ∀ q, B[q]? = if q < sh'.prod then some (Int.ofNat q) else none := by
      intro q
      simp only [B, List.getElem?_map]
      split
      · next h => rw [List.getElem?_range h]; rfl
      · next h => rw [List.getElem?_eq_none (by simp; omega)]; rfl
    rw [List.getD_eq_getElem?_getD, List.getD_eq_getElem?_getD, hel, hval, hval, if_pos (by omega)] at h2
    have hsome : B[rowMajor sh' (shift rs' idx)]? ≠ none := by
      rw [← hel, List.getElem?_eq_getElem (by rw [elems_length hBok]; exact hplt)]
      simp
    rw [hval] at hsome
    split at hsome
    · next h =>
      rw [if_pos h] at h2
      simp at h2
      exact h2.symm
    · exact absurd rfl hsome
  · rintro ⟨hfull, hfirst⟩ A B hA hB
    have hlt : sh.prod ≤ sh'.prod := by rw [← hfull, hs]; exact hle'
    rw [ok A B hlt hA hB, elems_firstStored hA fit (firstStored_full fit hfull), elems_firstStored hB fit' hfirst, ← hs, hfull,
      List.take_of_length_le (show A.length ≤ sh.prod by omega)]
    have : List.zipWith (· * ·) A (B.take sh.prod) = List.zipWith (· * ·) A B := by
      refine List.ext_getElem (by simp; omega) fun i h1 h2 => ?_
      simp
    rw [this]

/-- C17, test: a row with the first row of a matrix; the other way round; with the second row. -/
example : dotRaw (.view (window [1, 2] [1, 2] [⟨0, 1⟩, ⟨0, 2⟩])) (.view (window [3, 4, 5, 6] [2, 2] [⟨0, 1⟩, ⟨0, 2⟩])) = .ok (⟨[11], [1]⟩ : Raw Int) ∧
    dotRaw (.view (window [3, 4, 5, 6] [2, 2] [⟨0, 1⟩, ⟨0, 2⟩])) (.view (window [1, 2] [1, 2] [⟨0, 1⟩, ⟨0, 2⟩])) = (R.panic .index : R (Raw Int)) ∧
    dotRaw (.view (window [1, 2] [1, 2] [⟨0, 1⟩, ⟨0, 2⟩])) (.view (window [3, 4, 5, 6] [2, 2] [⟨1, 2⟩, ⟨0, 2⟩])) = .ok (⟨[11], [1]⟩ : Raw Int) ∧
    elems (.view (window [3, 4, 5, 6] [2, 2] [⟨1, 2⟩, ⟨0, 2⟩])) = [5, 6] := by
  decide

end RL
