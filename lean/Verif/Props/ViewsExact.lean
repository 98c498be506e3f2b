import Verif.Lemmas.ViewsExact
import Verif.Props.Views

/-!
# C24, C25: exactly which slices and reshapes of a view are right
-/

namespace RL

open Spec

variable {T : Type}

/-- C24, exactly: whatever the elements, a slice of a view reads the composed elements just if it has no elements or all ranges of the
view start at 0. -/
theorem C24_exact [Nontrivial T] (shape : List Nat) (offset rs : List SliceRange) (ho : RangesFit offset shape)
    (hrs : RangesFit rs (offset.map fun r => r.stop - r.start)) :
    (∀ array : List T, array.length = shape.prod →
      ∃ w, View.slice ⟨⟨array, shape⟩, offset.map (fun r => r.stop - r.start), offset⟩ rs = .ok w ∧
        w.shape = rs.map (fun r => r.stop - r.start) ∧
        ∀ idx, InRange w.shape idx → ∃ x, View.elem? ⟨⟨array, shape⟩, offset.map (fun r => r.stop - r.start), offset⟩ (shift rs idx) = some x ∧
          w.get idx = .ok x) ↔
    (∃ r ∈ rs, r.start = r.stop) ∨ ∀ r ∈ offset, r.start = 0 := by
  constructor
  · intro H
    by_cases hne : ∃ r ∈ rs, r.start = r.stop
    · exact .inl hne
    right
    obtain ⟨i1, i2, i3, i4, i5⟩ := starts_inRange ho hrs fun r hr e => hne ⟨r, hr, e⟩
    obtain ⟨a, b, hab⟩ := exists_pair_ne T
    have hlen := markAt_length a b shape.prod (rowMajor shape (rs.map (·.start)))
    obtain ⟨w, h1, h2, h3⟩ := H _ hlen
    have hv : ViewOk (⟨⟨markAt a b shape.prod (rowMajor shape (rs.map (·.start))), shape⟩, offset.map (fun r => r.stop - r.start),
      offset⟩ : View T) := ⟨hlen, ho, rfl⟩
    obtain ⟨w', g1, g2, g3⟩ := C24_actual _ rs hv (rangesFit_trans ho hrs)
    obtain rfl : w = w' := Except.ok.inj (h1.symm.trans g1)
    rw [h2] at h3 g3
    obtain ⟨x, hx, hg⟩ := h3 _ i1
    obtain ⟨y, hy, hg'⟩ := g3 _ i1
    obtain rfl : x = y := Except.ok.inj (hg.symm.trans hg')
    rw [i2] at hx hy
    rw [Raw.elem?, markAt_self (rowMajor_lt i3), Option.some.injEq] at hy
    subst hy
    rw [View.elem?, Raw.elem?] at hx
    exact i5 (rowMajor_inj i4 i3 (markAt_eq hab hx))
  · intro H array hl
    have hv : ViewOk (⟨⟨array, shape⟩, offset.map (fun r => r.stop - r.start), offset⟩ : View T) := ⟨hl, ho, rfl⟩
    rcases H with ⟨r, hr, e⟩ | h0
    · obtain ⟨w, g1, g2, _⟩ := C24_actual _ rs hv (rangesFit_trans ho hrs)
      refine ⟨w, g1, g2, fun idx hi => ?_⟩
      rw [g2] at hi
      obtain ⟨k, hk, rfl⟩ := List.mem_iff_getElem.1 hr
      have hki : k < idx.length := by have := hi.length; simp at this; omega
      have := (List.forall₂_iff_get.1 hi).2 k (by simpa using hk) hki
      simp [e] at this
    · exact C24_slice_partial _ rs hv hrs h0

/-- C24, test: both sides for a view from 0 (true) and a view from 2 (false). -/
example : (∀ r ∈ [(⟨0, 3⟩ : SliceRange)], r.start = 0) ∧ ¬ (∀ r ∈ [(⟨2, 4⟩ : SliceRange)], r.start = 0) ∧ RangesFit [⟨2, 4⟩] [4] ∧
    RangesFit [⟨0, 1⟩] [2] := ⟨by simp, by simp, .cons (by decide) .nil, .cons (by decide) .nil⟩

/-- C25, exactly: whatever the elements, a reshaped view keeps the row-major order just if dimensions of length 1 are put in front, or are
left out in front where also the tensor has length 1. -/
theorem C25_exact [Nontrivial T] (base : List Nat) (offset : List SliceRange) (shape : List Nat) (ho : RangesFit offset base)
    (hp : Pos (offset.map fun r => r.stop - r.start)) (hs : Pos shape) (hprod : (offset.map fun r => r.stop - r.start).prod = shape.prod) :
    (∀ array : List T, array.length = base.prod →
      ∃ w, View.reshape ⟨⟨array, base⟩, offset.map (fun r => r.stop - r.start), offset⟩ shape = .ok w ∧
        ∀ idx idx', InRange (offset.map fun r => r.stop - r.start) idx → InRange shape idx' →
          rowMajor (offset.map fun r => r.stop - r.start) idx = rowMajor shape idx' →
          w.get idx' = View.get ⟨⟨array, base⟩, offset.map (fun r => r.stop - r.start), offset⟩ idx) ↔
    ∃ c, shape = List.replicate c 1 ++ (offset.map fun r => r.stop - r.start) ∨
      (offset.map fun r => r.stop - r.start) = List.replicate c 1 ++ shape ∧ ∀ d ∈ base.take c, d = 1 := by
  have hbl : offset.length = base.length := ho.length
  constructor
  · intro H
    obtain ⟨a, b, hab⟩ := exists_pair_ne T
    obtain ⟨s, es⟩ : ∃ s, s = offset.map fun r => r.stop - r.start := ⟨_, rfl⟩
    have hsl : s.length = base.length := by rw [es, List.length_map, hbl]
    obtain ⟨r1, r2⟩ := rowMajor_last hp
    obtain ⟨r3, r4⟩ := rowMajor_last hs
    have hv : ∀ array : List T, array.length = base.prod →
      ViewOk (⟨⟨array, base⟩, offset.map (fun r => r.stop - r.start), offset⟩ : View T) := fun array h => ⟨h, ho, rfl⟩
    have hlen := markAt_length a b base.prod (rowMajor base (shift offset ((offset.map fun r => r.stop - r.start).map (· - 1))))
    obtain ⟨w, h1, h2⟩ := H _ hlen
    have h3 := h2 _ _ r1 r3 (by omega)
    rw [(C25_actual _ _ _ h1 _).1] at h3
    obtain ⟨x, g1, g2⟩ := View.get_ok (hv _ hlen) r1
    have hin : InRange base (shift offset ((offset.map fun r => r.stop - r.start).map (· - 1))) := shift_inRange ho r1
    have hxa : x = a := by
      rw [View.elem?, Raw.elem?, markAt_self (rowMajor_lt hin), Option.some.injEq] at g1
      exact g1.symm
    subst hxa
    rw [g2] at h3
    have g3 := View.get_ok_inv (hv _ hlen) hp h3
    have hread : ∃ g, globalIndex (shape.map (· - 1)) base (some offset) = .ok g := by
      unfold View.get at h3
      cases hg : globalIndex (shape.map (· - 1)) base (some offset) with
      | error e => simp only [hg] at h3; cases e <;> cases h3
      | ok g => exact ⟨g, rfl⟩
    obtain ⟨g, hg⟩ := hread
    have hrd := globalIndex_readable ho hp hg
    have hin' : InRange base (shift offset (bproj (offset.map fun r => r.stop - r.start) (shape.map (· - 1)))) :=
      shift_inRange ho (bproj_inRange hp hrd)
    rw [View.elem?, Raw.elem?] at g3
    have heq := rowMajor_inj hin' hin (markAt_eq hab g3)
    have heq' : bproj (offset.map fun r => r.stop - r.start) (shape.map (· - 1)) = (offset.map fun r => r.stop - r.start).map (· - 1) :=
      shift_inj (by simpa using (bproj_inRange hp hrd).length.symm) (by simp) heq
    rcases shapes_of_last hp hs hprod heq' with h | ⟨hlt, h⟩
    · exact ⟨_, .inl h⟩
    · refine ⟨_, .inr ⟨h, fun d hd => ?_⟩⟩
      rw [← es, hsl] at hd
      have hle := (globalIndex_some_inv ho hp hg).2.1 d (by simpa using hd)
      obtain ⟨k, hk, rfl⟩ := List.mem_iff_getElem.1 (List.mem_of_mem_take hd)
      have h4 := (List.forall₂_iff_get.1 ho).2 k (by omega) hk
      have h5 := hp (offset[k].stop - offset[k].start) (List.mem_map.2 ⟨_, List.getElem_mem _, rfl⟩)
      simp only [List.get_eq_getElem] at h4
      omega
  · rintro ⟨c, H⟩ array hl
    have hv : ViewOk (⟨⟨array, base⟩, offset.map (fun r => r.stop - r.start), offset⟩ : View T) := ⟨hl, ho, rfl⟩
    rcases H with H | ⟨H, h1⟩
    · obtain ⟨w, g1, _, g3⟩ := C25_prepend_ones_partial _ hv c
      rw [H]
      exact ⟨w, g1, g3⟩
    · refine ⟨_, (C25_accepts _ shape).1 hprod, fun idx idx' hi hi' e => ?_⟩
      have hl2 := hi'.length
      have hl3 : base.length = c + idx'.length := by
        have := congrArg List.length H
        simp only [List.length_map, List.length_append, List.length_replicate] at this
        omega
      have hz : InRange (List.replicate c 1 ++ shape) (List.replicate c 0 ++ idx') := by
        clear H h1 hl3 e
        induction c with
        | zero => exact hi'
        | succ c ih => exact .cons (by omega) ih
      obtain ⟨_, h2⟩ := rowMajor_prepend_ones c shape (List.replicate c 0) idx' hz (by simp)
      rw [← h2] at e
      have : idx = List.replicate c 0 ++ idx' := by
        rw [H] at hi e
        exact rowMajor_inj hi hz e
      subst this
      unfold View.get
      simp only
      rw [globalIndex_drop_zeros (some offset) hl3 h1]

/-- C25, test: a view of shape `[1, 4]` of a row keeps its order as `[4]`; one of a matrix with two rows does not. -/
example : View.reshape ⟨⟨[0, 1, 2, 3], [1, 4]⟩, [1, 4], [⟨0, 1⟩, ⟨0, 4⟩]⟩ [4] =
      .ok (⟨⟨[0, 1, 2, 3], [1, 4]⟩, [4], [⟨0, 1⟩, ⟨0, 4⟩]⟩ : View Nat) ∧
    View.get (⟨⟨[0, 1, 2, 3], [1, 4]⟩, [4], [⟨0, 1⟩, ⟨0, 4⟩]⟩ : View Nat) [2] = .ok 2 ∧
    View.get (⟨⟨[0, 1, 2, 3, 4, 5, 6, 7], [2, 4]⟩, [4], [⟨0, 1⟩, ⟨0, 4⟩]⟩ : View Nat) [2] = R.panic .unwrap := ⟨rfl, rfl, rfl⟩

end RL
