import Verif.Props.Views
import Verif.Props.Elementwise
import Verif.Lemmas.Heap2

/-!
# Exactly when views broadcast like the tensors they materialise to (C51, C52)
-/

namespace RL

open Spec

variable {T : Type}

/-- C51, exactly: in an addition a view can be replaced by the tensor it materialises to if and only if the shapes are not compatible
(then both panic), or the view narrows no dimension to length 1 where the other operand has a length other than 1. -/
theorem C51_exact [Zero T] [Add T] (l : Raw T) (v : View T) (t : Raw T) (hl : WF l) (pl : Pos l.shape)
    (hv : ViewOk v) (hp : Pos v.shape) (ht : (TL.view v).toTensor = .ok t) :
    addRaw (.raw l) (.view v) = addRaw (.raw l) (.raw t) ↔ ¬ Compatible l.shape v.shape ∨
      ∀ k d n : Nat, v.shape.reverse[k]? = some 1 → v.tensor.shape.reverse[k]? = some d → l.shape.reverse[k]? = some n → d = 1 ∨ n = 1 := by
  obtain ⟨h1, h2⟩ := C51_actual l v t hl pl hv hp ht
  obtain ⟨_, hs, hw, _⟩ := toTensor_view_inv ht
  constructor
  · intro e
    by_contra hc
    simp only [not_or, not_not] at hc
    obtain ⟨f, hf, _⟩ := h2 hc.2
    obtain ⟨s, hs'⟩ := (C11_add_accepts l t hl hw pl (by rwa [hs])).1 (by rw [hs]; exact hc.1)
    rw [e, hs'] at hf
    cases hf
  · rintro (hc | hc)
    · have e1 : ¬ (TL.raw l).broadcastable (TL.view v).shape = true := fun hb => hc ((broadcastable_iff (.raw l) v.shape).1 hb)
      have e2 : ¬ (TL.raw l).broadcastable (TL.raw t).shape = true := fun hb => hc (by
        have := (broadcastable_iff (.raw l) t.shape).1 hb
        rwa [hs] at this)
      unfold addRaw
      rw [genericBinopRaw_eq (l := .raw l) (r := .view v) pl hp, genericBinopRaw_eq (l := .raw l) (r := .raw t) pl (by rwa [TL.shape_raw, hs]), if_neg e1,
        if_neg e2]
    · exact h1 hc

/-- C52, exactly: an addition with a view never returns a result with elements if and only if the shapes are not compatible, a dimension of
the tensor has length zero, the view has a zero-length dimension to the left of those of the tensor, an empty range belongs to a dimension
of length other than 1, or the view narrows a dimension to length 1 where the tensor has a length other than 1. (In all these cases the
addition panics.) -/
theorem C52_exact [Zero T] [Add T] (l : Raw T) (v : View T) (hl : WF l) (hv : ViewOk v) :
    (∀ t, addRaw (.raw l) (.view v) = .ok t → t.array = []) ↔
      ¬ Compatible l.shape v.shape ∨ ¬ Pos l.shape ∨ ¬ Pos (v.shape.take (v.shape.length - l.shape.length)) ∨
        ¬ List.Forall₂ (fun r d => r.stop = r.start → d = 1) v.offset v.tensor.shape ∨
        ∃ k d n : Nat, v.shape.reverse[k]? = some 1 ∧ v.tensor.shape.reverse[k]? = some d ∧ l.shape.reverse[k]? = some n ∧ d ≠ 1 ∧ n ≠ 1 := by
  by_cases h : ¬ Compatible l.shape v.shape ∨ ¬ Pos l.shape ∨ ¬ Pos (v.shape.take (v.shape.length - l.shape.length)) ∨
      ¬ List.Forall₂ (fun r d => r.stop = r.start → d = 1) v.offset v.tensor.shape
  · refine ⟨fun _ => ?_, fun _ t e => ?_⟩
    · tauto
    · obtain ⟨f, hf, _⟩ := C52_partial l v hv h
      rw [e] at hf
      cases hf
  · have h' := h
    simp only [not_or, not_not] at h'
    obtain ⟨hc, pl, ht, hf⟩ := h'
    obtain ⟨wo, wp, we⟩ := C52_actual l v hv hc pl ht hf
    have wc : Compatible l.shape (widen v).shape := compatible_widen pl hc
    have wt := toTensor_view wo wp
    obtain ⟨h1, h2⟩ := C51_actual l (widen v) _ hl pl wo wp wt
    -- a dimension that is narrowed to length 1 in `widen v` is so in `v`, or has length 1 anyway
    have key : (∀ k d n : Nat, (widen v).shape.reverse[k]? = some 1 → (widen v).tensor.shape.reverse[k]? = some d → l.shape.reverse[k]? = some n →
        d = 1 ∨ n = 1) ↔ ¬ ∃ k d n : Nat, v.shape.reverse[k]? = some 1 ∧ v.tensor.shape.reverse[k]? = some d ∧ l.shape.reverse[k]? = some n ∧ d ≠ 1 ∧ n ≠ 1 := by
      constructor
      · rintro H ⟨k, d, n, e1, e2, e3, e4, e5⟩
        have := H k d n (by simp only [widen, ← List.map_reverse, List.getElem?_map, e1]; rfl) e2 e3
        tauto
      · intro H k d n e1 e2 e3
        by_contra hne
        simp only [not_or] at hne
        simp only [widen, ← List.map_reverse, List.getElem?_map, Option.map_eq_some_iff] at e1 e2
        obtain ⟨s, e4, e5⟩ := e1
        have hs : s ≤ 1 := by omega
        rcases Nat.lt_or_ge s 1 with h0 | h0
        · -- an empty range
          obtain rfl : s = 0 := by omega
          rw [hv.2.2] at e4
          rw [← List.map_reverse, List.getElem?_map, Option.map_eq_some_iff] at e4
          obtain ⟨r, e6, e7⟩ := e4
          obtain ⟨a, e8⟩ := List.getElem?_eq_some_iff.1 e6
          obtain ⟨b, e9⟩ := List.getElem?_eq_some_iff.1 e2
          have hle := (List.forall₂_iff_get.1 (List.forall₂_reverse_iff.2 hv.2.1)).2 k a b
          have h3 := (List.forall₂_iff_get.1 (List.forall₂_reverse_iff.2 hf)).2 k a b
          simp only [List.get_eq_getElem, e8, e9] at hle h3
          exact hne.1 (h3 (by omega))
        · obtain rfl : s = 1 := by omega
          exact H ⟨k, d, n, e4, e2, e3, hne.1, hne.2⟩
    rw [we]
    constructor
    · intro H
      by_contra hno
      have hno : ¬ ∃ k d n : Nat, v.shape.reverse[k]? = some 1 ∧ v.tensor.shape.reverse[k]? = some d ∧ l.shape.reverse[k]? = some n ∧ d ≠ 1 ∧ n ≠ 1 :=
        fun hx => hno (.inr (.inr (.inr (.inr hx))))
      have e := h1 (key.2 hno)
      have hw := (toTensor_view_inv wt).2.2.1
      obtain ⟨t, ht⟩ := (C11_add_accepts l _ hl hw pl wp).1 wc
      have h3 := H t (e.trans ht)
      obtain ⟨e1, e2, _⟩ := C10_add (.raw l) (.raw _) hl hw pl wp t ht
      have hpos : Pos t.shape := by
        rw [e1, TL.shape_raw, TL.shape_raw, ← maxShape_eq_bshape pl wp wc]
        exact maxShape_pos pl wp
      have : 0 < t.array.length := by
        rw [e2]
        exact prod_pos_of_pos hpos
      rw [h3] at this
      cases this
    · intro H t e
      have hk : ¬ _ := fun hk => (key.1 hk) (H.resolve_left (by tauto) |>.resolve_left (by tauto) |>.resolve_left (by tauto) |>.resolve_left (by tauto))
      obtain ⟨f, hf', _⟩ := h2 hk
      rw [e] at hf'
      cases hf'

/-- C51 and C52, tests: a view that narrows 2 to 1 next to a dimension of length 2; an empty range of a dimension of length 1 -/
example : ¬ (∀ k d n : Nat, [1].reverse[k]? = some 1 → [2].reverse[k]? = some d → [2].reverse[k]? = some n → d = 1 ∨ n = 1) ∧
    Compatible [1] [0] ∧ Pos [1] ∧ List.Forall₂ (fun (r : SliceRange) d => r.stop = r.start → d = 1) [⟨0, 0⟩] [1] := by
  refine ⟨fun h => ?_, ?_, by simp [Pos], .cons (fun _ => rfl) .nil⟩
  · have := h 0 2 2 rfl rfl rfl
    omega
  · exact .cons (.inr (.inl rfl)) .nil

end RL
