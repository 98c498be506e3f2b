import Verif.Props.Param
import Verif.Lemmas.IntsRelu

/-!
# Integer elements and `relu` (C73)
-/

namespace RL

open Spec

/-- C73 with `relu`, without overflow checks (signed types): if all elements that go into `relu` have the sign of the exact ones, then all
elements, those of gradients too, are exact modulo `2 ^ w`. Missing: programs in which an element that goes into `relu` overflows so
that its sign changes, for which it is false (`C73_false`, `C73_sign`). -/
theorem C73_signs_partial (w : Nat) (ops : List (Op (Wrap w))) (ops' : List (Op Int)) (ho : List.Forall₂ (OpRel IntKind (Residue w)) ops ops') :
    letI := Test.intFn
    SameOutcome (fun h h' => AtRelu (fun a x => a.toInt < 0 ↔ x < 0) h h' → HeapRel IntKind (Residue w) h h') (runOps [] ops) (runOps [] ops') := by
  letI := Test.intFn
  have hz : (0 : Wrap w).toInt = 0 := by change (0#w).toInt = 0; simp
  refine runOps_atRelu (residue_arith w _) (fun a x h hE => ?_) ho
  have hlt : a < 0 ↔ x < 0 := by
    rw [← hE, ← hz]
    exact Iff.rfl
  by_cases hx : x < 0
  · rw [if_pos hx, if_pos (hlt.2 hx), if_pos hx, if_pos (hlt.2 hx)]
    exact ⟨(residue_arith w (fun _ => True)).zero, (residue_arith w (fun _ => True)).zero⟩
  · rw [if_neg hx, if_neg (mt hlt.1 hx), if_neg hx, if_neg (mt hlt.1 hx)]
    exact ⟨h, (residue_arith w (fun _ => True)).one⟩

/-- C73: that is needed: `relu` of one element is exact modulo `2 ^ w` if and only if the element has the right sign or is 0. -/
theorem C73_sign (w : Nat) (a : Wrap w) (x : Int) (h : Residue w a x) :
    Residue w (if a < 0 then 0 else a) (if x < 0 then 0 else x) ↔ ((a.toInt < 0 ↔ x < 0) ∨ a = 0) := by
  have hz : (0 : Wrap w).toInt = 0 := by change (0#w).toInt = 0; simp
  have h0 : (0 : Wrap w) = Wrap.ofInt w 0 := (residue_arith w (fun _ => True)).zero
  have hlt : a < 0 ↔ a.toInt < 0 := by
    rw [← hz]
    exact Iff.rfl
  by_cases hx : x < 0 <;> by_cases ha : a < 0
  · simp only [hx, ha, if_true, hlt.1 ha, Residue, ← h0, true_or, iff_self]
  · simp only [hx, ha, if_true, if_false, Residue, ← h0, mt hlt.2 ha, iff_true, false_or]
  · simp only [hx, ha, if_true, if_false, hlt.1 ha, true_iff, iff_false, false_or]
    have hne : a ≠ 0 := fun e => by rw [e] at hlt; rw [e] at ha; have := hlt.1 ha; omega
    refine iff_of_false (fun e => hne ?_) (by simp [hne])
    rw [show a = Wrap.ofInt w x from h, ← show (0 : Wrap w) = Wrap.ofInt w x from e]
  · simp [hx, ha, mt hlt.2 ha, show Residue w a x from h]

/-- C73: so the elements that go into `relu` must have the right sign or be 0, if the elements that come out are exact modulo `2 ^ w`. -/
theorem C73_needed (w : Nat) (ops : List (Op (Wrap w))) (ops' : List (Op Int)) (h : Heap (Wrap w)) (h' : Heap Int)
    (e : letI := Test.intFn; runOps [] ops = .ok h) (e' : letI := Test.intFn; runOps [] ops' = .ok h') (hw : ∀ i v, dataOf h i = some v → WF v)
    (hr : HeapRel IntKind (Residue w) h h') : AtRelu (fun a x => (a.toInt < 0 ↔ x < 0) ∨ a = 0) h h' := by
  letI := Test.intFn
  intro i d p v v' hi hk hp hv hv' k a x ha hx
  obtain ⟨n, hn, rfl⟩ := Option.map_eq_some_iff.1 hv
  obtain ⟨n', hn', rfl⟩ := Option.map_eq_some_iff.1 hv'
  obtain ⟨m, hm, hmd⟩ := Option.map_eq_some_iff.1 hi
  obtain ⟨m', hm', hmm⟩ := forall₂_get hr hm
  obtain ⟨n'', hn'', hnn⟩ := forall₂_get hr hn
  cases hn'.symm.trans hn''
  obtain ⟨b, hb, hab⟩ := forall₂_get hnn.1.1 ha
  cases hx.symm.trans hb
  have h1 := relu_node (runOps_good e) hm hmd hk hp hn (hw p _ hv)
  have h2 := relu_node (runOps_good e') hm' (hmm.2.2.1.symm.trans hmd) hk hp hn' (wf_rel hnn.1 (hw p _ hv))
  have h3 := hmm.1.1
  rw [h1, h2] at h3
  obtain ⟨y, hy, hr'⟩ := forall₂_get h3 (i := k) (by rw [List.getElem?_map, ha]; rfl)
  rw [List.getElem?_map, hx] at hy
  cases hy
  exact (C73_sign w a x hab).1 hr'

/-- C73 with `relu` (signed types): it is enough that the exact elements that go into `relu` are in the range of the type; whatever
overflows before is exact again. -/
theorem C73_relu_partial (w : Nat) (hw : 0 < w) (ops : List (Op (Wrap w))) (ops' : List (Op Int)) (ho : List.Forall₂ (OpRel IntKind (Residue w)) ops ops') :
    letI := Test.intFn
    SameOutcome (fun h h' => AtRelu (fun _ x => -2 ^ (w - 1) ≤ x ∧ x < 2 ^ (w - 1)) h h' → HeapRel IntKind (Residue w) h h')
      (runOps [] ops) (runOps [] ops') := by
  letI := Test.intFn
  have hz : (0 : Wrap w).toInt = 0 := by change (0#w).toInt = 0; simp
  refine runOps_atRelu (residue_arith w _) (fun a x h hE => ?_) ho
  have hlt : a < 0 ↔ x < 0 := by
    rw [← C73_signed w a x h hw hE.1 hE.2, ← hz]
    exact Iff.rfl
  by_cases hx : x < 0
  · rw [if_pos hx, if_pos (hlt.2 hx), if_pos hx, if_pos (hlt.2 hx)]
    exact ⟨(residue_arith w (fun _ => True)).zero, (residue_arith w (fun _ => True)).zero⟩
  · rw [if_neg hx, if_neg (mt hlt.1 hx), if_neg hx, if_neg (mt hlt.1 hx)]
    exact ⟨h, (residue_arith w (fun _ => True)).one⟩

/-- C73: a program with overflow checks that does not panic (no element of any tensor or gradient overflows) has computed the exact
elements, `relu` included. -/
theorem C73_run (lo hi : Int) (ops : List (Op (Checked lo hi))) (ops' : List (Op Int)) (ho : List.Forall₂ (OpRel IntKind Exact) ops ops') :
    letI := Test.intFn
    SameOutcome (fun h h' => NoOverflow h → HeapRel IntKind (fun x z => x.val = some z) h h') (runOps [] ops) (runOps [] ops') := by
  letI := Test.intFn
  have h1 := runOps_atRelu (T := Checked lo hi) (S := Int) (E := fun a _ => a.val ≠ none) (exact_arith lo hi _) (fun a x h hE => ?_) ho
  · exact h1.mono fun g h hr hn => heapRel_noOverflow (fun _ _ h hne => h.resolve_left hne) hn (hr (atRelu_noOverflow hn))
  · obtain ⟨a⟩ := a
    cases a with
    | none => exact absurd rfl hE
    | some z =>
      rcases h with h | h
      · cases h
      · obtain rfl : z = x := Option.some.inj h
        change Exact (if z < 0 then 0 else _) _ ∧ Exact (if z < 0 then 0 else 1) _
        by_cases hx : z < 0
        · simp only [hx, if_true]
          exact ⟨.inr rfl, .inr rfl⟩
        · simp only [hx, if_false]
          exact ⟨.inr rfl, .inr rfl⟩

/-- C73: if a program does not panic with overflow checks, it computes the same elements without them, `relu` included: signed types. -/
theorem C73_same (w : Nat) (hw : 1 < w) (ops : List (Op (Checked (-2 ^ (w - 1)) (2 ^ (w - 1) - 1)))) (ops' : List (Op (Wrap w)))
    (ho : List.Forall₂ (OpRel IntKind (Agree w)) ops ops') :
    SameOutcome (fun h h' => NoOverflow h → HeapRel IntKind (fun x y => x.val = some y.toInt) h h') (runOps [] ops) (runOps [] ops') := by
  have hz : (0 : Wrap w).toInt = 0 := by change (0#w).toInt = 0; simp
  have h1 := runOps_atRelu (E := fun a _ => a.val ≠ none) (agree_arith w hw _) (fun a x h hE => ?_) ho
  · refine h1.mono fun g h hr hn => ?_
    exact heapRel_noOverflow (fun a x h hne => by
      obtain ⟨z, hz⟩ := Option.ne_none_iff_exists'.1 hne
      rw [hz, h z hz]) hn (hr (atRelu_noOverflow hn))
  · obtain ⟨a⟩ := a
    cases a with
    | none => exact absurd rfl hE
    | some z =>
      have hxz : x.toInt = z := h z rfl
      have h0 := (agree_arith w hw (fun _ => True)).zero
      have h1 := (agree_arith w hw (fun _ => True)).one
      have hlt : x < 0 ↔ z < 0 := by
        rw [← hxz]
        conv_rhs => rw [← hz]
        exact Iff.rfl
      change Agree w (if z < 0 then 0 else _) _ ∧ Agree w (if z < 0 then 0 else 1) _
      by_cases hx : z < 0
      · rw [if_pos hx, if_pos hx, if_pos (hlt.2 hx), if_pos (hlt.2 hx)]
        exact ⟨h0, h0⟩
      · rw [if_neg hx, if_neg hx, if_neg (mt hlt.1 hx), if_neg (mt hlt.1 hx)]
        exact ⟨h, h1⟩

/-- C73, test: `relu` of 100, doubled, in `i8`: 200 overflows, but does not go into `relu`. So everything is exact modulo 256, also the
gradients. -/
example : letI := Test.intFn
    ∃ h h', runOps [] [.scalar (Wrap.ofInt 8 100), .relu 0, .add 1 1, .backward 2] = .ok h ∧
      runOps [] [.scalar (100 : Int), .relu 0, .add 1 1, .backward 2] = .ok h' ∧ dataOf h 2 = some ⟨[Wrap.ofInt 8 (-56)], []⟩ ∧
      dataOf h' 2 = some ⟨[200], []⟩ ∧ AtRelu (fun _ x => -2 ^ (8 - 1) ≤ x ∧ x < 2 ^ (8 - 1)) h h' ∧ HeapRel IntKind (Residue 8) h h' := by
  letI := Test.intFn
  have h1 := C73_relu_partial 8 (by decide) [.scalar (Wrap.ofInt 8 100), .relu 0, .add 1 1, .backward 2] [.scalar 100, .relu 0, .add 1 1, .backward 2]
    (.cons (.scalar rfl) (.cons (.relu _ (by simp [IntKind])) (.cons (.add _ _ (by simp [IntKind])) (.cons (.backward _ (by simp [IntKind])) .nil))))
  have e1 : runOps [] [.scalar (Wrap.ofInt 8 100), .relu 0, .add 1 1, .backward 2] = .ok [⟨⟨[Wrap.ofInt 8 100], []⟩, some 8, none⟩,
    ⟨⟨[Wrap.ofInt 8 100], []⟩, some 6, some ⟨[0], .relu⟩⟩, ⟨⟨[Wrap.ofInt 8 200], []⟩, none, some ⟨[1, 1], .add⟩⟩, leafNode ⟨[1], []⟩,
    leafNode ⟨[1], []⟩, leafNode ⟨[1], []⟩, ⟨⟨[Wrap.ofInt 8 2], []⟩, none, some ⟨[3, 5], .add⟩⟩, leafNode ⟨[1], []⟩,
    ⟨⟨[Wrap.ofInt 8 2], []⟩, none, some ⟨[4, 7], .add⟩⟩] := by decide +kernel
  have e2 : runOps [] [.scalar (100 : Int), .relu 0, .add 1 1, .backward 2] = .ok [⟨⟨[100], []⟩, some 8, none⟩,
    ⟨⟨[100], []⟩, some 6, some ⟨[0], .relu⟩⟩, ⟨⟨[200], []⟩, none, some ⟨[1, 1], .add⟩⟩, leafNode ⟨[1], []⟩,
    leafNode ⟨[1], []⟩, leafNode ⟨[1], []⟩, ⟨⟨[2], []⟩, none, some ⟨[3, 5], .add⟩⟩, leafNode ⟨[1], []⟩,
    ⟨⟨[2], []⟩, none, some ⟨[4, 7], .add⟩⟩] := by decide +kernel
  rw [e1, e2] at h1
  have h2 : ∀ {g : Heap (Wrap 8)} {h : Heap Int}, dataOf h 0 = some ⟨[100], []⟩ → (∀ i d, historyOf g i = some (some d) → d.kind = .relu → d.inputs = [0]) →
      AtRelu (fun _ x => -2 ^ (8 - 1) ≤ x ∧ x < 2 ^ (8 - 1)) g h := by
    intro g h k1 k2 i d p v v' hi hk hp _ hv' k a x _ hx
    obtain rfl : p = 0 := by simpa [k2 i d hi hk] using hp
    cases k1.symm.trans hv'
    obtain rfl : x = 100 := by simpa using List.mem_of_getElem? hx
    decide
  refine ⟨_, _, e1, e2, by decide +kernel, by decide +kernel, ?_⟩
  refine (fun h3 => ⟨h3, h1 h3⟩) (h2 rfl ?_)
  · intro i d hi hk
    match i with
    | 0 | 3 | 4 | 5 | 7 => cases hi
    | 1 => cases hi; rfl
    | 2 | 6 | 8 => cases hi; cases hk
    | i + 9 => cases hi

/-- C73, test: with overflow checks that program does not compute 200; with 50 it overflows nowhere. -/
example : letI := Test.intFn
    (∃ h, runOps [] [.scalar (⟨some 100⟩ : Checked (-128) 127), .relu 0, .add 1 1, .backward 2] = .ok h ∧ ¬ NoOverflow h) ∧
      ∃ h, runOps [] [.scalar (⟨some 50⟩ : Checked (-128) 127), .relu 0, .add 1 1, .backward 2] = .ok h ∧ NoOverflow h := by
  refine ⟨⟨_, rfl, ?_⟩, ⟨_, rfl, ?_⟩⟩ <;> unfold NoOverflow <;> decide +kernel

/-- C73: subtraction wraps around too. No operation of integer tensors uses it: it only occurs in the derivatives of `abs` and `tanh`. -/
theorem C73_sub (w : Nat) (a b : Int) : Wrap.ofInt w a - Wrap.ofInt w b = Wrap.ofInt w (a - b) := by
  change (⟨BitVec.ofInt w a - BitVec.ofInt w b⟩ : Wrap w) = ⟨BitVec.ofInt w (a - b)⟩
  congr 1
  rw [Int.sub_eq_add_neg, BitVec.ofInt_add, BitVec.ofInt_neg, BitVec.sub_eq_add_neg]

/-- TEST: `1u8 - 2` is 255 in the release profile. -/
example : (Wrap.ofInt 8 1 - Wrap.ofInt 8 2 : Wrap 8) = Wrap.ofInt 8 255 := by decide

end RL
