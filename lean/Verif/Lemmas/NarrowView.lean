import Verif.Lemmas.EmptyView

/-! Helper lemmas: views that narrow a dimension to length 1 -/

namespace RL

open Spec

variable {T : Type}

theorem bshapeR_one : ∀ (l r : List Nat) (k : Nat), r[k]? = some 1 → (bshapeR l r)[k]? = some (l[k]?.getD 1)
  | [], r, k, h => by simpa [bshapeR] using h
  | a :: l, [], k, h => by simp at h
  | a :: l, b :: r, 0, h => by
    simp only [List.getElem?_cons_zero, Option.some.injEq] at h
    subst h
    simp only [bshapeR, List.getElem?_cons_zero, Option.getD_some]
    split <;> simp_all
  | a :: l, b :: r, k + 1, h => by
    simp only [List.getElem?_cons_succ] at h
    simp only [bshapeR, List.getElem?_cons_succ]
    exact bshapeR_one l r k h

/-- reads of a view either succeed or panic -/
theorem View.get_cases {v : View T} (hv : ViewOk v) (hp : Pos v.shape) {idx : List Nat} (hl : v.shape.length ≤ idx.length)
    (hr : Readable v.shape idx) :
    ((∀ k d i : Nat, v.shape.reverse[k]? = some 1 → v.tensor.shape.reverse[k]? = some d → idx.reverse[k]? = some i → d = 1 ∨ i = 0) →
      ∃ x, View.elem? v (bproj v.shape idx) = some x ∧ v.get idx = .ok x) ∧
    (¬ (∀ k d i : Nat, v.shape.reverse[k]? = some 1 → v.tensor.shape.reverse[k]? = some d → idx.reverse[k]? = some i → d = 1 ∨ i = 0) →
      v.get idx = R.panic .unwrap) := by
  have hlen := hv.length
  have h0 : v.tensor.shape.length - idx.length = 0 := by omega
  have hlead : ∀ d ∈ v.tensor.shape.take (v.tensor.shape.length - idx.length), d ≤ 1 := by
    rw [h0]
    simp
  have pos : ∀ (k : Nat) (d : Nat), v.tensor.shape.reverse[k]? = some d → v.tensor.shape[v.tensor.shape.length - 1 - k]? = some d ∧
      k < v.tensor.shape.length := by
    intro k d hk
    have h1 : k < v.tensor.shape.length := by simpa using (List.getElem?_eq_some_iff.1 hk).1
    rw [List.getElem?_reverse h1] at hk
    exact ⟨hk, h1⟩
  constructor
  · intro hk
    have key : ∃ g, globalIndex idx v.tensor.shape (some v.offset) = .ok g := by
      rw [globalIndex_some hv.2.1, if_pos hlead, tripLoop_ok _ (trips_fit hv.2.1)]
      · exact ⟨_, rfl⟩
      · intro t ht
        obtain ⟨k, h1, h2, h3⟩ := trips_getElem?.1 ht
        rw [h0, List.drop_zero] at h1 h3
        have hsh : v.shape[k]? = some (t.2.2.stop - t.2.2.start) := by
          rw [hv.2.2, List.getElem?_map, h3]; rfl
        obtain ⟨b1, c1⟩ := List.getElem?_eq_some_iff.1 h1
        obtain ⟨b2, c2⟩ := List.getElem?_eq_some_iff.1 hsh
        have hr2 := hr.2
        rw [List.forall₂_iff_get, hlen, h0] at hr2
        have b3 : k < (v.shape.drop 0).length := by simpa using b2
        obtain ⟨b4, c4⟩ := List.getElem?_eq_some_iff.1 h2
        have := hr2.2 k b3 b4
        simp only [List.get_eq_getElem, List.drop_zero] at this
        rw [c2, c4] at this
        rcases this with h | h
        · have h4 := hk (v.shape.length - 1 - k) t.1 t.2.1 (by
            rw [List.getElem?_reverse (by omega), show v.shape.length - 1 - (v.shape.length - 1 - k) = k by omega, hsh, h]) (by
            rw [List.getElem?_reverse (by omega), show v.tensor.shape.length - 1 - (v.shape.length - 1 - k) = k by omega, h1]) (by
            rw [List.getElem?_drop] at h2
            rw [List.getElem?_reverse (by omega), show idx.length - 1 - (v.shape.length - 1 - k) = idx.length - v.tensor.shape.length + k by omega, h2])
          omega
        · exact Or.inr h
    obtain ⟨g, hg⟩ := key
    have hin := bproj_inRange hp hr
    obtain ⟨x, hx, _⟩ := View.get_ok hv hin
    refine ⟨x, hx, ?_⟩
    have hgeq := (globalIndex_some_inv hv.2.1 (by rw [← hv.2.2]; exact hp) hg).1
    unfold View.get
    rw [hg]
    simp only [unwrapR_ok, R.bind_ok]
    apply idxR_eq_ok.2
    rw [hgeq, ← hv.2.2]
    exact hx
  · intro hk
    push Not at hk
    obtain ⟨k, d, i, g1, g2, g3, g4, g5⟩ := hk
    obtain ⟨g6, g7⟩ := pos k d g2
    have g8 : v.shape[v.tensor.shape.length - 1 - k]? = some 1 := by
      rw [List.getElem?_reverse (by omega), hlen] at g1
      exact g1
    unfold View.get
    rw [globalIndex_some hv.2.1, if_pos hlead, tripLoop_err _ (fun t ht => trips_fit hv.2.1 t (List.mem_reverse.1 ht))]
    · rfl
    · intro hall
      rw [hv.2.2, List.getElem?_map, Option.map_eq_some_iff] at g8
      obtain ⟨r, hr1, hr2⟩ := g8
      have : (d, i, r) ∈ trips idx v.tensor.shape v.offset := by
        rw [trips_getElem?]
        refine ⟨v.tensor.shape.length - 1 - k, ?_, ?_, ?_⟩
        · rw [h0, List.drop_zero, g6]
        · rw [List.getElem?_drop, ← g3, List.getElem?_reverse (by omega)]
          congr 1
          omega
        · rw [h0, List.drop_zero, hr1]
      have := hall _ (List.mem_reverse.2 this)
      simp only at this
      omega

theorem mapM_fails {α β : Type} {f : α → R β} {e : Fail} : ∀ {l : List α}, (∀ a ∈ l, (∃ b, f a = .ok b) ∨ f a = .error e) →
    (∃ a ∈ l, f a = .error e) → l.mapM f = .error e
  | [], _, h => by simp at h
  | a :: l, h1, h2 => by
    rw [List.mapM_cons]
    rcases h1 a (by simp) with ⟨b, hb⟩ | hb
    · rw [hb, R.bind_ok, mapM_fails (l := l) (fun a ha => h1 a (by simp [ha]))]
      · rfl
      · obtain ⟨c, hc, he⟩ := h2
        rcases List.mem_cons.1 hc with rfl | hc
        · rw [hb] at he
          cases he
        · exact ⟨c, hc, he⟩
    · rw [hb]
      rfl

end RL
