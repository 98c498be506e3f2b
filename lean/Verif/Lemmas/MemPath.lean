import Verif.Lemmas.MemDepth

/-! Helper lemmas: the chain of tensors behind the depth of a drop -/

namespace RL

open Spec Relation

variable {T : Type}

/-- a chain of `d` tensors from `t` that have been freed -/
def FreedChain (h : Heap T) (c0 c : Nat → Nat) (t d i : Nat) : Prop :=
  ∃ x : Nat → Nat, x 0 = t ∧ x d = i ∧ ∀ k < d, Refers h (x k) (x (k + 1)) ∧ c0 (x k) ≠ 0 ∧ c (x k) = 0

theorem FreedChain.mono {h : Heap T} {c0 c c' : Nat → Nat} {t d i : Nat} (hc : FreedChain h c0 c t d i) (hle : ∀ j, c' j ≤ c j) :
    FreedChain h c0 c' t d i := by
  obtain ⟨x, h1, h2, h3⟩ := hc
  exact ⟨x, h1, h2, fun k hk => ⟨(h3 k hk).1, (h3 k hk).2.1, Nat.le_zero.1 ((hle _).trans (h3 k hk).2.2.le)⟩⟩

theorem release_path {h : Heap T} {held : List Nat} {c0 : Nat → Nat} {t : Nat} : ∀ (fuel : Nat) (c c' : Nat → Nat) (W : List (Nat × Nat)) (deep deep' : Nat),
    Bal h held (W.map Prod.fst) c → release h fuel c W deep = .ok (c', deep') → (∀ j, c j ≤ c0 j) → (∃ i, FreedChain h c0 c t deep i) →
    (∀ w ∈ W, FreedChain h c0 c t w.2 w.1) → ∃ i, FreedChain h c0 c' t deep' i := by
  intro fuel
  induction fuel with
  | zero =>
    intro c c' W deep deep' hb e _ hd _
    cases W with
    | nil => cases e; exact hd
    | cons w W => cases e
  | succ fuel ih =>
    intro c c' W deep deep' hb e hle hd hW
    cases W with
    | nil => rw [release] at e; cases e; exact hd
    | cons w W =>
      obtain ⟨i, d⟩ := w
      obtain ⟨nd, hn, hp, h1, h2, h3⟩ := release_step (fuel := fuel) (deep := deep) hb
      rw [h1] at e
      have hm : ∀ j, (if j = i then c j - 1 else c j) ≤ c j := fun j => by split <;> omega
      have hle' : ∀ j, (if j = i then c j - 1 else c j) ≤ c0 j := fun j => (hm j).trans (hle j)
      have hi := hW (i, d) (by simp)
      have hd' : ∃ i', FreedChain h c0 (fun j => if j = i then c j - 1 else c j) t (max deep d) i' := by
        rcases le_total deep d with h4 | h4
        · rw [max_eq_right h4]; exact ⟨i, hi.mono hm⟩
        · rw [max_eq_left h4]
          obtain ⟨i', h5⟩ := hd
          exact ⟨i', h5.mono hm⟩
      split at e
      · next e1 =>
        refine ih _ _ _ _ _ (h2 e1) e hle' hd' fun w hw => ?_
        rcases List.mem_append.1 hw with h5 | h5
        · obtain ⟨r, hr, rfl⟩ := List.mem_map.1 h5
          obtain ⟨x, x1, x2, x3⟩ := hi.mono hm
          simp only at x2
          refine ⟨fun k => if k ≤ d then x k else r, by simpa using x1, by simp, fun k hk => ?_⟩
          have hk : k < d + 1 := hk
          rcases Nat.lt_succ_iff_lt_or_eq.1 hk with h6 | rfl
          · simp only [if_pos h6.le, if_pos (show k + 1 ≤ d by omega)]
            exact x3 k h6
          · simp only [le_refl, if_true, if_neg (show ¬ k + 1 ≤ k by omega), x2]
            refine ⟨?_, ?_, by simp [e1]⟩
            · rw [refers_iff, refCount_eq, hn]
              exact (List.count_pos_iff.2 hr).ne'
            · have := hle i; omega
        · exact (hW w (by simp [h5])).mono hm
      · next e1 => exact ih _ _ _ _ _ (h3 e1) e hle' hd' fun w hw => (hW w (by simp [hw])).mono hm

/-- every reference is dropped at its depth -/
theorem release_mem {h : Heap T} : ∀ (fuel : Nat) (c c' : Nat → Nat) (W : List (Nat × Nat)) (deep deep' i d : Nat),
    release h fuel c W deep = .ok (c', deep') → (i, d) ∈ W → d ≤ deep' := by
  intro fuel
  induction fuel with
  | zero =>
    intro c c' W deep deep' i d e hW
    cases W with
    | nil => cases hW
    | cons w W => cases e
  | succ fuel ih =>
    intro c c' W deep deep' i d e hW
    cases W with
    | nil => cases hW
    | cons w W =>
      obtain ⟨i0, d0⟩ := w
      rw [release] at e
      simp only [R.bind_eq_ok] at e
      obtain ⟨_, _, n, _, e⟩ := e
      simp only [if_true] at e
      rcases List.mem_cons.1 hW with h1 | h1
      · cases h1
        split at e
        · exact (le_max_right _ _).trans (release_deep _ _ _ _ _ _ e)
        · exact (le_max_right _ _).trans (release_deep _ _ _ _ _ _ e)
      · split at e
        · exact ih _ _ _ _ _ _ _ e (List.mem_append_right _ h1)
        · exact ih _ _ _ _ _ _ _ e h1

/-- a chain of tensors that are only kept by each other, and what the last of them keeps -/
theorem release_chain_next {h : Heap T} {held : List Nat} {x : Nat → Nat} {n : Nat} (hx : ∀ k < n, Refers h (x k) (x (k + 1))) :
    ∀ (fuel : Nat) (c c' : Nat → Nat) (W : List (Nat × Nat)) (deep deep' k d : Nat), Bal h held (W.map Prod.fst) c →
    release h fuel c W deep = .ok (c', deep') → k ≤ n → (x k, d) ∈ W → k ≤ d → (∀ j, k ≤ j → j < n → c (x j) = 1) → n ≤ deep' := by
  intro fuel
  induction fuel with
  | zero =>
    intro c c' W deep deep' k d hb e _ hW _ _
    cases W with
    | nil => cases hW
    | cons w W => cases e
  | succ fuel ih =>
    intro c c' W deep deep' k d hb e hk hW hd hc
    rcases Nat.eq_or_lt_of_le hk with rfl | hlt
    · exact hd.trans (release_mem _ _ _ _ _ _ _ _ e hW)
    cases W with
    | nil => cases hW
    | cons w W =>
      obtain ⟨i, d0⟩ := w
      obtain ⟨nd, hn, hp, h1, h2, h3⟩ := release_step (fuel := fuel) (deep := deep) hb
      rw [h1] at e
      by_cases ei : i = x k
      · subst ei
        have hck := hc k le_rfl hlt
        have hdd : d0 = d := by
          rcases List.mem_cons.1 hW with h4 | h4
          · exact (Prod.mk.inj h4).2.symm
          · exfalso
            have h5 := hb.eq (x k)
            have h6 : 0 < (W.map Prod.fst).count (x k) := List.count_pos_iff.2 (List.mem_map.2 ⟨_, h4, rfl⟩)
            simp only [List.map_cons, List.count_cons_self] at h5
            omega
        subst hdd
        rw [if_pos hck] at e
        have hne : ∀ j, k + 1 ≤ j → j < n → x j ≠ x k := by
          intro j h4 h5 h6
          obtain ⟨j', rfl⟩ : ∃ j', j = j' + 1 := ⟨j - 1, by omega⟩
          have h7 := hx j' (by omega)
          rw [h6] at h7
          have h8 := hb.eq (x k)
          have h9 : refCount h (x j') (x k) ≤ inc h c (x k) := by
            have := Finset.single_le_sum (f := fun j => if c j = 0 then 0 else refCount h j (x k)) (fun _ _ => Nat.zero_le _)
              (Finset.mem_range.2 h7.lt)
            unfold inc
            simpa [hc j' (by omega) (by omega)] using this
          have := (refers_iff _ _ _).1 h7
          simp only [List.map_cons, List.count_cons_self] at h8
          omega
        refine ih _ _ _ _ _ (k + 1) (d0 + 1) (h2 hck) e hlt ?_ (by omega) ?_
        · refine List.mem_append_left _ (List.mem_map.2 ⟨x (k + 1), ?_, rfl⟩)
          have h4 := (refers_iff _ _ _).1 (hx k hlt)
          rw [refCount_eq, hn] at h4
          exact List.count_pos_iff.1 (Nat.pos_of_ne_zero h4)
        · intro j h4 h5
          simp only [if_neg (hne j h4 h5)]
          exact hc j (by omega) h5
      · have hne : ∀ j, k ≤ j → j < n → x j ≠ i := by
          intro j h4 h5 h6
          rcases Nat.eq_or_lt_of_le h4 with rfl | h7
          · exact ei h6.symm
          · obtain ⟨j', rfl⟩ : ∃ j', j = j' + 1 := ⟨j - 1, by omega⟩
            have h7 := hx j' (by omega)
            have h8 := hb.eq (x (j' + 1))
            have h9 : refCount h (x j') (x (j' + 1)) ≤ inc h c (x (j' + 1)) := by
              have := Finset.single_le_sum (f := fun j => if c j = 0 then 0 else refCount h j (x (j' + 1))) (fun _ _ => Nat.zero_le _)
                (Finset.mem_range.2 h7.lt)
              unfold inc
              simpa [hc j' (by omega) (by omega)] using this
            have := (refers_iff _ _ _).1 h7
            have := hc (j' + 1) (by omega) h5
            simp only [List.map_cons, h6, List.count_cons_self] at *
            omega
        have hW' : (x k, d) ∈ W := by
          rcases List.mem_cons.1 hW with h4 | h4
          · exact absurd (Prod.mk.inj h4).1.symm ei
          · exact h4
        have hc' : ∀ j, k ≤ j → j < n → (if x j = i then c (x j) - 1 else c (x j)) = 1 := by
          intro j h4 h5
          rw [if_neg (hne j h4 h5)]
          exact hc j h4 h5
        split at e
        · next e1 => exact ih _ _ _ _ _ k d (h2 e1) e hk (List.mem_append_right _ hW') hd hc'
        · next e1 => exact ih _ _ _ _ _ k d (h3 e1) e hk hW' hd hc'

end RL
