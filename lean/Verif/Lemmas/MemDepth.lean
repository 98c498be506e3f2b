import Verif.Lemmas.Memory

/-!
# Nesting of drops
-/

namespace RL

open Spec Relation

variable {T : Type}

theorem release_step {h : Heap T} {held : List Nat} {fuel : Nat} {c : Nat → Nat} {i d : Nat} {W : List (Nat × Nat)} {deep : Nat}
    (hb : Bal h held (((i, d) :: W).map Prod.fst) c) :
    ∃ n, h[i]? = some n ∧ 0 < c i ∧ release h (fuel + 1) c ((i, d) :: W) deep = (if c i = 1 then
      release h fuel (fun j => if j = i then c j - 1 else c j) (n.refs.map (·, d + 1) ++ W) (max deep d) else
      release h fuel (fun j => if j = i then c j - 1 else c j) W (max deep d)) ∧
      (c i = 1 → Bal h held ((n.refs.map (·, d + 1) ++ W).map Prod.fst) (fun j => if j = i then c j - 1 else c j)) ∧
      (c i ≠ 1 → Bal h held (W.map Prod.fst) (fun j => if j = i then c j - 1 else c j)) := by
  obtain ⟨n, hn, hp, h1, h2⟩ := hb.pop
  simp only at hn hp h1 h2
  refine ⟨n, hn, hp, ?_, fun e => by simpa [Function.comp_def] using h1 e, h2⟩
  rw [release]
  simp only [assertR, hp, decide_true, if_true, Heap.node, idxR, hn]
  by_cases e : c i = 1
  · rw [if_pos e]; change (if c i - 1 = 0 then _ else _) = _; rw [if_pos (by omega)]
  · rw [if_neg e]; change (if c i - 1 = 0 then _ else _) = _; rw [if_neg (by omega)]

theorem release_deep {h : Heap T} : ∀ (fuel : Nat) (c c' : Nat → Nat) (W : List (Nat × Nat)) (deep deep' : Nat),
    release h fuel c W deep = .ok (c', deep') → deep ≤ deep' := by
  intro fuel
  induction fuel with
  | zero =>
    intro c c' W deep deep' e
    cases W with
    | nil => cases e; exact le_rfl
    | cons w W => cases e
  | succ fuel ih =>
    intro c c' W deep deep' e
    cases W with
    | nil => rw [release] at e; cases e; exact le_rfl
    | cons w W =>
      obtain ⟨i, d⟩ := w
      rw [release] at e
      simp only [R.bind_eq_ok] at e
      obtain ⟨_, _, n, _, e⟩ := e
      simp only [if_true] at e
      split at e
      · exact (le_max_left _ _).trans (ih _ _ _ _ _ e)
      · exact (le_max_left _ _).trans (ih _ _ _ _ _ e)

/-- a chain of tensors that are only kept by each other is freed by nested calls -/
theorem release_chain {h : Heap T} {held : List Nat} {x : Nat → Nat} {n : Nat} (hx : ∀ k < n, Refers h (x k) (x (k + 1))) :
    ∀ (fuel : Nat) (c c' : Nat → Nat) (W : List (Nat × Nat)) (deep deep' k d : Nat), Bal h held (W.map Prod.fst) c →
    release h fuel c W deep = .ok (c', deep') → k ≤ n → (x k, d) ∈ W → k ≤ d → (∀ j, k ≤ j → j ≤ n → c (x j) = 1) → n ≤ deep' := by
  intro fuel
  induction fuel with
  | zero =>
    intro c c' W deep deep' k d hb e _ hW _ _
    cases W with
    | nil => cases hW
    | cons w W => cases e
  | succ fuel ih =>
    intro c c' W deep deep' k d hb e hk hW hd hc
    cases W with
    | nil => cases hW
    | cons w W =>
      obtain ⟨i, d0⟩ := w
      obtain ⟨nd, hn, hp, h1, h2, h3⟩ := release_step (fuel := fuel) (deep := deep) hb
      rw [h1] at e
      by_cases ei : i = x k
      · -- the tensor of the chain is freed
        subst ei
        have hck := hc k le_rfl hk
        have hdd : d0 = d := by
          rcases List.mem_cons.1 hW with h4 | h4
          · exact (Prod.mk.inj h4).2.symm
          · exfalso
            have h5 := hb.eq (x k)
            have h6 : 0 < (W.map Prod.fst).count (x k) := List.count_pos_iff.2 (List.mem_map.2 ⟨_, h4, rfl⟩)
            simp only [List.map_cons, List.count_cons_self] at h5
            omega
        subst hdd
        rw [if_pos hck] at e
        rcases Nat.eq_or_lt_of_le hk with rfl | hlt
        · exact (hd.trans (le_max_right _ _)).trans (release_deep _ _ _ _ _ _ e)
        · have hne : ∀ j, k + 1 ≤ j → j ≤ n → x j ≠ x k := by
            intro j h4 h5 h6
            -- two references to `x k`: from the list and from the one before `x j`
            obtain ⟨j', rfl⟩ : ∃ j', j = j' + 1 := ⟨j - 1, by omega⟩
            have h7 := hx j' (by omega)
            rw [h6] at h7
            have h8 := hb.eq (x k)
            have h9 : refCount h (x j') (x k) ≤ inc h c (x k) := by
              have := Finset.single_le_sum (f := fun j => if c j = 0 then 0 else refCount h j (x k)) (fun _ _ => Nat.zero_le _)
                (Finset.mem_range.2 h7.lt)
              unfold inc
              simpa [hc j' (by omega) (by omega)] using this
            have := (refers_iff _ _ _).1 h7
            simp only [List.map_cons, List.count_cons_self] at h8
            omega
          refine ih _ _ _ _ _ (k + 1) (d0 + 1) (h2 hck) e hlt ?_ (by omega) ?_
          · refine List.mem_append_left _ (List.mem_map.2 ⟨x (k + 1), ?_, rfl⟩)
            have h4 := (refers_iff _ _ _).1 (hx k hlt)
            rw [refCount_eq, hn] at h4
            exact List.count_pos_iff.1 (Nat.pos_of_ne_zero h4)
          · intro j h4 h5
            simp only [if_neg (hne j h4 h5)]
            exact hc j (by omega) h5
      · have hne : ∀ j, k ≤ j → j ≤ n → x j ≠ i := by
          intro j h4 h5 h6
          rcases Nat.eq_or_lt_of_le h4 with rfl | h7
          · exact ei h6.symm
          · obtain ⟨j', rfl⟩ : ∃ j', j = j' + 1 := ⟨j - 1, by omega⟩
            have h7 := hx j' (by omega)
            have h8 := hb.eq (x (j' + 1))
            have h9 : refCount h (x j') (x (j' + 1)) ≤ inc h c (x (j' + 1)) := by
              have := Finset.single_le_sum (f := fun j => if c j = 0 then 0 else refCount h j (x (j' + 1))) (fun _ _ => Nat.zero_le _)
                (Finset.mem_range.2 h7.lt)
              unfold inc
              simpa [hc j' (by omega) (by omega)] using this
            have := (refers_iff _ _ _).1 h7
            have := hc (j' + 1) (by omega) h5
            simp only [List.map_cons, h6, List.count_cons_self] at *
            omega
        have hW' : (x k, d) ∈ W := by
          rcases List.mem_cons.1 hW with h4 | h4
          · exact absurd (Prod.mk.inj h4).1.symm ei
          · exact h4
        have hc' : ∀ j, k ≤ j → j ≤ n → (if x j = i then c (x j) - 1 else c (x j)) = 1 := by
          intro j h4 h5
          rw [if_neg (hne j h4 h5)]
          exact hc j h4 h5
        split at e
        · next e1 => exact ih _ _ _ _ _ k d (h2 e1) e hk (List.mem_append_right _ hW') hd hc'
        · next e1 => exact ih _ _ _ _ _ k d (h3 e1) e hk hW' hd hc'

/-- number of tensors in memory -/
def liveCount (h : Heap T) (c : Nat → Nat) : Nat := ((Finset.range h.length).filter fun i => c i ≠ 0).card

/-- every nested call follows the freeing of a tensor -/
theorem release_bound {h : Heap T} {held : List Nat} : ∀ (fuel : Nat) (c c' : Nat → Nat) (W : List (Nat × Nat)) (deep deep' F : Nat),
    Bal h held (W.map Prod.fst) c → release h fuel c W deep = .ok (c', deep') → deep ≤ F → (∀ w ∈ W, w.2 ≤ F) →
    deep' + liveCount h c' ≤ F + liveCount h c := by
  intro fuel
  induction fuel with
  | zero =>
    intro c c' W deep deep' F hb e h1 _
    cases W with
    | nil => cases e; omega
    | cons w W => cases e
  | succ fuel ih =>
    intro c c' W deep deep' F hb e hF hW
    cases W with
    | nil => rw [release] at e; cases e; omega
    | cons w W =>
      obtain ⟨i, d⟩ := w
      obtain ⟨nd, hn, hp, h1, h2, h3⟩ := release_step (fuel := fuel) (deep := deep) hb
      rw [h1] at e
      have hd : d ≤ F := hW (i, d) (by simp)
      split at e
      · next e1 =>
        have h4 : liveCount h c = liveCount h (fun j => if j = i then c j - 1 else c j) + 1 := by
          unfold liveCount
          have hi : i ∈ (Finset.range h.length).filter fun i => c i ≠ 0 := by
            simp [getElem?_lt hn]; omega
          rw [← Finset.card_erase_add_one hi]
          congr 2
          ext j
          by_cases ej : j = i
          · subst ej; simp [e1]
          · simp [ej]
        have := ih _ _ _ _ _ (F + 1) (h2 e1) e (by omega) (fun w hw => by
          rcases List.mem_append.1 hw with h5 | h5
          · obtain ⟨r, _, rfl⟩ := List.mem_map.1 h5
            simp; omega
          · have := hW w (by simp [h5]); omega)
        omega
      · next e1 =>
        have h4 : liveCount h (fun j => if j = i then c j - 1 else c j) = liveCount h c := by
          unfold liveCount
          congr 1
          ext j
          by_cases ej : j = i
          · subst ej; simp; omega
          · simp [ej]
        have := ih _ _ _ _ _ F (h3 e1) e (by omega) (fun w hw => hW w (by simp [hw]))
        omega

theorem Mem.drop_inv {m m' : Mem T} {t d : Nat} (e : m.drop t = .ok (m', d)) :
    t ∈ m.held ∧ ∃ c, release m.heap (total m.heap m.count) m.count [(t, 0)] 0 = .ok (c, d) ∧
      m' = { m with held := m.held.erase t, count := c } := by
  simp only [Mem.drop, R.bind_eq_ok] at e
  obtain ⟨⟨⟩, h1, e⟩ := e
  rw [assertR_eq_ok, List.contains_iff_mem] at h1
  refine ⟨h1, ?_⟩
  simp only [Mem.releaseOne, R.bind_eq_ok, R.pure_eq_ok] at e
  obtain ⟨⟨c, d'⟩, h2, h3⟩ := e
  cases h3
  exact ⟨c, h2, rfl⟩

theorem Mem.Inv.drop_bal {m : Mem T} (hm : m.Inv) {i : Nat} (hi : i ∈ m.held) : Bal m.heap (m.held.erase i) [i] m.count := by
  refine ⟨hm.bal.out, fun x => ?_⟩
  have := hm.bal.eq x
  by_cases e : x = i
  · subst e
    have h2 := List.count_pos_iff.2 hi
    rw [List.count_erase_self]
    simp at this ⊢
    omega
  · rw [List.count_erase_of_ne e]
    simp [List.count_cons_of_ne (Ne.symm e)] at this ⊢
    omega

end RL
