import Verif.Lemmas.MemCycle
import Verif.Lemmas.TrainTree

/-!
# What hangs on a gradient
-/

namespace RL

open Spec Relation

variable {T : Type}

/-- `i` is the gradient of `t` or in its history -/
def Behind (h : Heap T) (t i : Nat) : Prop := ∃ n g, h[t]? = some n ∧ n.grad = some g ∧ (i = g ∨ Ancestor h i g)

/-- the gradient stays or becomes part of the history of the new one -/
def GradKeep (h h' : Heap T) (t : Nat) : Prop := ∀ n g, h[t]? = some n → n.grad = some g →
  ∃ n' g', h'[t]? = some n' ∧ n'.grad = some g' ∧ (g = g' ∨ Ancestor h' g g')

section
variable [Zero T] [One T] [Add T] [Mul T] [Sub T] [Neg T] [LT T] [DecidableLT T] [LE T] [DecidableLE T] [RealFn T]

theorem Behind.keep {h h' : Heap T} (hg : h.Good) (hf : Frame h h') {t i : Nat} (hk : GradKeep h h' t) (hb : Behind h t i) : Behind h' t i := by
  obtain ⟨n, g, h1, h2, h3⟩ := hb
  obtain ⟨n', g', h4, h5, h6⟩ := hk n g h1 h2
  have hgl : g < h.length := (hg t n h1).grad g h2
  refine ⟨n', g', h4, h5, ?_⟩
  have h3' : i = g ∨ Ancestor h' i g := h3.imp_right (hf.ancestor hg hgl).2
  rcases h3' with rfl | h3'
  · exact h6
  · rcases h6 with rfl | h6
    · exact .inr h3'
    · exact .inr (TransGen.trans h3' h6)

theorem updateGrad_keep {h h' : Heap T} {u g t : Nat} (e : updateGrad h u g = .ok h') : GradKeep h h' t := by
  intro n o hn ho
  have htl := getElem?_lt hn
  obtain ⟨m, hm, ⟨h1, rfl⟩ | ⟨o', on, gn, v, h1, h2, h3, h4, rfl⟩⟩ := updateGrad_inv e
  · by_cases hut : u = t
    · subst hut
      rw [hn] at hm; cases hm
      rw [ho] at h1; cases h1
    · exact ⟨n, o, by rw [List.getElem?_set_ne hut]; exact hn, ho, .inl rfl⟩
  · by_cases hut : u = t
    · subst hut
      rw [hn] at hm; cases hm
      rw [ho] at h1; cases h1
      refine ⟨{ n with grad := some h.length }, h.length, by rw [List.getElem?_set_self (by simp; omega)], rfl, .inr (.single ?_)⟩
      exact ⟨⟨v, none, some ⟨[o, g], .add⟩⟩, _, by rw [List.getElem?_set_ne (by omega)]; simp, rfl, by simp⟩
    · exact ⟨n, o, by rw [List.getElem?_set_ne hut, List.getElem?_append_left htl]; exact hn, ho, .inl rfl⟩

theorem append_keep {h ns : Heap T} {t : Nat} : GradKeep h (h ++ ns) t := by
  intro n g hn hg
  exact ⟨n, g, by rw [List.getElem?_append_left (getElem?_lt hn)]; exact hn, hg, .inl rfl⟩

theorem GradKeep.trans {a b c : Heap T} (hb : b.Good) (hf : Frame b c) {t : Nat} (h1 : GradKeep a b t) (h2 : GradKeep b c t) : GradKeep a c t := by
  intro n g hn hg
  obtain ⟨n', g', h3, h4, h5⟩ := h1 n g hn hg
  obtain ⟨n'', g'', h6, h7, h8⟩ := h2 n' g' h3 h4
  have hgl : g' < b.length := (hb t n' h3).grad g' h4
  refine ⟨n'', g'', h6, h7, ?_⟩
  rcases h5 with rfl | h5
  · exact h8
  · have h5' := (hf.ancestor hb hgl).2 h5
    rcases h8 with rfl | h8
    · exact .inr h5'
    · exact .inr (TransGen.trans h5' h8)

/-- one contribution: the tensor with it, and unless it is the first, the tensor with the sum -/
theorem applyUpdate_behind {h h' : Heap T} (hg : h.Good) {u : Nat × Raw T} {t : Nat} (e : applyUpdate h u = .ok h') {k : Nat}
    {S : Finset Nat} (hS : ∀ i ∈ S, i < h.length ∧ Behind h t i) (hk : 2 * k ≤ S.card + 1) :
    ∃ S' : Finset Nat, (∀ i ∈ S', i < h'.length ∧ Behind h' t i) ∧ 2 * (k + if u.1 = t then 1 else 0) ≤ S'.card + 1 := by
  have hf := applyUpdate_frame e
  have hkeep : GradKeep h h' t := GradKeep.trans ((Allocs.leaf h u.2).2 hg) (updateGrad_frame e) append_keep (updateGrad_keep e)
  have hS' : ∀ i ∈ S, i < h'.length ∧ Behind h' t i := fun i hi =>
    ⟨(hS i hi).1.trans_le hf.len, (hS i hi).2.keep hg hf hkeep⟩
  by_cases hut : u.1 = t
  · rw [if_pos hut]
    subst hut
    have e' : updateGrad (h ++ [leafNode u.2]) u.1 h.length = .ok h' := e
    obtain ⟨m, hm, ⟨h1, rfl⟩ | ⟨o', on, gn, v, h1, h2, h3, h4, rfl⟩⟩ := updateGrad_inv e'
    · have hl := getElem?_lt hm
      have hb : Behind ((h ++ [leafNode u.2]).set u.1 { m with grad := some h.length }) u.1 h.length :=
        ⟨{ m with grad := some h.length }, h.length, by rw [List.getElem?_set_self hl], rfl, .inl rfl⟩
      have hnS : h.length ∉ S := fun hc => by have := (hS _ hc).1; omega
      refine ⟨insert h.length S, fun i hi => ?_, ?_⟩
      · rcases Finset.mem_insert.1 hi with rfl | hi
        · exact ⟨by simp, hb⟩
        · exact hS' i hi
      · rw [Finset.card_insert_of_notMem hnS]
        -- there was no gradient, so nothing was counted
        have hemp : S.card = 0 := by
          rw [Finset.card_eq_zero, Finset.eq_empty_iff_forall_notMem]
          intro i hi
          obtain ⟨_, n, g, h2, h3, _⟩ := hS i hi
          rw [List.getElem?_append_left (getElem?_lt h2), h2] at hm
          cases hm
          rw [h3] at h1; cases h1
        omega
    · have hl := getElem?_lt hm
      generalize hh : ((h ++ [leafNode u.2]) ++ [(⟨v, none, some ⟨[o', h.length], .add⟩⟩ : Node T)]).set u.1
          { m with grad := some (h ++ [leafNode u.2]).length } = H at *
      have hlen : H.length = h.length + 2 := by rw [← hh]; simp
      have hne : u.1 ≠ h.length + 1 := by simp at hl; omega
      have hself : H[u.1]? = some { m with grad := some (h ++ [leafNode u.2]).length } := by
        rw [← hh, List.getElem?_set_self (by simp at hl ⊢; omega)]
      have hin : IsInput H h.length (h.length + 1) := by
        refine ⟨⟨v, none, some ⟨[o', h.length], .add⟩⟩, _, ?_, rfl, by simp⟩
        rw [← hh, List.getElem?_set_ne hne]
        simp
      have hb2 : Behind H u.1 (h.length + 1) := ⟨_, _, hself, rfl, .inl (by simp)⟩
      have hb1 : Behind H u.1 h.length := ⟨_, _, hself, rfl, .inr (.single (by simpa using hin))⟩
      have hn1 : h.length ∉ S := fun hc => by have := (hS _ hc).1; omega
      have hn2 : h.length + 1 ∉ insert h.length S := fun hc => by
        rcases Finset.mem_insert.1 hc with hc | hc
        · omega
        · have := (hS _ hc).1; omega
      refine ⟨insert (h.length + 1) (insert h.length S), fun i hi => ?_, ?_⟩
      · rcases Finset.mem_insert.1 hi with rfl | hi
        · exact ⟨by omega, hb2⟩
        · rcases Finset.mem_insert.1 hi with rfl | hi
          · exact ⟨by omega, hb1⟩
          · exact hS' i hi
      · rw [Finset.card_insert_of_notMem hn2, Finset.card_insert_of_notMem hn1]
        omega
  · rw [if_neg hut]
    exact ⟨S, hS', by omega⟩

theorem applyUpdates_behind {t : Nat} : ∀ {us : List (Nat × Raw T)} {h h' : Heap T} {k : Nat} {S : Finset Nat}, h.Good → applyUpdates h us = .ok h' →
    (∀ i ∈ S, i < h.length ∧ Behind h t i) → 2 * k ≤ S.card + 1 →
    ∃ S' : Finset Nat, (∀ i ∈ S', i < h'.length ∧ Behind h' t i) ∧ 2 * (k + (us.map Prod.fst).count t) ≤ S'.card + 1 := by
  intro us
  induction us with
  | nil => intro h h' k S _ e h1 h2; cases e; exact ⟨S, h1, by simpa using h2⟩
  | cons u us ih =>
    intro h h' k S hg e h1 h2
    rw [applyUpdates_cons, R.bind_eq_ok] at e
    obtain ⟨hm, e1, e2⟩ := e
    obtain ⟨S1, h3, h4⟩ := applyUpdate_behind hg e1 h1 h2
    obtain ⟨S2, h5, h6⟩ := ih (applyUpdate_good e1 hg) e2 h3 h4
    refine ⟨S2, h5, ?_⟩
    rw [List.map_cons, List.count_cons]
    simp only [beq_iff_eq]
    omega

theorem Op.run_behind {h h' : Heap T} (hg : h.Good) {o : Op T} {t : Nat} (ho : o ≠ .zeroGrad t) (e : o.run h = .ok h') {i : Nat}
    (hb : Behind h t i) : Behind h' t i := by
  obtain ⟨hf, hg'⟩ := Op.run_frame hg e
  refine hb.keep hg hf ?_
  cases hop : o.isGrad with
  | false =>
    obtain ⟨ns, rfl, _⟩ := Op.fresh_refs hop e
    exact append_keep
  | true =>
    cases o <;> try (cases hop; done)
    case updateGrad u g =>
      simp only [Op.run, R.bind_eq_ok, Heap.node_eq_ok] at e
      obtain ⟨gn, hgn, e⟩ := e
      exact updateGrad_keep e
    case zeroGrad u =>
      obtain ⟨n, hn, rfl⟩ := zeroGrad_inv e
      intro m g hm hmg
      exact ⟨m, g, by rw [List.getElem?_set_ne (fun hc => ho (by rw [hc]))]; exact hm, hmg, .inl rfl⟩
    case backward l =>
      obtain ⟨n, d, us, _, _, _, e1, e⟩ := backward_inv hg e
      clear hf hg' hop ho e1
      have : ∀ (us : List (Nat × Raw T)) {h h' : Heap T}, h.Good → applyUpdates h us = .ok h' → GradKeep h h' t := by
        intro us
        induction us with
        | nil => intro h h' _ e n g hn hg; cases e; exact ⟨n, g, hn, hg, .inl rfl⟩
        | cons u us ih =>
          intro h h' hg e
          rw [applyUpdates_cons, R.bind_eq_ok] at e
          obtain ⟨hm, e1, e2⟩ := e
          have hg1 := applyUpdate_good e1 hg
          exact GradKeep.trans hg1 (applyUpdates_frame e2)
            (GradKeep.trans ((Allocs.leaf h u.2).2 hg) (updateGrad_frame e1) append_keep (updateGrad_keep e1)) (ih hg1 e2)
      exact this us hg e

end

end RL
