import Verif.Lemmas.BmmPar
import Mathlib.Algebra.Ring.Int.Defs
import Mathlib.Algebra.BigOperators.Group.Finset.Basic

/-!
# C18-C20: the matrix product
-/

namespace RL

open Spec

variable {T : Type}

/-! ## values (C18) -/

/-- C18, rank 2: shape `[m, n]`, and element `(i, j)` is the left fold over `kk` of `l[i,kk] * r[kk,j]` from 0.
Operands are tensors or views; dimensions may be 0; no law is used. -/
theorem C18_matrix [Zero T] [Add T] [Mul T] (l r : TL T) (hl : Ok l) (hr : Ok r) (m k n : Nat)
    (hls : l.shape = [m, k]) (hrs : r.shape = [k, n]) :
    ∃ t, bmmRaw l r = .ok t ∧ t.shape = [m, n] ∧ WF t ∧
    ∃ a b : Nat → Nat → T,
      (∀ i kk, i < m → kk < k → elem? l [i, kk] = some (a i kk)) ∧
      (∀ kk j, kk < k → j < n → elem? r [kk, j] = some (b kk j)) ∧
      ∀ i j, i < m → j < n →
        t.get [i, j] = .ok ((List.range k).foldl (fun acc kk => acc + a i kk * b kk j) 0) := by
  refine ⟨_, bmmRaw2_eq hl hr hls hrs, rfl, by simp [WF, allIndices_length],
    fun i kk => ent l [i, kk], fun kk j => ent r [kk, j], ?_, ?_, ?_⟩
  · exact fun i kk hi hk => (ent_get hl (by rw [hls]; exact inRange2.2 ⟨hi, hk⟩)).2
  · exact fun kk j hk hj => (ent_get hr (by rw [hrs]; exact inRange2.2 ⟨hk, hj⟩)).2
  · intro i j hi hj
    have hin := inRange2.2 ⟨hi, hj⟩
    rw [Raw.get_inRange (by simpa using hin)]
    exact idxR_eq_ok.2 (map_allIndices_get _ hin)

/-- C18, rank 3: each batch is multiplied with the one right operand. -/
theorem C18_batched [Zero T] [Add T] [Mul T] (l r : TL T) (hl : Ok l) (hr : Ok r) (nb m k n : Nat)
    (hls : l.shape = [nb, m, k]) (hrs : r.shape = [k, n]) :
    ∃ t, bmmRaw l r = .ok t ∧ t.shape = [nb, m, n] ∧ WF t ∧
    ∃ (a : Nat → Nat → Nat → T) (b : Nat → Nat → T),
      (∀ p i kk, p < nb → i < m → kk < k → elem? l [p, i, kk] = some (a p i kk)) ∧
      (∀ kk j, kk < k → j < n → elem? r [kk, j] = some (b kk j)) ∧
      ∀ p i j, p < nb → i < m → j < n →
        t.get [p, i, j] = .ok ((List.range k).foldl (fun acc kk => acc + a p i kk * b kk j) 0) := by
  refine ⟨_, bmmRaw3_eq hl hr hls hrs, rfl, by simp [WF, allIndices_length],
    fun p i kk => ent l [p, i, kk], fun kk j => ent r [kk, j], ?_, ?_, ?_⟩
  · exact fun p i kk hp hi hk => (ent_get hl (by rw [hls]; exact inRange3.2 ⟨hp, hi, hk⟩)).2
  · exact fun kk j hk hj => (ent_get hr (by rw [hrs]; exact inRange2.2 ⟨hk, hj⟩)).2
  · intro p i j hp hi hj
    have hin := inRange3.2 ⟨hp, hi, hj⟩
    rw [Raw.get_inRange (by simpa using hin)]
    exact idxR_eq_ok.2 (map_allIndices_get _ hin)

/-- C18: with commutative associative addition the entries are the usual sums. -/
theorem C18_matrix_sum [CommRing T] (l r : TL T) (hl : Ok l) (hr : Ok r) (m k n : Nat)
    (hls : l.shape = [m, k]) (hrs : r.shape = [k, n]) (a b : Nat → Nat → T)
    (ha : ∀ i kk, i < m → kk < k → elem? l [i, kk] = some (a i kk))
    (hb : ∀ kk j, kk < k → j < n → elem? r [kk, j] = some (b kk j)) :
    ∃ t, bmmRaw l r = .ok t ∧ t.shape = [m, n] ∧ ∀ i j, i < m → j < n →
      t.get [i, j] = .ok (∑ kk ∈ Finset.range k, a i kk * b kk j) := by
  obtain ⟨t, h1, h2, _, a', b', ha', hb', h3⟩ := C18_matrix l r hl hr m k n hls hrs
  refine ⟨t, h1, h2, fun i j hi hj => ?_⟩
  rw [h3 i j hi hj]
  congr 1
  have : ∀ n ≤ k, (List.range n).foldl (fun acc kk => acc + a' i kk * b' kk j) 0
      = ∑ kk ∈ Finset.range n, a i kk * b kk j := by
    intro n
    induction n with
    | zero => intro _; simp
    | succ n ih =>
      intro hn
      rw [List.range_succ, List.foldl_append, ih (by omega), Finset.sum_range_succ]
      have e1 := (ha i n hi (by omega)).symm.trans (ha' i n hi (by omega))
      have e2 := (hb n j (by omega) hj).symm.trans (hb' n j (by omega) hj)
      simp only [Option.some.injEq] at e1 e2
      simp [e1, e2]
  exact this k (Nat.le_refl _)

/-- C18, test. -/
example : bmmRaw (.raw (⟨[1, 2, 3, 4], [2, 2]⟩ : Raw Int)) (.raw ⟨[5, 6, 7, 8], [2, 2]⟩)
    = .ok ⟨[19, 22, 43, 50], [2, 2]⟩ := by decide
example : Ok (.raw (⟨[1, 2, 3, 4], [1, 2, 2]⟩ : Raw Int)) ∧ Ok (.raw (⟨[5, 6, 7, 8], [2, 2]⟩ : Raw Int)) :=
  ⟨rfl, rfl⟩

/-! ## schedules (C19) -/

open BmmPar in
/-- C19: whatever the interleaving, if all rows complete then the array is the one the sequential `bmm_raw` computes;
and if a panic leaves the scope, then the sequential program does not return either. No law of `+` or `*`. -/
theorem C19_schedule_independent [Zero T] [Add T] [Mul T] (l r : TL T) (nb nrow ncol inner : Nat)
    (hc : bmmChecks l r = .ok ()) (hs : bmmShape l r = .ok [nb, nrow, ncol]) (hi : idxR r.shape 0 = .ok inner)
    (s : St T)
    (hreach : Relation.ReflTransGen (Step (job l r nb nrow ncol inner)) (St.init (job l r nb nrow ncol inner)) s) :
    (s.Finished (job l r nb nrow ncol inner) → ∃ t, bmmRaw l r = .ok t ∧ s.arr = t.array) ∧
    (s.panicked = true → ¬ ∃ t, bmmRaw l r = .ok t) := by
  have inv := Inv.reach hreach
  rw [bmmRaw_slots hc hs hi]
  constructor
  · rintro ⟨hrow, hpan⟩
    have hall : ∀ p ∈ (job l r nb nrow ncol inner).rows, ∀ j < ncol, ∃ v,
        slotVal (job l r nb nrow ncol inner) p j = .ok v := by
      intro p hp j hj
      obtain ⟨q, hq, rfl⟩ := List.mem_iff_getElem.1 hp
      obtain ⟨v, h1, _⟩ := inv.old q _ (by omega) (List.getElem?_eq_getElem hq) j hj
      exact ⟨v, h1⟩
    obtain ⟨rows, hrows⟩ := slots_all_ok (J := job l r nb nrow ncol inner) hall
    have hrows' : (job l r nb nrow ncol inner).rows.mapM (fun p =>
        (List.range ncol).mapM (fun j => slotVal (job l r nb nrow ncol inner) p j)) = .ok rows := hrows
    rw [hrows']
    refine ⟨_, rfl, ?_⟩
    obtain ⟨h1, h2⟩ := slots_ok hrows
    apply List.ext_getElem?
    intro x
    by_cases hx : x < (job l r nb nrow ncol inner).rows.length * ncol
    · have hn : 0 < ncol := by
        rcases Nat.eq_zero_or_pos ncol with h | h
        · subst h; omega
        · exact h
      have hq : x / ncol < (job l r nb nrow ncol inner).rows.length := Nat.div_lt_of_lt_mul (by rwa [Nat.mul_comm])
      obtain ⟨v, e1, e2⟩ := inv.old (x / ncol) _ (by omega) (List.getElem?_eq_getElem hq) (x % ncol)
        (Nat.mod_lt _ hn)
      obtain ⟨w, e3, e4⟩ := h2 (x / ncol) _ (List.getElem?_eq_getElem hq) (x % ncol) (Nat.mod_lt _ hn)
      have hx' : x / ncol * ncol + x % ncol = x := Nat.div_add_mod' x ncol
      have hn' : (job l r nb nrow ncol inner).ncol = ncol := rfl
      rw [hn', hx'] at e2 e4
      rw [e1, Except.ok.injEq] at e3
      rw [e2, e4, e3]
    · have g1 := inv.len
      rw [List.getElem?_eq_none (by rw [g1]; exact Nat.le_of_not_lt hx),
        List.getElem?_eq_none (by rw [h1]; exact Nat.le_of_not_lt hx)]
  · rintro hpan ⟨t, ht⟩
    obtain ⟨p, hp, j, hj, e, he⟩ := inv.panic hpan
    cases hm : (job l r nb nrow ncol inner).rows.mapM (fun p =>
        (List.range ncol).mapM (fun j => slotVal (job l r nb nrow ncol inner) p j)) with
    | error e' => rw [hm] at ht; cases ht
    | ok rows =>
      obtain ⟨_, h2⟩ := slots_ok (J := job l r nb nrow ncol inner) hm
      obtain ⟨q, hq, rfl⟩ := List.mem_iff_getElem.1 hp
      obtain ⟨v, e1, _⟩ := h2 q _ (List.getElem?_eq_getElem hq) j hj
      rw [he] at e1
      cases e1

open BmmPar in
/-- C19: every schedule ends: each step decreases a measure, and a reachable state is finished, has panicked, or
some thread can act. -/
theorem C19_terminates [Zero T] [Add T] [Mul T] (J : Job T) :
    (∃ μ : St T → Nat, ∀ s s', Step J s s' → μ s' < μ s) ∧
    ∀ s, Relation.ReflTransGen (Step J) (St.init J) s →
      s.Finished J ∨ s.panicked = true ∨ ∃ s', Step J s s' := by
  refine ⟨⟨St.measure J, fun s s' h => h.measure_lt⟩, fun s hs => ?_⟩
  by_cases hp : s.panicked = true
  · exact Or.inr (Or.inl hp)
  · by_cases hf : s.Finished J
    · exact Or.inl hf
    · exact Or.inr (Or.inr ((Inv.reach hs).progress (by simpa using hp) hf))

/-- C19: hypotheses of `C19_schedule_independent` hold for every pair of multiplicable matrices. -/
example : bmmChecks (.raw (⟨[1, 2, 3, 4], [2, 2]⟩ : Raw Int)) (.raw ⟨[5, 6], [2, 1]⟩) = .ok () ∧
    bmmShape (.raw (⟨[1, 2, 3, 4], [2, 2]⟩ : Raw Int)) (.raw ⟨[5, 6], [2, 1]⟩) = .ok [1, 2, 1] := by decide

/-! ## accepted inputs (C20) -/

/-- C20: `bmm` panics unless the left operand has rank at least 2, the right one rank 2, and the inner dimensions
agree. -/
theorem C20_rejects [Zero T] [Add T] [Mul T] (l r : TL T)
    (h : l.shape.length < 2 ∨ r.shape.length ≠ 2 ∨ l.shape.getLast? ≠ r.shape.head?) : Panics (bmmRaw l r) := by
  refine ⟨.assert, ?_, by simp⟩
  suffices hc : bmmChecks l r = .error (.panic .assert) by unfold bmmRaw; rw [hc]; rfl
  unfold bmmChecks
  by_cases h1 : 2 ≤ l.shape.length
  · by_cases h2 : r.shape.length = 2
    · rcases h with h | h | h
      · omega
      · exact absurd h2 h
      · simp only [h1, decide_true, assertR_true, R.bind_ok, h2, beq_self_eq_true]
        rw [idxR_ok (show l.shape.length - 1 < l.shape.length by omega), idxR_ok (show 2 - 2 < r.shape.length by omega)]
        simp only [R.bind_ok]
        have e1 : l.shape.getLast? = some l.shape[l.shape.length - 1] := by
          rw [List.getLast?_eq_getElem?, List.getElem?_eq_getElem (by omega)]
        have e2 : r.shape.head? = some r.shape[2 - 2] := by
          rw [List.head?_eq_getElem?, List.getElem?_eq_getElem (by omega)]
        have : (l.shape[l.shape.length - 1] == r.shape[2 - 2]) = false := by
          rw [beq_eq_false_iff_ne]
          intro e
          exact h (by rw [e1, e2, e])
        rw [this]
        rfl
    · have : (r.shape.length == 2) = false := by simpa using h2
      simp [h1, this, R.panic]
  · simp [h1, R.panic]

/-- C20, full statement of the accepting half: any left rank from 2 on. -/
def C20_accepts_statement (T : Type) [Zero T] [Add T] [Mul T] : Prop :=
  ∀ (l r : TL T) (batch : List Nat) (m k n : Nat), Ok l → Ok r → Pos l.shape → Pos r.shape →
    l.shape = batch ++ [m, k] → r.shape = [k, n] →
    ∀ t, bmmRaw l r = .ok t → t.shape = batch ++ [m, n] ∧
      ∀ bi i j, InRange batch bi → i < m → j < n → ∃ a b : Nat → T,
        (∀ kk < k, elem? l (bi ++ [i, kk]) = some (a kk)) ∧ (∀ kk < k, elem? r [kk, j] = some (b kk)) ∧
        t.get (bi ++ [i, j]) = .ok ((List.range k).foldl (fun acc kk => acc + a kk * b kk) 0)

/-- C20, accepting half for left rank 2 and 3: these inputs are accepted (and by `C18_matrix`, `C18_batched`
multiplied correctly). Missing: left rank 4 and more, for which the full statement is false
(`C20_accepts_false`). -/
theorem C20_accepts_partial [Zero T] [Add T] [Mul T] (l r : TL T) (hl : Ok l) (hr : Ok r)
    (hrank : l.shape.length = 2 ∨ l.shape.length = 3) (hr2 : r.shape.length = 2)
    (hinner : l.shape.getLast? = r.shape.head?) :
    ∃ t, bmmRaw l r = .ok t ∧ t.shape = l.shape.dropLast ++ r.shape.tail := by
  obtain ⟨k, n, hrs⟩ : ∃ k n, r.shape = [k, n] := by
    match h : r.shape, hr2 with
    | [k, n], _ => exact ⟨k, n, rfl⟩
  rcases hrank with h2 | h3
  · match h : l.shape, h2 with
    | [m, k'], _ =>
      rw [h, hrs] at hinner
      simp at hinner
      subst hinner
      exact ⟨_, bmmRaw2_eq hl hr h hrs, by simp [hrs]⟩
  · match h : l.shape, h3 with
    | [b, m, k'], _ =>
      rw [h, hrs] at hinner
      simp at hinner
      subst hinner
      exact ⟨_, bmmRaw3_eq hl hr h hrs, by simp [hrs]⟩

example : Ok (.raw (⟨[1, 2, 3, 4], [2, 1, 2]⟩ : Raw Int)) ∧ Ok (.raw (⟨[5, 6], [2, 1]⟩ : Raw Int)) ∧
    [2, 1, 2].getLast? = [2, 1].head? := ⟨rfl, rfl, rfl⟩

/-- C20: the accepting half is false: a `[1, 1, 2, 1]` operand is accepted, and the result has shape `[1, 1, 1]`
and holds the first row only. -/
theorem C20_accepts_false : ¬ C20_accepts_statement Int := by
  intro h
  have e : bmmRaw (.raw (⟨[5, 7], [1, 1, 2, 1]⟩ : Raw Int)) (.raw ⟨[1], [1, 1]⟩) = .ok ⟨[5], [1, 1, 1]⟩ := by decide
  obtain ⟨h1, _⟩ := h (.raw ⟨[5, 7], [1, 1, 2, 1]⟩) (.raw ⟨[1], [1, 1]⟩) [1, 1] 2 1 1 rfl rfl
    (by simp [Pos, TL.shape]) (by simp [Pos, TL.shape]) rfl rfl _ e
  exact absurd h1 (by decide)

/-- C20, what happens on every `[1, 1, m, k]` operand with `m > 0`: the result has shape `[1, 1, n]` and holds row 0
of the product; the other rows are lost. -/
theorem C20_rank4_first_row [Zero T] [Add T] [Mul T] (l : Raw T) (r : TL T) (hl : WF l) (hr : Ok r) (m k n : Nat)
    (hm : 0 < m) (hls : l.shape = [1, 1, m, k]) (hrs : r.shape = [k, n]) :
    ∃ t, bmmRaw (.raw l) r = .ok t ∧ t.shape = [1, 1, n] ∧
    ∃ (a : Nat → T) (b : Nat → Nat → T),
      (∀ kk, kk < k → Raw.elem? l [0, 0, 0, kk] = some (a kk)) ∧
      (∀ kk j, kk < k → j < n → elem? r [kk, j] = some (b kk j)) ∧
      ∀ j, j < n → t.get [0, 0, j] = .ok ((List.range k).foldl (fun acc kk => acc + a kk * b kk j) 0) := by
  have hin : ∀ kk < k, InRange l.shape [0, 0, 0, kk] := by
    intro kk hk
    rw [hls]
    exact .cons (by decide) (.cons (by decide) (.cons hm (.cons hk .nil)))
  have key := bmmLoop_eq (nb := 1) (nrow := 1) (ncol := n)
    (f := fun p i j => bmmEntry (.raw l) r (bmmLeftIndex (.raw l) p i) r.shape k j)
    (g := fun _ _ j => dotFold k (fun kk => ent (.raw l) [0, 0, 0, kk]) (fun kk => ent r [kk, j]))
    (fun p _ i hi j hj => bmmEntry_eq
      (fun kk hk => by
        have e : (bmmLeftIndex (.raw l) p i).set ((bmmLeftIndex (.raw l) p i).length - 1) kk = [1, 1, 0, kk] := by
          have : i = 0 := by omega
          subst this
          simp [bmmLeftIndex, TL.shape, hls]
        rw [e]
        have hrd : Readable l.shape [1, 1, 0, kk] := by
          rw [readable_of_length (by simp [hls]), hls]
          exact .cons (Or.inl rfl) (.cons (Or.inl rfl) (.cons (Or.inr hm) (.cons (Or.inr hk) .nil)))
        have hbp : bproj l.shape [1, 1, 0, kk] = [0, 0, 0, kk] := by
          by_cases hk1 : k = 1
          · simp [bproj, hls, alignRight]; omega
          · simp [bproj, hls, alignRight, hk1]
        have h2 := (ent_get (x := .raw l) hl (hin kk hk)).1
        simp only [TL.get] at h2 ⊢
        rw [Raw.get_readable hrd, hbp, ← Raw.get_inRange (hin kk hk)]
        exact h2)
      (fun kk hk => by
        rw [hrs]
        exact (ent_get hr (by rw [hrs]; exact inRange2.2 ⟨hk, hj⟩)).1))
  have hrs0 : idxR r.shape 0 = .ok k := by simp [hrs, idxR]
  have hch : bmmChecks (.raw l) r = .ok () := by simp [bmmChecks, TL.shape_raw, hls, hrs, idxR]
  have hsh : bmmShape (.raw l) r = .ok [1, 1, n] := by simp [bmmShape, TL.shape_raw, hls, hrs, idxR]
  refine ⟨⟨(List.range n).map fun j => dotFold k (fun kk => ent (.raw l) [0, 0, 0, kk]) (fun kk => ent r [kk, j]),
    [1, 1, n]⟩, ?_, rfl, fun kk => ent (.raw l) [0, 0, 0, kk], fun kk j => ent r [kk, j], ?_, ?_, ?_⟩
  · unfold bmmRaw
    rw [hch, hsh]
    simp only [R.bind_ok, hrs0]
    simp only [R.bind_ok, idxR, List.getElem?_cons_zero, List.getElem?_cons_succ]
    rw [key]
    simp [TL.shape, hls]
  · exact fun kk hk => (ent_get (x := .raw l) hl (hin kk hk)).2
  · exact fun kk j hk hj => (ent_get hr (by rw [hrs]; exact inRange2.2 ⟨hk, hj⟩)).2
  · intro j hj
    have hin : InRange [1, 1, n] [0, 0, j] := .cons (by decide) (.cons (by decide) (.cons hj .nil))
    rw [Raw.get_inRange (by simpa using hin)]
    apply idxR_eq_ok.2
    simp only [rowMajor]
    simp [hj, dotFold]

/-- C20: a left tensor of rank at least 4 with a batch dimension other than 1 panics (when there is an element to
compute). -/
theorem C20_rank4_panics [Zero T] [Add T] [Mul T] (l : Raw T) (r : TL T) (hl : Pos l.shape) (hr : Pos r.shape)
    (hrank : 4 ≤ l.shape.length) (hb : ∃ d ∈ l.shape.take (l.shape.length - 2), d ≠ 1) :
    Panics (bmmRaw (.raw l) r) := by
  by_cases hr2 : r.shape.length = 2
  swap
  · exact C20_rejects _ _ (Or.inr (Or.inl hr2))
  by_cases hinner : l.shape.getLast? = r.shape.head?
  swap
  · exact C20_rejects _ _ (Or.inr (Or.inr hinner))
  obtain ⟨k, n, hrs⟩ : ∃ k n, r.shape = [k, n] := by
    match h : r.shape, hr2 with
    | [k, n], _ => exact ⟨k, n, rfl⟩
  obtain ⟨b0, b1, rest, hls⟩ : ∃ b0 b1 rest, l.shape = b0 :: b1 :: rest := by
    match h : l.shape, hrank with
    | b0 :: b1 :: rest, _ => exact ⟨b0, b1, rest, rfl⟩
  have hlast : idxR l.shape (l.shape.length - 1) = .ok k := by
    apply idxR_eq_ok.2
    rw [← List.getLast?_eq_getElem?, hinner, hrs]; rfl
  have hlen2 : l.shape.length ≠ 2 := by omega
  have hch : bmmChecks (.raw l) r = .ok () := by
    simp only [bmmChecks, TL.shape_raw, hlast, hrs]
    simp [show 2 ≤ l.shape.length by omega, idxR]
  have hsh : bmmShape (.raw l) r = .ok [b0, b1, n] := by
    simp only [bmmShape, TL.shape_raw, hlen2, if_false]
    simp [hls, hrs, idxR]
  have hrs0 : idxR r.shape 0 = .ok k := by simp [hrs, idxR]
  have p0 : 0 < b0 := hl b0 (by simp [hls])
  have p1 : 0 < b1 := hl b1 (by simp [hls])
  have pk : 0 < k := hr k (by simp [hrs])
  have pn : 0 < n := hr n (by simp [hrs])
  obtain ⟨b0, rfl⟩ := Nat.exists_eq_succ_of_ne_zero (Nat.pos_iff_ne_zero.1 p0)
  obtain ⟨b1, rfl⟩ := Nat.exists_eq_succ_of_ne_zero (Nat.pos_iff_ne_zero.1 p1)
  obtain ⟨k, rfl⟩ := Nat.exists_eq_succ_of_ne_zero (Nat.pos_iff_ne_zero.1 pk)
  obtain ⟨n, rfl⟩ := Nat.exists_eq_succ_of_ne_zero (Nat.pos_iff_ne_zero.1 pn)
  refine ⟨.unwrap, ?_, by simp⟩
  rw [BmmPar.bmmRaw_slots hch hsh hrs0]
  have hslot : BmmPar.slotVal (BmmPar.job (.raw l) r (b0 + 1) (b1 + 1) (n + 1) (k + 1)) (0, 0) 0
      = .error (.panic .unwrap) := by
    rw [← BmmPar.bmmEntry_slotVal]
    have hget : ∃ e, l.get ((bmmLeftIndex (.raw l) 0 0).set ((bmmLeftIndex (.raw l) 0 0).length - 1) 0) = R.err e := by
      have hnr : ¬ Readable l.shape ((bmmLeftIndex (.raw l) 0 0).set ((bmmLeftIndex (.raw l) 0 0).length - 1) 0) := by
        intro hrd
        have hlen3 : l.shape.length ≠ 3 := by omega
        simp only [bmmLeftIndex, TL.shape_raw, hlen3, if_false, List.length_set] at hrd
        rw [readable_of_length (by simp), List.forall₂_iff_get] at hrd
        obtain ⟨d, hd, hd1⟩ := hb
        obtain ⟨q, hq, rfl⟩ := List.mem_iff_getElem.1 hd
        have hq' : q < l.shape.length - 2 := by
          have := hq; simp at this; omega
        have := hrd.2 q (by omega) (by simp; omega)
        simp only [List.get_eq_getElem] at this
        rw [List.getElem_set_ne (by omega), List.getElem_set_ne (by omega)] at this
        rw [List.getElem_take] at hd1
        omega
      obtain ⟨e, he⟩ := globalIndex_none_err hnr
      exact ⟨e, by simp [Raw.get, he, R.err]⟩
    obtain ⟨e, he⟩ := hget
    unfold bmmEntry
    simp only [List.range_succ_eq_map, List.foldlM_cons, TL.get, he, R.err, unwrapR_err, R.panic, R.bind_error]
  have hrows : (BmmPar.job (.raw l) r (b0 + 1) (b1 + 1) (n + 1) (k + 1)).rows
      = (0, 0) :: (BmmPar.job (.raw l) r (b0 + 1) (b1 + 1) (n + 1) (k + 1)).rows.tail := by
    simp [BmmPar.job, List.range_succ_eq_map]
  rw [hrows, List.mapM_cons, List.range_succ_eq_map, List.mapM_cons, hslot]
  rfl

example : Pos [2, 1, 2, 3] ∧ 4 ≤ [2, 1, 2, 3].length ∧ ∃ d ∈ [2, 1, 2, 3].take 2, d ≠ 1 :=
  ⟨by simp [Pos], by decide, 2, by decide, by decide⟩

end RL
