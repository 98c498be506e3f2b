import Verif.SpecMultiply
import Verif.Props.MatMul
import Verif.Lemmas.MachineFits

/-!
# C20: exactly which operands `bmm` accepts
-/

namespace RL

open Spec

variable {T : Type}

theorem forall₂_replicate_left {α β : Type} {R : α → β → Prop} {n : Nat} {x : α} {y : β} (h : R x y) {as : List α} {bs : List β}
    (ht : List.Forall₂ R as bs) : List.Forall₂ R (List.replicate n x ++ as) (List.replicate n y ++ bs) := by
  induction n with
  | zero => simpa using ht
  | succ n ih => simpa [List.replicate_succ] using ⟨h, ih⟩

/-- C20, what happens on every operand of rank at least 4 whose dimensions but the last two are 1: the result has shape `[1, 1, n]` and holds
row 0 of the product; the other rows are lost. -/
theorem C20_leading_ones [Zero T] [Add T] [Mul T] (l : Raw T) (r : TL T) (hl : WF l) (hr : Ok r) (a m k n : Nat)
    (hm : 0 < m) (hls : l.shape = List.replicate (a + 2) 1 ++ [m, k]) (hrs : r.shape = [k, n]) :
    ∃ t, bmmRaw (.raw l) r = .ok t ∧ t.shape = [1, 1, n] ∧
    ∃ (u : Nat → T) (v : Nat → Nat → T),
      (∀ kk, kk < k → Raw.elem? l (List.replicate (a + 2) 0 ++ [0, kk]) = some (u kk)) ∧
      (∀ kk j, kk < k → j < n → elem? r [kk, j] = some (v kk j)) ∧
      ∀ j, j < n → t.get [0, 0, j] = .ok ((List.range k).foldl (fun acc kk => acc + u kk * v kk j) 0) := by
  have hin : ∀ kk < k, InRange l.shape (List.replicate (a + 2) 0 ++ [0, kk]) := by
    intro kk hk
    rw [hls]
    exact forall₂_replicate_left (by decide) (.cons hm (.cons hk .nil))
  have key := bmmLoop_eq (nb := 1) (nrow := 1) (ncol := n)
    (f := fun p i j => bmmEntry (.raw l) r (bmmLeftIndex (.raw l) p i) r.shape k j)
    (g := fun _ _ j => dotFold k (fun kk => ent (.raw l) (List.replicate (a + 2) 0 ++ [0, kk])) (fun kk => ent r [kk, j]))
    (fun p _ i hi j hj => bmmEntry_eq
      (fun kk hk => by
        have e : (bmmLeftIndex (.raw l) p i).set ((bmmLeftIndex (.raw l) p i).length - 1) kk = List.replicate (a + 2) 1 ++ [0, kk] := by
          have : i = 0 := by omega
          subst this
          have h3 : l.shape.length ≠ 3 := by simp [hls]
          simp only [bmmLeftIndex, TL.shape_raw, h3, if_false, List.length_set]
          rw [hls]
          simp [List.set_append]
        rw [e]
        have hrd : Readable l.shape (List.replicate (a + 2) 1 ++ [0, kk]) := by
          rw [readable_of_length (by simp [hls]), hls]
          exact forall₂_replicate_left (.inl rfl) (.cons (Or.inr hm) (.cons (Or.inr hk) .nil))
        have hbp : bproj l.shape (List.replicate (a + 2) 1 ++ [0, kk]) = List.replicate (a + 2) 0 ++ [0, kk] := by
          have hk' : k = 1 → kk = 0 := by omega
          have hz : ∀ q, List.zipWith (fun d i => if d = 1 then 0 else i) (List.replicate q 1 ++ [m, k]) (List.replicate q 1 ++ [0, kk]) =
              List.replicate q 0 ++ [0, kk] := by
            intro q
            induction q with
            | zero => simpa [eq_comm] using hk'
            | succ q ih => simpa [List.replicate_succ] using ih
          have ha : alignRight (List.replicate (a + 2) 1 ++ [m, k]).length (List.replicate (a + 2) 1 ++ [0, kk]) =
              List.replicate (a + 2) 1 ++ [0, kk] := by simp [alignRight]
          rw [bproj, hls, ha]
          exact hz (a + 2)
        have h2 := (ent_get (x := .raw l) hl (hin kk hk)).1
        simp only [TL.get] at h2 ⊢
        rw [Raw.get_readable hrd, hbp, ← Raw.get_inRange (hin kk hk)]
        exact h2)
      (fun kk hk => by
        rw [hrs]
        exact (ent_get hr (by rw [hrs]; exact inRange2.2 ⟨hk, hj⟩)).1))
  have hrs0 : idxR r.shape 0 = .ok k := by simp [hrs, idxR]
  have hlast : idxR l.shape (l.shape.length - 1) = .ok k := by
    apply idxR_eq_ok.2
    rw [← List.getLast?_eq_getElem?, hls]
    simp
  have h2 : l.shape.length ≠ 2 := by simp [hls]
  have hch : bmmChecks (.raw l) r = .ok () := by
    simp only [bmmChecks, TL.shape_raw, hlast, hrs]
    simp [hls, idxR]
  have h01 : l.shape[0]? = some 1 ∧ l.shape[1]? = some 1 := by simp [hls, List.replicate_succ]
  have hsh : bmmShape (.raw l) r = .ok [1, 1, n] := by
    simp only [bmmShape, TL.shape_raw, h2, if_false]
    simp [h01, hrs, idxR]
  refine ⟨⟨(List.range n).map fun j => dotFold k (fun kk => ent (.raw l) (List.replicate (a + 2) 0 ++ [0, kk])) (fun kk => ent r [kk, j]),
    [1, 1, n]⟩, ?_, rfl, fun kk => ent (.raw l) (List.replicate (a + 2) 0 ++ [0, kk]), fun kk j => ent r [kk, j], ?_, ?_, ?_⟩
  · unfold bmmRaw
    rw [hch, hsh]
    simp only [R.bind_ok, hrs0]
    simp only [R.bind_ok, idxR, List.getElem?_cons_zero, List.getElem?_cons_succ]
    rw [key]
    simp [TL.shape, h2]
  · exact fun kk hk => (ent_get (x := .raw l) hl (hin kk hk)).2
  · exact fun kk j hk hj => (ent_get hr (by rw [hrs]; exact inRange2.2 ⟨hk, hj⟩)).2
  · intro j hj
    have hin : InRange [1, 1, n] [0, 0, j] := .cons (by decide) (.cons (by decide) (.cons hj .nil))
    rw [Raw.get_inRange (by simpa using hin)]
    apply idxR_eq_ok.2
    simp only [rowMajor]
    simp [hj, dotFold]

example : WF (⟨[5, 7], [1, 1, 1, 2, 1]⟩ : Raw Int) ∧ [1, 1, 1, 2, 1] = List.replicate (1 + 2) 1 ++ [2, 1] := ⟨rfl, rfl⟩

/-- C20, the whole: `bmm` multiplies exactly these shapes, and the product has exactly this shape; with `C20_leading_ones`, `C18_matrix` and
`C18_batched` for the elements. -/
theorem C20_exact [Zero T] [Add T] [Mul T] (l : Raw T) (r : TL T) (hl : WF l) (hr : Ok r) (pl : Pos l.shape) (pr : Pos r.shape) (p : List Nat) :
    (∃ t, bmmRaw (.raw l) r = .ok t ∧ t.shape = p) ↔ Multiplies l.shape r.shape p := by
  constructor
  · rintro ⟨t, e, rfl⟩
    obtain ⟨h1, h2, ⟨k, h3, h4⟩, h5⟩ := bmmRaw_shape e
    obtain ⟨n, hn⟩ : ∃ n, r.shape = [k, n] := by
      match h : r.shape, h2 with
      | [k', n], _ =>
        rw [h] at h4
        simp only [List.getElem?_cons_zero, Option.some.injEq] at h4
        exact ⟨n, by rw [h4]⟩
    rw [hn] at h5 ⊢
    simp only [TL.shape_raw] at h1 h3 h5
    rcases h5 with ⟨a, n', c1, c2, c3, -, c4⟩ | ⟨a, b, n', c1, c2, c3, c4, -, c5⟩
    · simp only [List.getElem?_cons_succ, List.getElem?_cons_zero, Option.some.injEq] at c2
      subst c2
      rw [c4]
      match hh : l.shape, c3 with
      | [m, k'], _ =>
        rw [hh] at h3 c1
        simp at h3 c1
        subst h3 c1
        exact .matrix _ _ _
    · simp only [List.getElem?_cons_succ, List.getElem?_cons_zero, Option.some.injEq] at c3
      subst c3
      rw [c5]
      by_cases hlen : l.shape.length = 3
      · match hh : l.shape, hlen with
        | [x, y, z], _ =>
          rw [hh] at h3 c1 c2
          simp at h3 c1 c2
          subst h3 c1 c2
          exact .batch _ _ _ _
      · have hall : ∀ d ∈ l.shape.take (l.shape.length - 2), d = 1 := by
          by_contra hc
          push Not at hc
          obtain ⟨p, hp, -⟩ := C20_rank4_panics l r pl pr (by omega) hc
          rw [hp] at e
          cases e
        obtain ⟨s, m, k', hs⟩ : ∃ s m k', l.shape = s ++ [m, k'] := by
          refine ⟨l.shape.take (l.shape.length - 2), l.shape[l.shape.length - 2], l.shape[l.shape.length - 1], ?_⟩
          conv_lhs => rw [← List.take_append_drop (l.shape.length - 2) l.shape]
          congr 1
          rw [List.drop_eq_getElem_cons (by omega), List.drop_eq_getElem_cons (by omega), List.drop_of_length_le (by omega)]
          congr 2
          congr 1
          omega
        have hs' : ∀ d ∈ s, d = 1 := by
          rw [hs] at hall
          simpa using hall
        have hk : k' = k := by
          rw [hs] at h3
          simpa using h3
        subst hk
        have hlen' : 2 ≤ s.length := by
          have : l.shape.length = s.length + 2 := by rw [hs]; simp
          omega
        have hrep : s = List.replicate (s.length - 2 + 2) 1 := by
          rw [Nat.sub_add_cancel hlen']
          exact List.eq_replicate_iff.2 ⟨rfl, hs'⟩
        rw [hs] at c1 c2
        rw [hrep] at c1 c2
        simp [List.replicate_succ] at c1 c2
        subst c1 c2
        rw [hs, hrep]
        exact .row _ _ _ _
  · intro hm
    generalize hls : l.shape = ls at hm
    generalize hrs : r.shape = rs at hm
    cases hm with
    | matrix m k n =>
      obtain ⟨t, h1, h2⟩ := C20_accepts_partial (.raw l) r hl hr (.inl (by simp [hls])) (by simp [hrs]) (by simp [hls, hrs])
      exact ⟨t, h1, by simp [h2, hls, hrs]⟩
    | batch b m k n =>
      obtain ⟨t, h1, h2⟩ := C20_accepts_partial (.raw l) r hl hr (.inr (by simp [hls])) (by simp [hrs]) (by simp [hls, hrs])
      exact ⟨t, h1, by simp [h2, hls, hrs]⟩
    | row a m k n =>
      obtain ⟨t, h1, h2, -⟩ := C20_leading_ones l r hl hr a m k n (pl m (by simp [hls])) hls hrs
      exact ⟨t, h1, h2⟩

/-- TEST of the hypotheses of `C20_exact`, and a case of each side. -/
example : WF (⟨[5, 7], [1, 1, 2, 1]⟩ : Raw Int) ∧ Ok (.raw (⟨[1], [1, 1]⟩ : Raw Int)) ∧ Pos [1, 1, 2, 1] ∧
    Multiplies [1, 1, 2, 1] [1, 1] [1, 1, 1] ∧ ∀ p, ¬ Multiplies [1, 2, 1, 1] [1, 1] p := by
  refine ⟨rfl, rfl, by simp [Pos], .row 0 2 1 1, fun p hp => ?_⟩
  generalize hs : [1, 2, 1, 1] = s at hp
  cases hp with
  | matrix => cases hs
  | batch => cases hs
  | row a m =>
    rcases a with - | a
    · simp at hs
    · simp [List.replicate_succ] at hs

end RL
