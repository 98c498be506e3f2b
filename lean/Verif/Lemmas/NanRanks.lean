import Verif.SpecNanRanks
import Verif.Lemmas.Nan
import Verif.Props.MatMulExact

/-!
# Elements that no operation removes, in tensors of any number of dimensions
-/

namespace RL

open Spec

variable {T : Type} [Zero T] [One T] [Add T] [Mul T] [Sub T] [Neg T] [LT T] [DecidableLT T] [LE T] [DecidableLE T] [RealFn T] {Bad : T → Prop}

theorem unary_poisons {t v : Raw T} (ht : WF t) {f : T → T} (hf : ∀ x, Bad x → Bad (f x)) (e : genericUnaryOp (.raw t) f = .ok v)
    (hb : Poisoned Bad t) : Poisoned Bad v := by
  have := genericUnaryOp_eq (x := .raw t) ht (Or.inl ⟨t, rfl⟩) f
  rw [elems_raw ht, e] at this
  cases this
  obtain ⟨x, hx, hb⟩ := hb
  exact ⟨f x, List.mem_map_of_mem hx, hf x hb⟩

theorem add_poisons (hB : Absorbing Bad) {t u v : Raw T} (ht : WF t ∧ Pos t.shape) (hu : WF u ∧ Pos u.shape) (e : addRaw (.raw t) (.raw u) = .ok v) :
    Poisoned Bad t ∨ Poisoned Bad u → Poisoned Bad v := by
  obtain ⟨hc, hs, hw, h3⟩ := genericBinopRaw_inv (l := .raw t) (r := .raw u) ht.1 hu.1 ht.2 hu.2 e
  simp only [TL.shape] at hc hs h3
  rintro (⟨x, hx, hb⟩ | ⟨x, hx, hb⟩)
  · obtain ⟨idx, hi, he⟩ := mem_array ht.1 hx
    obtain ⟨j, hj, rfl⟩ := bproj_surj hu.2 hi (bshape_left hc)
    rw [← hs] at hj
    obtain ⟨a, b, ha, _, hv⟩ := h3 j hj
    simp only [elem?] at ha
    rw [he] at ha
    cases ha
    exact ⟨_, elem_mem hv, hB.add_left _ _ hb⟩
  · obtain ⟨idx, hi, he⟩ := mem_array hu.1 hx
    obtain ⟨j, hj, rfl⟩ := bproj_surj ht.2 hi (bshape_right hc)
    rw [← hs] at hj
    obtain ⟨a, b, _, ha, hv⟩ := h3 j hj
    simp only [elem?] at ha
    rw [he] at ha
    cases ha
    exact ⟨_, elem_mem hv, hB.add_right _ _ hb⟩

theorem sum_poisons (hB : Absorbing Bad) {t v : Raw T} (ht : WF t) (e : (TL.raw t).sum = .ok v) (hb : Poisoned Bad t) : Poisoned Bad v := by
  rw [C16_sum (.raw t) ht (Or.inl ⟨t, rfl⟩), elems_raw ht] at e
  cases e
  obtain ⟨x, hx, hb⟩ := hb
  exact ⟨_, List.mem_singleton.2 rfl, foldl_bad hB (fun x => x) _ _ x hx hb⟩

theorem dot_poisons (hB : Absorbing Bad) {t u v : Raw T} (ht : WF t) (hu : WF u) (e : dotRaw (.raw t) (.raw u) = .ok v) :
    Poisoned Bad t ∨ Poisoned Bad u → Poisoned Bad v := by
  obtain ⟨h1, h2⟩ := C17_dot_partial t u ht hu
  by_cases hs : t.shape = u.shape
  · rw [h1 hs] at e
    cases e
    have hl : t.array.length = u.array.length := by rw [ht, hu, hs]
    have key : ∀ i (hi : i < t.array.length), Bad (t.array[i] * u.array[i]) →
        Poisoned Bad ⟨[(List.zipWith (· * ·) t.array u.array).foldl (· + ·) 0], [1]⟩ := by
      intro i hi hb
      refine ⟨_, List.mem_singleton.2 rfl, foldl_bad hB (fun x => x) _ _ (t.array[i] * u.array[i]) ?_ hb⟩
      exact List.mem_iff_getElem.2 ⟨i, by simp; omega, by simp⟩
    rintro (⟨x, hx, hb⟩ | ⟨x, hx, hb⟩)
    · obtain ⟨i, hi, rfl⟩ := List.mem_iff_getElem.1 hx
      exact key i hi (hB.mul_left _ _ hb)
    · obtain ⟨i, hi, rfl⟩ := List.mem_iff_getElem.1 hx
      exact key i (by omega) (hB.mul_right _ _ hb)
  · obtain ⟨p, hp, _⟩ := h2 hs
    rw [hp] at e
    cases e

theorem inRange_ones {s idx : List Nat} : ∀ {a : Nat}, InRange (List.replicate a 1 ++ s) idx → ∃ rest, idx = List.replicate a 0 ++ rest ∧ InRange s rest
  | 0, h => ⟨idx, by simp, by simpa using h⟩
  | a + 1, h => by
    rw [List.replicate_succ, List.cons_append] at h
    cases h with
    | cons h1 h2 =>
      obtain ⟨rest, rfl, h3⟩ := inRange_ones h2
      exact ⟨rest, by rw [List.replicate_succ, List.cons_append]; congr 1; omega, h3⟩

theorem bmm_poisons (hB : Absorbing Bad) {t u v : Raw T} (ht : WF t ∧ Pos t.shape) (hu : WF u ∧ Pos u.shape) (hh : ¬ Hides t.shape)
    (e : bmmRaw (.raw t) (.raw u) = .ok v) : Poisoned Bad t ∨ Poisoned Bad u → Poisoned Bad v := by
  have hM := (C20_exact t (.raw u) ht.1 hu.1 ht.2 hu.2 v.shape).1 ⟨v, e, rfl⟩
  obtain ⟨wt, pt⟩ := ht
  obtain ⟨wu, pu⟩ := hu
  generalize hts : t.shape = ts at hM hh
  generalize hus : (TL.raw u).shape = us at hM
  generalize hvs : v.shape = vs at hM
  cases hM with
  | matrix m k n => exact (bmm_bad hB ⟨wt, pt, by simp [hts]⟩ ⟨wu, pu, by simp [show u.shape = _ from hus]⟩ e).2
  | batch b m k n => exact (bmm_bad hB ⟨wt, pt, by simp [hts]⟩ ⟨wu, pu, by simp [show u.shape = _ from hus]⟩ e).2
  | row a m k n =>
    have hus : u.shape = [k, n] := hus
    rw [hts] at pt
    rw [hus] at pu
    have pm : 0 < m := pt m (by simp)
    have pn : 0 < n := pu n (by simp)
    have pk : 0 < k := pu k (by simp)
    obtain rfl : m = 1 := by
      by_contra hm
      exact hh ⟨a, m, k, by omega, rfl⟩
    obtain ⟨v', e', hs, x, w, hx, hw, hv⟩ := C20_leading_ones t (.raw u) wt wu a 1 k n pm hts hus
    rw [e] at e'
    cases e'
    have get : ∀ j, j < n → Bad ((List.range k).foldl (fun acc kk => acc + x kk * w kk j) 0) → Poisoned Bad v := by
      intro j hj hb
      exact ⟨_, elem_mem (get_elem (by rw [hs]; exact .cons (by omega) (.cons (by omega) (.cons hj .nil))) (hv j hj)), hb⟩
    rintro (⟨z, hz, hb⟩ | ⟨z, hz, hb⟩)
    · obtain ⟨idx, hi, he⟩ := mem_array wt hz
      rw [hts] at hi
      obtain ⟨rest, rfl, hi'⟩ := inRange_ones hi
      match rest, hi' with
      | [i, kk], .cons hi (.cons hk .nil) =>
        obtain rfl : i = 0 := by omega
        have := hx kk hk
        rw [he] at this
        cases this
        exact get 0 pn (foldl_bad hB (fun kk => x kk * w kk 0) _ _ kk (List.mem_range.2 hk) (hB.mul_left _ _ hb))
    · obtain ⟨idx, hi, he⟩ := mem_array wu hz
      rw [hus] at hi
      match idx, hi with
      | [kk, j], .cons hk (.cons hj .nil) =>
        have := hw kk j hk hj
        simp only [elem?] at this
        rw [he] at this
        cases this
        exact get j hj (foldl_bad hB (fun kk => x kk * w kk j) _ _ kk (List.mem_range.2 hk) (hB.mul_right _ _ hb))

theorem fwd_poisons (hB : Absorbing Bad) {k : JvpKind} {vs : List (Raw T)} {v : Raw T} (hp : ∀ u ∈ vs, WF u ∧ Pos u.shape)
    (hh : ∀ t u, k = .bmm → vs = [t, u] → ¬ Hides t.shape) (e : fwd k vs = .ok v) : ∀ u ∈ vs, Poisoned Bad u → Poisoned Bad v := by
  have two : ∀ {a b : Raw T}, (Poisoned Bad a ∨ Poisoned Bad b → Poisoned Bad v) → ∀ u ∈ [a, b], Poisoned Bad u → Poisoned Bad v := by
    intro a b h2 u hu hb
    simp only [List.mem_cons, List.not_mem_nil, or_false] at hu
    rcases hu with rfl | rfl
    · exact h2 (Or.inl hb)
    · exact h2 (Or.inr hb)
  have one : ∀ {a : Raw T}, (Poisoned Bad a → Poisoned Bad v) → ∀ u ∈ [a], Poisoned Bad u → Poisoned Bad v := by
    intro a h2 u hu hb
    simp only [List.mem_cons, List.not_mem_nil, or_false] at hu
    subst hu
    exact h2 hb
  unfold fwd at e
  split at e
  · exact two (add_poisons hB (hp _ (by simp)) (hp _ (by simp)) e)
  · exact one (unary_poisons (hp _ (by simp)).1 hB.neg e)
  · refine one (unary_poisons (hp _ (by simp)).1 (fun x hx => ?_) e)
    unfold reluFn
    rw [if_neg (hB.not_neg x hx)]
    exact hx
  · exact one (unary_poisons (hp _ (by simp)).1 hB.abs e)
  · exact one (unary_poisons (hp _ (by simp)).1 hB.tanh e)
  · exact one (sum_poisons hB (hp _ (by simp)).1 e)
  · exact two (bmm_poisons hB (hp _ (by simp)) (hp _ (by simp)) (hh _ _ rfl rfl) e)
  · exact two (dot_poisons hB (hp _ (by simp)).1 (hp _ (by simp)).1 e)
  · simp [R.panic] at e

theorem feeds_poisons (hB : Absorbing Bad) {h : Heap T} (hg : h.Good) {l a : Nat}
    (hp : ∀ i v, Feeds h i l → dataOf h i = some v → WF v ∧ Pos v.shape)
    (hh : ∀ i d p q u, Feeds h i l → historyOf h i = some (some d) → d.kind = .bmm → d.inputs = [p, q] → dataOf h p = some u → ¬ Hides u.shape)
    (ha : Ancestor h a l) {v w : Raw T} (hv : dataOf h a = some v) (hw : dataOf h l = some w) (hb : Poisoned Bad v) : Poisoned Bad w := by
  have step : ∀ {b l' : Nat}, IsInput h b l' → Feeds h l' l → ∀ {v w : Raw T}, dataOf h b = some v → dataOf h l' = some w → Poisoned Bad v → Poisoned Bad w := by
    intro b l' h1 hf v w hv hw hb
    obtain ⟨n, d, hn, hd, hi⟩ := id h1
    obtain ⟨vs, h4, h2⟩ := (hg l' n hn).explained d hd
    obtain ⟨u, hu, h3⟩ := (vals_mem h4).2 b hi
    rw [hv] at h3
    cases h3
    simp only [dataOf, hn, Option.map_some, Option.some.injEq] at hw
    subst hw
    have up : ∀ j ∈ d.inputs, Feeds h j l := by
      intro j hj
      have hj' : IsInput h j l' := ⟨n, d, hn, hd, hj⟩
      rcases hf with rfl | hf
      · exact Or.inr (.single hj')
      · exact Or.inr (.head hj' hf)
    refine fwd_poisons hB (fun u hu => ?_) (fun t u hk hvs => ?_) h2 _ hu hb
    · obtain ⟨j, hj, h3⟩ := (vals_mem h4).1 u hu
      exact hp j u (up j hj) h3
    · subst hvs
      have hf2 := Heap.vals_eq_ok.1 h4
      match hin : d.inputs, hf2 with
      | [p, q], .cons ⟨np, k1, k2⟩ _ =>
        exact hh l' d p q t hf (by simp [historyOf, hn, hd]) hk hin (by simp [dataOf, k1, k2])
  induction ha using Relation.TransGen.head_induction_on generalizing v with
  | single h1 => exact step h1 (Or.inl rfl) hv hw hb
  | head h1 h2 ih =>
    obtain ⟨u, hu⟩ := feeds_data hg (.single h1)
    exact ih hu (step h1 (Or.inr h2) hv hu hb)

end RL
