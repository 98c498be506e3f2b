import Verif.SpecGradShapes
import Verif.Lemmas.Fresh
import Verif.Lemmas.WfOps

/-!
# Shapes of gradients, operation by operation
-/

namespace RL

open Spec

variable {T : Type}

theorem zipLongestMax_eq_left : ∀ {l r : List Nat}, zipLongestMax l r = l ↔ r.length ≤ l.length ∧ List.Forall₂ (· ≤ ·) r (l.take r.length)
  | [], [] => by simp [zipLongestMax]
  | [], b :: r => by simp [zipLongestMax]
  | a :: l, [] => by simp [zipLongestMax]
  | a :: l, b :: r => by
    simp [zipLongestMax, zipLongestMax_eq_left (l := l) (r := r)]
    tauto

theorem maxShape_eq_left {l r : List Nat} : maxShape l r = l ↔ Within r l := by
  rw [maxShape, List.reverse_eq_iff, zipLongestMax_eq_left, Within]
  simp only [List.length_reverse]
  refine and_congr_right fun hle => ?_
  rw [List.take_reverse, List.forall₂_reverse_iff]

theorem addRaw_shape [Zero T] [Add T] {p c v : Raw T} (e : addRaw (.raw p) (.raw c) = .ok v) : v.shape = maxShape p.shape c.shape :=
  (genericBinopRaw_post _ _ _ v e).1

variable [Zero T] [One T] [Add T] [Mul T] [Sub T] [Neg T] [LT T] [DecidableLT T] [LE T] [DecidableLE T] [RealFn T]

/-- Contributions of the shape `s` keep a gradient of this shape. -/
theorem gradAccum_shape {s : List Nat} : ∀ {cs : List (Raw T)} {o o' : Option (Raw T)}, (∀ c ∈ cs, c.shape = s) →
    (∀ p, o = some p → p.shape = s) → gradAccum o cs = .ok o' → ∀ p, o' = some p → p.shape = s := by
  intro cs
  induction cs with
  | nil => intro o o' _ ho e; cases e; exact ho
  | cons c cs ih =>
    intro o o' hcs ho e
    rw [gradAccum_cons, R.bind_eq_ok] at e
    obtain ⟨q, e1, e2⟩ := e
    have hc1 := hcs c (by simp)
    refine ih (fun d hd => hcs d (by simp [hd])) ?_ e2
    cases o with
    | none =>
      simp only [gradAccumStep, R.pure_eq_ok] at e1
      subst e1
      rintro p ⟨⟩
      exact hc1
    | some p =>
      simp only [gradAccumStep, R.bind_eq_ok, R.pure_eq_ok] at e1
      obtain ⟨v, e1, rfl⟩ := e1
      rintro p ⟨⟩
      rw [addRaw_shape e1, ho p rfl, hc1, maxShape_self]

/-- Smaller contributions keep the shape of a gradient. -/
theorem gradAccum_within {s : List Nat} : ∀ {cs : List (Raw T)} {o o' : Option (Raw T)}, (∀ c ∈ cs, Within c.shape s) →
    (∀ p, o = some p → p.shape = s) → o ≠ none → gradAccum o cs = .ok o' → ∀ p, o' = some p → p.shape = s := by
  intro cs
  induction cs with
  | nil => intro o o' _ ho _ e; cases e; exact ho
  | cons c cs ih =>
    intro o o' hcs ho hne e
    rw [gradAccum_cons, R.bind_eq_ok] at e
    obtain ⟨q, e1, e2⟩ := e
    have hc1 := hcs c (by simp)
    cases o with
    | none => exact absurd rfl hne
    | some p =>
      simp only [gradAccumStep, R.bind_eq_ok, R.pure_eq_ok] at e1
      obtain ⟨v, e1, rfl⟩ := e1
      refine ih (fun d hd => hcs d (by simp [hd])) ?_ (by simp) e2
      rintro p ⟨⟩
      rw [addRaw_shape e1, ho p rfl, maxShape_eq_left.2 hc1]

/-- The condition on the nodes. -/
theorem gradShapesFit_iff {h : Heap T} : GradShapesFit h ↔ ∀ t n, h[t]? = some n → ∀ g, gradOf h t = some g → g.shape = n.val.shape := by
  refine ⟨fun k t n hn g hg => k t n.val g (by simp [dataOf, hn]) hg, fun k t v g hv hg => ?_⟩
  simp only [dataOf, Option.map_eq_some_iff] at hv
  obtain ⟨n, hn, rfl⟩ := hv
  exact k t n hn g hg

/-- The result of `sum` has a gradient of the shape of the summed tensor. -/
theorem sum_gradShapesFit {h : Heap T} {n : Node T} {v : Raw T} (hg : h.Good) (hfit : GradShapesFit h) (hv : (TL.raw n.val).sum = .ok v)
    (o : Option Deriv) {h' : Heap T} (eh : h' = h ++ [leafNode (Raw.newWithFiller n.val.shape 1)] ++ [⟨v, some h.length, o⟩]) (hf : Frame h h') :
    GradShapesFit h' ↔ n.val.shape = [] := by
  have hv0 : v.shape = [] := (sum_post _ v hv).1
  have h1 : h'[h.length]? = some (leafNode (Raw.newWithFiller n.val.shape 1)) := by subst eh; simp
  have h2 : h'[h.length + 1]? = some ⟨v, some h.length, o⟩ := by subst eh; simp
  have h3 : gradOf h' (h.length + 1) = some (Raw.newWithFiller n.val.shape 1) := gradOf_some h2 rfl h1
  have hfs : (Raw.newWithFiller n.val.shape (1 : T)).shape = n.val.shape := by
    unfold Raw.newWithFiller
    split <;> rfl
  rw [gradShapesFit_iff]
  constructor
  · intro k
    exact hfs.symm.trans ((k _ _ h2 _ h3).trans hv0)
  · intro hs t m hm g hgm
    have hl : t < h.length + 2 := by have := getElem?_lt hm; simpa [eh] using this
    rcases Nat.lt_or_ge t h.length with hlt | hge
    · have hm0 : h[t]? = some m := by
        rw [← hm, eh, List.append_assoc, List.getElem?_append_left hlt]
      rw [gradOf_congr hg hf hm0 hm] at hgm
      exact gradShapesFit_iff.1 hfit t m hm0 g hgm
    · rcases Nat.lt_or_ge h.length t with hlt | hle
      · have : t = h.length + 1 := by omega
        subst this
        rw [h3] at hgm
        rw [h2] at hm
        cases hm
        cases hgm
        exact hfs.trans (hs.trans hv0.symm)
      · have : t = h.length := by omega
        subst this
        rw [h1] at hm
        cases hm
        rw [gradOf_none h1 rfl] at hgm
        cases hgm

/-- After an operation that succeeds every gradient still has the shape of its tensor, unless it is one of `Misfits`. -/
theorem Op.run_gradShapesFit {h h' : Heap T} {op : Op T} (hg : h.Good) (hfit : GradShapesFit h) (e : op.run h = .ok h') :
    GradShapesFit h' ↔ ¬ Misfits h op := by
  obtain ⟨hf, hg1⟩ := Op.run_frame hg e
  have hi := gradShapesFit_iff.1 hfit
  have hdat : ∀ {t : Nat} {n : Node T} {v : Raw T}, h[t]? = some n → dataOf h t = some v → v = n.val := by
    intro t n v hn hv
    simpa [dataOf, hn] using hv.symm
  by_cases hsum : ∃ t, op = .sum t
  · obtain ⟨t, rfl⟩ := hsum
    obtain ⟨_, e⟩ := map_fst_eq_ok e
    obtain ⟨n, v, hn, hv, eh, -⟩ := sumT_inv e
    rw [sum_gradShapesFit hg hfit hv _ eh hf]
    refine ⟨?_, fun k => by_contra fun h0 => k (.sum t n.val (by simp [dataOf, hn]) h0)⟩
    rintro h0 (⟨_, w, hw, hne⟩ | _)
    rw [hdat hn hw] at hne
    exact hne h0
  by_cases hraw : ∃ t, op = .rawSum t
  · obtain ⟨t, rfl⟩ := hraw
    obtain ⟨_, e⟩ := map_fst_eq_ok e
    obtain ⟨n, v, hn, hv, eh, -⟩ := rawSumT_inv e
    rw [sum_gradShapesFit hg hfit hv _ eh hf]
    refine ⟨?_, fun k => by_contra fun h0 => k (.rawSum t n.val (by simp [dataOf, hn]) h0)⟩
    rintro h0 (_ | ⟨_, w, hw, hne⟩)
    rw [hdat hn hw] at hne
    exact hne h0
  cases hop : op.isGrad with
  | false =>
    refine ⟨fun _ k => ?_, fun _ => ?_⟩
    · cases k with
      | sum t => exact hsum ⟨t, rfl⟩
      | rawSum t => exact hraw ⟨t, rfl⟩
      | first => cases hop
      | more => cases hop
    obtain ⟨ns, rfl, hns⟩ := Op.run_fresh hop e
    rw [gradShapesFit_iff]
    intro t n hn g hgn
    rcases Nat.lt_or_ge t h.length with hlt | hge
    · have hn0 := hn
      rw [List.getElem?_append_left hlt] at hn0
      rw [gradOf_congr hg hf hn0 hn] at hgn
      exact hi t n hn0 g hgn
    · rw [List.getElem?_append_right hge] at hn
      have hmem : n.links ∈ op.fresh h := by rw [← hns]; exact List.mem_map_of_mem (List.mem_of_getElem? hn)
      have hn' : (h ++ ns)[t]? = some n := by rw [List.getElem?_append_right hge, hn]
      have hnone : n.grad = none → g.shape = n.val.shape := by
        intro h
        rw [gradOf_none hn' h] at hgn
        cases hgn
      cases op with
      | sum s => exact absurd ⟨s, rfl⟩ hsum
      | rawSum s => exact absurd ⟨s, rfl⟩ hraw
      | rawClone s =>
        obtain ⟨_, e⟩ := map_fst_eq_ok e
        obtain ⟨m, hm, e, -⟩ := rawCloneT_inv e
        have := List.append_cancel_left e
        subst this
        have : t = h.length := by have := getElem?_lt hn'; simp at this; omega
        subst this
        simp at hn
        subst hn
        refine hi s m hm g ?_
        rw [← hgn]
        cases hmg : m.grad with
        | none => rw [gradOf_none hm hmg, gradOf_none hn' hmg]
        | some o =>
          have hol := (hg s m hm).grad o hmg
          have ho := List.getElem?_eq_getElem hol
          rw [gradOf_some hm hmg ho, gradOf_some hn' hmg (by rw [List.getElem?_append_left hol]; exact ho)]
      | _ =>
        simp [Op.fresh, Node.links] at hmem <;> first
          | exact hnone hmem.1
          | (rcases hmem with h | h <;> exact hnone h.1)
  | true =>
    cases op <;> simp only [Op.isGrad] at hop <;> try (cases hop; done)
    case updateGrad s c =>
      simp only [Op.run, R.bind_eq_ok, Heap.node_eq_ok] at e
      obtain ⟨gn, hgn, e⟩ := e
      obtain ⟨m, hm, ⟨hmg, rfl⟩ | ⟨o, on, gn', v, hmg, ho, hgn', hv, rfl⟩⟩ := updateGrad_inv e
      · have hlt := getElem?_lt hm
        obtain ⟨_, hgn1⟩ := (Frame.set hm (some c)).get hgn
        have hnew := gradOf_some (List.getElem?_set_self hlt) rfl hgn1
        have hnone := gradOf_none hm hmg
        have key : GradShapesFit (h.set s { m with grad := some c }) ↔ gn.val.shape = m.val.shape := by
          rw [gradShapesFit_iff]
          refine ⟨fun k => k s _ (List.getElem?_set_self hlt) _ hnew, fun k t n hn g hgt => ?_⟩
          by_cases hts : t = s
          · subst hts
            rw [hnew] at hgt
            rw [List.getElem?_set_self hlt] at hn
            cases hn
            cases hgt
            exact k
          · have hn0 := hn
            rw [List.getElem?_set_ne (Ne.symm hts)] at hn0
            rw [gradOf_congr hg hf hn0 hn] at hgt
            exact hi t n hn0 g hgt
        rw [key]
        refine ⟨?_, fun k => by_contra fun h0 =>
          k (.first s c m.val gn.val (by simp [dataOf, hm]) (by simp [dataOf, hgn]) hnone h0)⟩
        rintro h0 (_ | _ | ⟨_, _, a, b, ha, hb, -, hne⟩ | ⟨_, _, a, b, p, ha, hb, hp, -⟩)
        · rw [hdat hm ha, hdat hgn hb] at hne
          exact hne h0
        · rw [hnone] at hp
          cases hp
      · have hlt := getElem?_lt hm
        rw [hgn] at hgn'
        cases hgn'
        have hlt2 : s < (h ++ [(⟨v, none, some ⟨[o, c], .add⟩⟩ : Node T)]).length := by simp; omega
        have hold := gradOf_some hm hmg ho
        have hv0 : ((h ++ [(⟨v, none, some ⟨[o, c], .add⟩⟩ : Node T)]).set s { m with grad := some h.length })[h.length]? =
            some (⟨v, none, some ⟨[o, c], .add⟩⟩ : Node T) := by
          rw [List.getElem?_set_ne (by omega)]; simp
        have hnew := gradOf_some (List.getElem?_set_self hlt2) rfl hv0
        have hvs : v.shape = maxShape m.val.shape gn.val.shape := by
          rw [addRaw_shape hv, hi s m hm _ hold]
        have key : GradShapesFit ((h ++ [(⟨v, none, some ⟨[o, c], .add⟩⟩ : Node T)]).set s { m with grad := some h.length }) ↔
            Within gn.val.shape m.val.shape := by
          rw [gradShapesFit_iff, ← maxShape_eq_left, ← hvs]
          refine ⟨fun k => k s _ (List.getElem?_set_self hlt2) _ hnew, fun k t n hn g hgt => ?_⟩
          by_cases hts : t = s
          · subst hts
            rw [hnew] at hgt
            rw [List.getElem?_set_self hlt2] at hn
            cases hn
            cases hgt
            exact k
          · have hn0 := hn
            rw [List.getElem?_set_ne (Ne.symm hts)] at hn0
            rcases Nat.lt_or_ge t h.length with hlt | hge
            · rw [List.getElem?_append_left hlt] at hn0
              rw [gradOf_congr hg hf hn0 hn] at hgt
              exact hi t n hn0 g hgt
            · have : t = h.length := by have := getElem?_lt hn0; simp at this; omega
              subst this
              simp at hn0
              subst hn0
              rw [gradOf_none hn rfl] at hgt
              cases hgt
        rw [key]
        refine ⟨?_, fun k => by_contra fun h0 =>
          k (.more s c m.val gn.val _ (by simp [dataOf, hm]) (by simp [dataOf, hgn]) hold h0)⟩
        rintro h0 (_ | _ | ⟨_, _, a, b, ha, hb, hp, -⟩ | ⟨_, _, a, b, p, ha, hb, -, hne⟩)
        · rw [hold] at hp
          cases hp
        · rw [hdat hm ha, hdat hgn hb] at hne
          exact hne h0
    case zeroGrad s =>
      refine ⟨fun _ => (by rintro ⟨⟩), fun _ => ?_⟩
      obtain ⟨m, hm, rfl⟩ := zeroGrad_inv e
      rw [gradShapesFit_iff]
      intro t n hn g hgt
      by_cases hts : t = s
      · subst hts
        rw [List.getElem?_set_self (getElem?_lt hm)] at hn
        cases hn
        rw [gradOf_none (List.getElem?_set_self (getElem?_lt hm)) rfl] at hgt
        cases hgt
      · have hn0 := hn
        rw [List.getElem?_set_ne (Ne.symm hts)] at hn0
        rw [gradOf_congr hg hf hn0 hn] at hgt
        exact hi t n hn0 g hgt
    case backward l =>
      refine ⟨fun _ => (by rintro ⟨⟩), fun _ => ?_⟩
      rw [gradShapesFit_iff]
      intro t n hn g hgt
      obtain ⟨_, d, us, _, _, _, u1, a1⟩ := backward_inv hg e
      rcases Nat.lt_or_ge t h.length with hlt | hge
      · have hn0 := List.getElem?_eq_getElem hlt
        obtain ⟨gr, hgr⟩ := hf.get hn0
        rw [hn] at hgr
        have hval : n.val = h[t].val := by cases hgr; rfl
        rw [hval]
        exact gradAccum_shape (fun c hc => (gradContribs_shape u1 hn0 c hc).1) (hi t _ hn0) (applyUpdates_grad hg hlt a1) g hgt
      · have hnew := applyUpdates_newer (c := h.length) (Nat.le_refl _) (fun u hu => by
          obtain ⟨m, hm, _⟩ := jvpUpdates_shape u1 u hu
          exact getElem?_lt hm) (fun t n ht hn => by have := getElem?_lt hn; omega) a1 t n hge hn
        rw [gradOf_none hn hnew] at hgt
        cases hgt

end RL
