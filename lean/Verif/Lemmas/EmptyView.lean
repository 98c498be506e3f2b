import Verif.Lemmas.Views

/-! Helper lemmas: views with empty ranges -/

namespace RL

open Spec

variable {T : Type}

theorem idxR_congr {α : Type} {a b : List α} {i : Nat} (h : a[i]? = b[i]?) : idxR a i = idxR b i := by
  simp [idxR, h]

/-- the ranges of length-1 dimensions are not looked at -/
theorem globalIndexLoop_congr (sl : Nat) (o1 o2 : List SliceRange) : ∀ (ps : List (Nat × Nat)) (n g mu : Nat),
    (∀ k d i, ps[k]? = some (d, i) → d ≠ 1 → o1[sl - (n + k) - 1]? = o2[sl - (n + k) - 1]?) →
    globalIndexLoop sl (some o1) ps n g mu = globalIndexLoop sl (some o2) ps n g mu := by
  intro ps
  induction ps with
  | nil => intro n g mu _; rfl
  | cons p ps ih =>
    obtain ⟨d, i⟩ := p
    intro n g mu h
    have ih' : ∀ g mu, globalIndexLoop sl (some o1) ps (n + 1) g mu = globalIndexLoop sl (some o2) ps (n + 1) g mu := by
      intro g mu
      refine ih (n + 1) g mu fun k d i hk hd => ?_
      rw [show n + 1 + k = n + (k + 1) by omega]
      exact h (k + 1) d i (by simpa using hk) hd
    simp only [globalIndexLoop]
    split
    · exact ih' _ _
    · rename_i hd
      rw [idxR_congr (show o1[sl - n - 1]? = o2[sl - n - 1]? from h 0 d i rfl hd)]
      simp only [ih']

/-- an empty range of another dimension makes every read fail -/
theorem globalIndexLoop_empty (sl : Nat) (o : List SliceRange) : ∀ (ps : List (Nat × Nat)) (n g mu k d i : Nat) (r : SliceRange),
    ps[k]? = some (d, i) → d ≠ 1 → o[sl - (n + k) - 1]? = some r → r.stop = r.start →
    (∃ e, globalIndexLoop sl (some o) ps n g mu = R.err e) ∨ ∃ p, p ≠ .diverge ∧ globalIndexLoop sl (some o) ps n g mu = R.panic p := by
  intro ps
  induction ps with
  | nil => intro n g mu k d i r h; simp at h
  | cons p ps ih =>
    obtain ⟨d', i'⟩ := p
    intro n g mu k d i r hk hd ho hr
    cases k with
    | zero =>
      simp only [List.getElem?_cons_zero, Option.some.injEq, Prod.mk.injEq] at hk
      obtain ⟨rfl, rfl⟩ := hk
      refine Or.inl ⟨.viewBounds, ?_⟩
      simp only [globalIndexLoop]
      rw [if_neg hd]
      have h1 : idxR o (sl - n - 1) = .ok r := idxR_eq_ok.2 ho
      rw [h1]
      simp [subR, hr]
    | succ k =>
      have ih' : ∀ g mu, (∃ e, globalIndexLoop sl (some o) ps (n + 1) g mu = R.err e) ∨
          ∃ p, p ≠ .diverge ∧ globalIndexLoop sl (some o) ps (n + 1) g mu = R.panic p := by
        intro g mu
        exact ih (n + 1) g mu k d i r (by simpa using hk) hd (by rw [← ho]; congr 2; omega) hr
      simp only [globalIndexLoop]
      split
      · exact ih' _ _
      · cases h1 : idxR o (sl - n - 1) with
        | error e =>
          simp only [idxR] at h1
          split at h1
          · cases h1
          · cases h1
            exact Or.inr ⟨.index, by simp, rfl⟩
        | ok r' =>
          cases h2 : subR r'.stop r'.start with
          | error e =>
            simp only [subR] at h2
            split at h2
            · cases h2
            · cases h2
              exact Or.inr ⟨.overflow, by simp, by simp [subR, *]; rfl⟩
          | ok len =>
            simp only [R.bind_ok, h2, R.pure_eq]
            split
            · exact Or.inl ⟨_, rfl⟩
            · split
              · exact Or.inl ⟨_, rfl⟩
              · exact ih' _ _

theorem reverse_zip_getElem? {a b : List Nat} {k : Nat} (hk : k < a.length) (hb : a.length ≤ b.length) :
    ∃ i, (a.reverse.zip b.reverse)[k]? = some (a[a.length - 1 - k], i) := by
  have h2 : k < b.reverse.length := by simp; omega
  refine ⟨b.reverse[k], ?_⟩
  rw [List.getElem?_zip_eq_some]
  refine ⟨?_, List.getElem?_eq_getElem h2⟩
  rw [List.getElem?_reverse hk]
  exact List.getElem?_eq_getElem _

theorem widen_get {v : View T} (hv : ViewOk v) (h1 : List.Forall₂ (fun r d => r.stop = r.start → d = 1) v.offset v.tensor.shape)
    (idx : List Nat) : (widen v).get idx = v.get idx := by
  have h : globalIndex idx v.tensor.shape (some (widen v).offset) = globalIndex idx v.tensor.shape (some v.offset) := by
    simp only [globalIndex]
    split
    · rfl
    · refine globalIndexLoop_congr _ _ _ _ _ _ _ fun k d i hk hd => ?_
      rw [List.getElem?_zip_eq_some] at hk
      have hk1 : k < v.tensor.shape.length := by
        have := (List.getElem?_eq_some_iff.1 hk.1).1
        simpa using this
      have hk2 := hk.1
      rw [List.getElem?_reverse hk1] at hk2
      rw [Nat.zero_add, show v.tensor.shape.length - k - 1 = v.tensor.shape.length - 1 - k by omega]
      obtain ⟨hl, hk3⟩ := List.getElem?_eq_some_iff.1 hk2
      have hl' : v.tensor.shape.length - 1 - k < v.offset.length := by rw [h1.length_eq]; exact hl
      have h2 := (List.forall₂_iff_get.1 h1).2 _ hl' hl
      simp only [List.get_eq_getElem, hk3] at h2
      simp only [widen, List.getElem?_map, List.getElem?_eq_getElem hl', Option.map_some]
      rw [if_neg fun h => hd (h2 h)]
  simp only [View.get]
  rw [show (widen v).tensor = v.tensor from rfl, h]

theorem widen_ok {v : View T} (hv : ViewOk v) (h1 : List.Forall₂ (fun r d => r.stop = r.start → d = 1) v.offset v.tensor.shape) :
    ViewOk (widen v) ∧ Pos (widen v).shape := by
  refine ⟨⟨hv.1, ?_, ?_⟩, ?_⟩
  · have h2 := hv.2.1
    simp only [RangesFit, widen] at h2 ⊢
    generalize v.offset = o at *
    generalize v.tensor.shape = s at *
    induction h2 with
    | nil => exact .nil
    | cons h h' ih =>
      rename_i r d _ _
      cases h1 with
      | cons g g' =>
        refine .cons ?_ (ih g')
        simp only []
        split
        · rename_i he
          have := g he
          subst this
          exact ⟨by simp, le_rfl⟩
        · exact h
  · have h2 := hv.2.1
    simp only [RangesFit, widen, hv.2.2, List.map_map] at h2 ⊢
    refine List.map_congr_left fun r hr => ?_
    have h3 : r.start ≤ r.stop := by
      obtain ⟨k, hk, rfl⟩ := List.mem_iff_getElem.1 hr
      exact ((List.forall₂_iff_get.1 h2).2 k hk (by rw [← h2.length_eq]; exact hk)).1
    simp only [Function.comp]
    split
    · simp only []
      omega
    · omega
  · intro d hd
    simp only [widen, List.mem_map] at hd
    obtain ⟨n, _, rfl⟩ := hd
    omega

theorem zipLongestMax_widen : ∀ (a b : List Nat), Pos a → Pos (b.drop a.length) → zipLongestMax a (b.map (max 1)) = zipLongestMax a b
  | [], b, _, hb => by
    simp only [zipLongestMax]
    conv_rhs => rw [← List.map_id b]
    refine List.map_congr_left fun d hd => ?_
    have := hb d (by simpa using hd)
    simp only [id]
    omega
  | x :: a, [], _, _ => rfl
  | x :: a, y :: b, ha, hb => by
    simp only [List.map_cons, zipLongestMax]
    rw [zipLongestMax_widen a b (fun d hd => ha d (by simp [hd])) (by simpa using hb)]
    have := ha x (by simp)
    congr 1
    omega

theorem zipLongestMax_drop : ∀ (a b : List Nat), Pos (zipLongestMax a b) → Pos (b.drop a.length)
  | [], b, h => by simpa [zipLongestMax] using h
  | x :: a, [], _ => by simp [Pos]
  | x :: a, y :: b, h => by
    simp only [List.length_cons, List.drop_succ_cons]
    exact zipLongestMax_drop a b fun d hd => h d (by simp [zipLongestMax, hd])

theorem maxShape_widen {l r : List Nat} (hl : Pos l) (hr : Pos (r.take (r.length - l.length))) :
    maxShape l (r.map (max 1)) = maxShape l r := by
  simp only [maxShape, ← List.map_reverse]
  rw [zipLongestMax_widen]
  · exact fun d hd => hl d (by simpa using hd)
  · intro d hd
    refine hr d ?_
    rw [List.length_reverse, List.drop_reverse] at hd
    simpa using hd

theorem maxShape_take {l r : List Nat} (h : Pos (maxShape l r)) : Pos (r.take (r.length - l.length)) := by
  intro d hd
  refine zipLongestMax_drop l.reverse r.reverse (fun d hd => h d (by simpa [maxShape] using hd)) d ?_
  rw [List.length_reverse, List.drop_reverse]
  simpa using hd

theorem compatible_widen {l r : List Nat} (hl : Pos l) (h : Compatible l r) : Compatible l (r.map (max 1)) := by
  rw [compat_iff] at h ⊢
  rw [← List.map_reverse]
  have hl' : Pos l.reverse := fun d hd => hl d (by simpa using hd)
  generalize l.reverse = a at *
  generalize r.reverse = b at *
  clear hl
  induction a generalizing b with
  | nil => simp [CompatR]
  | cons x a ih =>
    cases b with
    | nil => simp [CompatR]
    | cons y b =>
      simp only [List.map_cons, CompatR] at h ⊢
      have := hl' x (by simp)
      exact ⟨by omega, ih (fun d hd => hl' d (by simp [hd])) b h.2⟩

/-- reading a view with an empty range of a dimension other than 1 panics -/
theorem View.get_empty {v : View T} (hv : ViewOk v) (h1 : ¬ List.Forall₂ (fun r d => r.stop = r.start → d = 1) v.offset v.tensor.shape)
    {idx : List Nat} (hl : v.tensor.shape.length ≤ idx.length) : ∃ p, p ≠ .diverge ∧ v.get idx = R.panic p := by
  have hlen := hv.2.1.length_eq
  rw [List.forall₂_iff_get] at h1
  have : ∃ k, ∃ a : k < v.offset.length, ∃ b : k < v.tensor.shape.length, v.offset[k].stop = v.offset[k].start ∧ v.tensor.shape[k] ≠ 1 := by
    by_contra hc
    push Not at hc
    exact h1 ⟨hlen, fun k a b => hc k a b⟩
  obtain ⟨k, a, b, h2, h3⟩ := this
  obtain ⟨i, hi⟩ := reverse_zip_getElem? (a := v.tensor.shape) (b := idx) (k := v.tensor.shape.length - 1 - k) (by omega) hl
  have hk : v.tensor.shape.length - 1 - (v.tensor.shape.length - 1 - k) = k := by omega
  simp only [hk] at hi
  have h4 := globalIndexLoop_empty v.tensor.shape.length v.offset _ 0 0 1 _ _ i v.offset[k] hi h3
    (by rw [Nat.zero_add, show v.tensor.shape.length - (v.tensor.shape.length - 1 - k) - 1 = k by omega]; exact List.getElem?_eq_getElem a) h2
  simp only [View.get, globalIndex]
  rw [if_neg (by omega)]
  rcases h4 with ⟨e, he⟩ | ⟨p, hp, he⟩
  · rw [he]
    exact ⟨.unwrap, by simp, rfl⟩
  · rw [he]
    exact ⟨p, hp, rfl⟩

theorem zip_replicate (a : List Nat) {n : Nat} (h : a.length ≤ n) : a.zip (List.replicate n 0) = a.zip (List.replicate a.length 0) := by
  induction a generalizing n with
  | nil => simp
  | cons x a ih =>
    cases n with
    | zero => simp at h
    | succ n =>
      simp only [List.length_cons, List.replicate_succ, List.zip_cons_cons]
      rw [ih (by simpa using h)]

theorem view_get_zeros {v : View T} (hv : ViewOk v) (hp : Pos v.shape) {n : Nat} (hn : v.shape.length ≤ n) :
    ∃ x, v.get (List.replicate n 0) = .ok x := by
  have hlen : v.shape.length = v.tensor.shape.length := by rw [hv.2.2, List.length_map, hv.2.1.length_eq]
  have h1 : v.get (List.replicate n 0) = v.get (List.replicate v.shape.length 0) := by
    simp only [View.get, globalIndex, List.length_replicate]
    rw [if_neg (by omega), if_neg (by omega), List.reverse_replicate, List.reverse_replicate]
    rw [zip_replicate _ (by simp; omega), zip_replicate (v.tensor.shape.reverse) (n := v.shape.length) (by simp; omega)]
  rw [h1]
  obtain ⟨x, _, hx⟩ := View.get_ok hv (idx := List.replicate v.shape.length 0) (by
    generalize v.shape = s at hp
    induction s with
    | nil => exact .nil
    | cons d s ih => exact .cons (hp d (by simp)) (ih fun e he => hp e (by simp [he])))
  exact ⟨x, hx⟩

/-- an addition panics if the first iteration of its loop does not succeed -/
theorem addRaw_first [Zero T] [Add T] (l r : TL T)
    (hp : ∃ p, p ≠ Panic.diverge ∧ (do
      let a ← unwrapR (l.get (List.replicate (maxShape l.shape r.shape).length 0))
      let b ← unwrapR (r.get (List.replicate (maxShape l.shape r.shape).length 0))
      unwrapR ((Raw.newWithFiller (maxShape l.shape r.shape) (0 : T)).set
        (List.replicate (maxShape l.shape r.shape).length 0) (a + b))) = .error (.panic p)) : Panics (addRaw l r) := by
  unfold addRaw genericBinopRaw
  by_cases hb : l.broadcastable r.shape = true
  swap
  · have : l.broadcastable r.shape = false := by simpa using hb
    exact ⟨.assert, by rw [this]; rfl, by simp⟩
  rw [hb]
  simp only [assertR_true, R.bind_ok]
  obtain ⟨p, hp, hk⟩ := hp
  exact ⟨p, forIndices_first _ _ _ hk, hp⟩

theorem newWithFiller_set_zero [Zero T] {s : List Nat} (h : ¬ Pos s) {idx : List Nat} (hl : s.length ≤ idx.length) (x : T) :
    ∃ e, (Raw.newWithFiller s (0 : T)).set idx x = R.err e := by
  have hs : (Raw.newWithFiller s (0 : T)).shape = s := by
    simp only [Raw.newWithFiller]
    split <;> rfl
  obtain ⟨e, he⟩ := Raw.get_zero_dim (t := Raw.newWithFiller s (0 : T)) (by rw [hs]; exact h) (idx := idx) (by rw [hs]; exact hl)
  simp only [Raw.get, hs] at he
  cases hg : globalIndex idx s none with
  | error f =>
    rw [hg] at he
    refine ⟨e, ?_⟩
    cases he
    simp only [Raw.set, hs, hg]
    rfl
  | ok g =>
    rw [hg] at he
    simp only [R.bind_ok, idxR] at he
    split at he <;> cases he

end RL
