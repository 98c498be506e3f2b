import Verif.SpecNan
import Verif.Lemmas.WfOps
import Verif.Lemmas.Sgd
import Verif.Lemmas.Bmm
import Verif.Lemmas.Views
import Verif.Lemmas.Cost
import Verif.Lemmas.Adjoint
import Verif.Props.Elementwise
import Verif.Props.MatMul
import Verif.Props.Nn

/-!
# Lemmas for C79: elements that no operation removes
-/

namespace RL

open Spec

variable {T : Type}

theorem mem_array {v : Raw T} (hv : WF v) {x : T} (hx : x ∈ v.array) : ∃ idx, InRange v.shape idx ∧ Raw.elem? v idx = some x := by
  rw [← elems_raw hv] at hx
  simp only [elems, List.mem_filterMap] at hx
  obtain ⟨idx, h1, h2⟩ := hx
  exact ⟨idx, mem_allIndices.1 h1, h2⟩

theorem elem_mem {v : Raw T} {idx : List Nat} {x : T} (h : Raw.elem? v idx = some x) : x ∈ v.array :=
  List.mem_of_getElem? h

/-- every element of an operand is read by a broadcast operation -/
theorem bproj_surj {s o idx : List Nat} {b : List Nat} (ho : Pos o) (hi : InRange s idx)
    (hb : List.Forall₂ (fun d q => d = q.1 ∨ d = q.2 ∧ q.1 = 1) b ((padLeft (max s.length o.length) s).zip (padLeft (max s.length o.length) o))) :
    ∃ j, InRange b j ∧ bproj s j = idx := by
  refine ⟨List.replicate (max s.length o.length - s.length) 0 ++ idx, ?_, ?_⟩
  · have hp : Pos (padLeft (max s.length o.length) o) := by
      intro d hd
      simp only [padLeft, List.mem_append, List.mem_replicate] at hd
      rcases hd with ⟨_, rfl⟩ | hd
      · omega
      · exact ho d hd
    generalize hn : max s.length o.length = n at *
    have hj : InRange (padLeft n s) (List.replicate (n - s.length) 0 ++ idx) := by
      unfold padLeft InRange
      refine List.rel_append (R := fun d i => i < d) ?_ hi
      rw [List.forall₂_iff_get]
      simp
    have hlen : (padLeft n s).length = (padLeft n o).length := by
      rw [padLeft_length (by omega), padLeft_length (by omega)]
    generalize padLeft n s = s' at *
    generalize padLeft n o = o' at *
    generalize (List.replicate (n - s.length) 0 ++ idx) = j at *
    clear hn hi ho
    induction hj generalizing b o' with
    | nil =>
      cases b with
      | nil => exact .nil
      | cons d b => simp at hb
    | @cons d i s' j h1 h2 ih =>
      cases o' with
      | nil => simp at hlen
      | cons e o' =>
        cases b with
        | nil => simp at hb
        | cons c b =>
          simp only [List.zip_cons_cons, List.forall₂_cons] at hb
          refine .cons ?_ (ih o' (fun d hd => hp d (by simp [hd])) hb.2 (by simpa using hlen))
          have := hp e (by simp)
          rcases hb.1 with h | ⟨h, h'⟩
          · omega
          · omega
  · have hl := hi.length
    unfold bproj
    have : alignRight s.length (List.replicate (max s.length o.length - s.length) 0 ++ idx) = idx := by
      unfold alignRight
      simp only [List.length_append, List.length_replicate]
      rw [show s.length - (max s.length o.length - s.length + idx.length) = 0 by omega, List.replicate_zero, List.nil_append,
        List.drop_left' (by simp; omega)]
    rw [this]
    have := bproj_of_inRange hi
    unfold bproj at this
    rwa [alignRight_of_length hl] at this

theorem bshape_left {l r : List Nat} (hc : Compatible l r) :
    List.Forall₂ (fun d q => d = q.1 ∨ d = q.2 ∧ q.1 = 1) (bshape l r)
      ((padLeft (max l.length r.length) l).zip (padLeft (max l.length r.length) r)) := by
  unfold Compatible at hc
  unfold bshape
  generalize padLeft (max l.length r.length) l = l' at *
  generalize padLeft (max l.length r.length) r = r' at *
  induction hc with
  | nil => exact .nil
  | @cons a b l r h1 h2 ih =>
    simp only [List.zipWith_cons_cons, List.zip_cons_cons]
    refine .cons ?_ ih
    by_cases h : a = 1
    · simp [h]
    · simp [h]

theorem bshape_right {l r : List Nat} (hc : Compatible l r) :
    List.Forall₂ (fun d q => d = q.1 ∨ d = q.2 ∧ q.1 = 1) (bshape l r)
      ((padLeft (max r.length l.length) r).zip (padLeft (max r.length l.length) l)) := by
  rw [max_comm r.length]
  unfold Compatible at hc
  unfold bshape
  generalize padLeft (max l.length r.length) l = l' at *
  generalize padLeft (max l.length r.length) r = r' at *
  induction hc with
  | nil => exact .nil
  | @cons a b l r h1 h2 ih =>
    simp only [List.zipWith_cons_cons, List.zip_cons_cons]
    refine .cons ?_ ih
    by_cases h : a = 1
    · simp [h]
    · rcases h1 with h1 | h1 | h1 <;> simp_all

section
variable [Zero T] [One T] [Add T] [Mul T] [Sub T] [Neg T] [LT T] [DecidableLT T] [LE T] [DecidableLE T] [RealFn T] {Bad : T → Prop}

theorem foldl_bad_acc (hB : Absorbing Bad) {α : Type} (f : α → T) : ∀ (xs : List α) (acc : T), Bad acc → Bad (xs.foldl (fun a x => a + f x) acc)
  | [], _, h => h
  | x :: xs, acc, h => foldl_bad_acc hB f xs _ (hB.add_left _ _ h)

/-- a sum with a bad summand is bad -/
theorem foldl_bad (hB : Absorbing Bad) {α : Type} (f : α → T) : ∀ (xs : List α) (acc : T) (x : α), x ∈ xs → Bad (f x) →
    Bad (xs.foldl (fun a x => a + f x) acc)
  | [], _, _, h, _ => by simp at h
  | y :: xs, acc, x, h, hx => by
    rcases List.mem_cons.1 h with rfl | h
    · exact foldl_bad_acc hB f xs _ (hB.add_right _ _ hx)
    · exact foldl_bad hB f xs _ x h hx

theorem get_elem {v : Raw T} {idx : List Nat} {x : T} (hi : InRange v.shape idx) (h : v.get idx = .ok x) : Raw.elem? v idx = some x := by
  rw [Raw.get_inRange hi] at h
  simp only [idxR] at h
  split at h
  · next hv =>
    cases h
    exact hv
  · simp [R.panic] at h

theorem unary_plain {t v : Raw T} (ht : Plain t) {f : T → T} (e : genericUnaryOp (.raw t) f = .ok v) :
    v = ⟨t.array.map f, t.shape⟩ ∧ Plain v := by
  have := genericUnaryOp_eq (x := .raw t) ht.1 (Or.inl ⟨t, rfl⟩) f
  rw [elems_raw ht.1, e] at this
  cases this
  exact ⟨rfl, by simpa [WF] using ht.1, ht.2⟩

theorem unary_bad {t v : Raw T} (ht : Plain t) {f : T → T} (hf : ∀ x, Bad x → Bad (f x)) (e : genericUnaryOp (.raw t) f = .ok v) :
    Plain v ∧ (Poisoned Bad t → Poisoned Bad v) := by
  obtain ⟨rfl, h2⟩ := unary_plain ht e
  refine ⟨h2, ?_⟩
  rintro ⟨x, hx, hb⟩
  exact ⟨f x, List.mem_map_of_mem hx, hf x hb⟩

theorem add_bad (hB : Absorbing Bad) {t u v : Raw T} (ht : Plain t) (hu : Plain u) (e : addRaw (.raw t) (.raw u) = .ok v) :
    Plain v ∧ (Poisoned Bad t ∨ Poisoned Bad u → Poisoned Bad v) := by
  obtain ⟨hc, hs, hw, h3⟩ := genericBinopRaw_inv (l := .raw t) (r := .raw u) ht.1 hu.1 ht.2.1 hu.2.1 e
  obtain ⟨hm, _⟩ := genericBinopRaw_post _ _ _ v e
  simp only [TL.shape] at hc hs hm h3
  refine ⟨⟨hw, by rw [hm]; exact maxShape_pos ht.2.1 hu.2.1, ?_⟩, ?_⟩
  · rw [hm, maxShape_length]
    have := ht.2.2
    have := hu.2.2
    omega
  · rintro (⟨x, hx, hb⟩ | ⟨x, hx, hb⟩)
    · obtain ⟨idx, hi, he⟩ := mem_array ht.1 hx
      obtain ⟨j, hj, rfl⟩ := bproj_surj hu.2.1 hi (bshape_left hc)
      rw [← hs] at hj
      obtain ⟨a, b, ha, _, hv⟩ := h3 j hj
      simp only [elem?] at ha
      rw [he] at ha
      cases ha
      exact ⟨_, elem_mem hv, hB.add_left _ _ hb⟩
    · obtain ⟨idx, hi, he⟩ := mem_array hu.1 hx
      obtain ⟨j, hj, rfl⟩ := bproj_surj ht.2.1 hi (bshape_right hc)
      rw [← hs] at hj
      obtain ⟨a, b, _, ha, hv⟩ := h3 j hj
      simp only [elem?] at ha
      rw [he] at ha
      cases ha
      exact ⟨_, elem_mem hv, hB.add_right _ _ hb⟩

theorem sum_bad (hB : Absorbing Bad) {t v : Raw T} (ht : Plain t) (e : (TL.raw t).sum = .ok v) :
    Plain v ∧ (Poisoned Bad t → Poisoned Bad v) := by
  rw [C16_sum (.raw t) ht.1 (Or.inl ⟨t, rfl⟩), elems_raw ht.1] at e
  cases e
  refine ⟨⟨rfl, by simp [Pos], by simp⟩, ?_⟩
  rintro ⟨x, hx, hb⟩
  exact ⟨_, List.mem_singleton.2 rfl, foldl_bad hB (fun x => x) _ _ x hx hb⟩

theorem dot_bad (hB : Absorbing Bad) {t u v : Raw T} (ht : Plain t) (hu : Plain u) (e : dotRaw (.raw t) (.raw u) = .ok v) :
    Plain v ∧ (Poisoned Bad t ∨ Poisoned Bad u → Poisoned Bad v) := by
  obtain ⟨h1, h2⟩ := C17_dot_partial t u ht.1 hu.1
  by_cases hs : t.shape = u.shape
  · rw [h1 hs] at e
    cases e
    have hl : t.array.length = u.array.length := by rw [ht.1, hu.1, hs]
    refine ⟨⟨rfl, by simp [Pos], by simp⟩, ?_⟩
    have key : ∀ i (hi : i < t.array.length), Bad (t.array[i] * u.array[i]) →
        Poisoned Bad ⟨[(List.zipWith (· * ·) t.array u.array).foldl (· + ·) 0], [1]⟩ := by
      intro i hi hb
      refine ⟨_, List.mem_singleton.2 rfl, foldl_bad hB (fun x => x) _ _ (t.array[i] * u.array[i]) ?_ hb⟩
      exact List.mem_iff_getElem.2 ⟨i, by simp; omega, by simp⟩
    rintro (⟨x, hx, hb⟩ | ⟨x, hx, hb⟩)
    · obtain ⟨i, hi, rfl⟩ := List.mem_iff_getElem.1 hx
      exact key i hi (hB.mul_left _ _ hb)
    · obtain ⟨i, hi, rfl⟩ := List.mem_iff_getElem.1 hx
      exact key i (by omega) (hB.mul_right _ _ hb)
  · obtain ⟨p, hp, _⟩ := h2 hs
    rw [hp] at e
    cases e

theorem bmm_bad (hB : Absorbing Bad) {t u v : Raw T} (ht : Plain t) (hu : Plain u) (e : bmmRaw (.raw t) (.raw u) = .ok v) :
    Plain v ∧ (Poisoned Bad t ∨ Poisoned Bad u → Poisoned Bad v) := by
  have hrej : ¬ (t.shape.length < 2 ∨ u.shape.length ≠ 2 ∨ t.shape.getLast? ≠ u.shape.head?) := by
    intro h
    obtain ⟨p, hp, _⟩ := C20_rejects (.raw t) (.raw u) h
    rw [hp] at e
    cases e
  simp only [not_or, not_lt, not_not, ne_eq] at hrej
  obtain ⟨h2, hu2, hin⟩ := hrej
  obtain ⟨k, n, hus⟩ : ∃ k n, u.shape = [k, n] := by
    match h : u.shape, hu2 with
    | [k, n], _ => exact ⟨k, n, rfl⟩
  have hpu := hu.2.1
  rw [hus] at hpu hin
  have pn : 0 < n := hpu n (by simp)
  have ht3 := ht.2.2
  have hpt := ht.2.1
  match h : t.shape, h2, ht3 with
  | [m, k'], _, _ =>
    rw [h] at hin hpt
    have hk : k' = k := by simpa using hin
    subst hk
    have pm : 0 < m := hpt m (by simp)
    obtain ⟨v', h1, hs, hw, a, b, ha, hb, hv⟩ := C18_matrix (.raw t) (.raw u) ht.1 hu.1 m k' n h hus
    rw [e] at h1
    cases h1
    refine ⟨⟨hw, by rw [hs]; intro d hd; simp at hd; omega, by simp [hs]⟩, ?_⟩
    have get : ∀ i j, i < m → j < n → Bad ((List.range k').foldl (fun acc kk => acc + a i kk * b kk j) 0) → Poisoned Bad v := by
      intro i j hi hj hB
      exact ⟨_, elem_mem (get_elem (by rw [hs]; exact inRange2.2 ⟨hi, hj⟩) (hv i j hi hj)), hB⟩
    rintro (⟨x, hx, hb'⟩ | ⟨x, hx, hb'⟩)
    · obtain ⟨idx, hi, he⟩ := mem_array ht.1 hx
      rw [h] at hi
      match idx, hi with
      | [i, kk], .cons hi (.cons hk .nil) =>
        have := ha i kk hi hk
        simp only [elem?] at this
        rw [he] at this
        cases this
        exact get i 0 hi pn (foldl_bad hB (fun kk => a i kk * b kk 0) _ _ kk (List.mem_range.2 hk) (hB.mul_left _ _ hb'))
    · obtain ⟨idx, hi, he⟩ := mem_array hu.1 hx
      rw [hus] at hi
      match idx, hi with
      | [kk, j], .cons hk (.cons hj .nil) =>
        have := hb kk j hk hj
        simp only [elem?] at this
        rw [he] at this
        cases this
        exact get 0 j pm hj (foldl_bad hB (fun kk => a 0 kk * b kk j) _ _ kk (List.mem_range.2 hk) (hB.mul_right _ _ hb'))
  | [p, m, k'], _, _ =>
    rw [h] at hin hpt
    have hk : k' = k := by simpa using hin
    subst hk
    have pp : 0 < p := hpt p (by simp)
    have pm : 0 < m := hpt m (by simp)
    obtain ⟨v', h1, hs, hw, a, b, ha, hb, hv⟩ := C18_batched (.raw t) (.raw u) ht.1 hu.1 p m k' n h hus
    rw [e] at h1
    cases h1
    refine ⟨⟨hw, by rw [hs]; intro d hd; simp at hd; omega, by simp [hs]⟩, ?_⟩
    have get : ∀ q i j, q < p → i < m → j < n → Bad ((List.range k').foldl (fun acc kk => acc + a q i kk * b kk j) 0) → Poisoned Bad v := by
      intro q i j hq hi hj hB
      exact ⟨_, elem_mem (get_elem (by rw [hs]; exact .cons hq (.cons hi (.cons hj .nil))) (hv q i j hq hi hj)), hB⟩
    rintro (⟨x, hx, hb'⟩ | ⟨x, hx, hb'⟩)
    · obtain ⟨idx, hi, he⟩ := mem_array ht.1 hx
      rw [h] at hi
      match idx, hi with
      | [q, i, kk], .cons hq (.cons hi (.cons hk .nil)) =>
        have := ha q i kk hq hi hk
        simp only [elem?] at this
        rw [he] at this
        cases this
        exact get q i 0 hq hi pn (foldl_bad hB (fun kk => a q i kk * b kk 0) _ _ kk (List.mem_range.2 hk) (hB.mul_left _ _ hb'))
    · obtain ⟨idx, hi, he⟩ := mem_array hu.1 hx
      rw [hus] at hi
      match idx, hi with
      | [kk, j], .cons hk (.cons hj .nil) =>
        have := hb kk j hk hj
        simp only [elem?] at this
        rw [he] at this
        cases this
        exact get 0 0 j pp pm hj (foldl_bad hB (fun kk => a 0 0 kk * b kk j) _ _ kk (List.mem_range.2 hk) (hB.mul_right _ _ hb'))

/-- every recorded operation keeps bad elements -/
theorem fwd_bad (hB : Absorbing Bad) {k : JvpKind} {vs : List (Raw T)} {v : Raw T} (hp : ∀ u ∈ vs, Plain u) (e : fwd k vs = .ok v) :
    Plain v ∧ ∀ u ∈ vs, Poisoned Bad u → Poisoned Bad v := by
  have two : ∀ {a b : Raw T} {P : Prop}, P ∧ (Poisoned Bad a ∨ Poisoned Bad b → Poisoned Bad v) →
      P ∧ ∀ u ∈ [a, b], Poisoned Bad u → Poisoned Bad v := by
    rintro a b P ⟨h1, h2⟩
    refine ⟨h1, fun u hu hb => h2 ?_⟩
    simp only [List.mem_cons, List.not_mem_nil, or_false] at hu
    rcases hu with rfl | rfl
    · exact Or.inl hb
    · exact Or.inr hb
  have one : ∀ {a : Raw T} {P : Prop}, P ∧ (Poisoned Bad a → Poisoned Bad v) → P ∧ ∀ u ∈ [a], Poisoned Bad u → Poisoned Bad v := by
    rintro a P ⟨h1, h2⟩
    refine ⟨h1, fun u hu hb => h2 ?_⟩
    simp only [List.mem_cons, List.not_mem_nil, or_false] at hu
    subst hu
    exact hb
  unfold fwd at e
  split at e
  · exact two (add_bad hB (hp _ (by simp)) (hp _ (by simp)) e)
  · exact one (unary_bad (hp _ (by simp)) hB.neg e)
  · refine one (unary_bad (hp _ (by simp)) (fun x hx => ?_) e)
    unfold reluFn
    rw [if_neg (hB.not_neg x hx)]
    exact hx
  · exact one (unary_bad (hp _ (by simp)) hB.abs e)
  · exact one (unary_bad (hp _ (by simp)) hB.tanh e)
  · exact one (sum_bad hB (hp _ (by simp)) e)
  · exact two (bmm_bad hB (hp _ (by simp)) (hp _ (by simp)) e)
  · exact two (dot_bad hB (hp _ (by simp)) (hp _ (by simp)) e)
  · simp [R.panic] at e

/-! ### computations -/

theorem fwd_plain {k : JvpKind} {vs : List (Raw T)} {v : Raw T} (hp : ∀ u ∈ vs, Plain u) (e : fwd k vs = .ok v) : Plain v :=
  (fwd_bad (Bad := fun _ => False) ⟨fun _ _ h => h, fun _ _ h => h, fun _ _ h => h, fun _ _ h => h, fun _ h => h, fun _ h => h, fun _ h => h,
    fun _ h => h.elim⟩ hp e).1

theorem vals_mem {h : Heap T} {is : List Nat} {vs : List (Raw T)} (e : h.vals is = .ok vs) :
    (∀ u ∈ vs, ∃ i ∈ is, dataOf h i = some u) ∧ ∀ i ∈ is, ∃ u ∈ vs, dataOf h i = some u := by
  have hf := Heap.vals_eq_ok.1 e
  induction hf with
  | nil => simp
  | @cons i v is vs h1 h2 ih =>
    obtain ⟨ih1, ih2⟩ := ih (Heap.vals_eq_ok.2 h2)
    obtain ⟨n, hn, rfl⟩ := h1
    have hd : dataOf h i = some n.val := by simp [dataOf, hn]
    refine ⟨fun u hu => ?_, fun j hj => ?_⟩
    · rcases List.mem_cons.1 hu with rfl | hu
      · exact ⟨i, by simp, hd⟩
      · obtain ⟨j, hj, h3⟩ := ih1 u hu
        exact ⟨j, by simp [hj], h3⟩
    · rcases List.mem_cons.1 hj with rfl | hj
      · exact ⟨_, by simp, hd⟩
      · obtain ⟨u, hu, h3⟩ := ih2 j hj
        exact ⟨u, by simp [hu], h3⟩

theorem feeds_step {h : Heap T} {i j l : Nat} {n : Node T} {d : Deriv} (hj : Feeds h j l) (hn : h[j]? = some n) (hd : n.gradFn = some d)
    (hi : i ∈ d.inputs) : Feeds h i l := by
  have : IsInput h i j := ⟨n, d, hn, hd, hi⟩
  rcases hj with rfl | hj
  · exact Or.inr (.single this)
  · exact Or.inr (.head this hj)

/-- if the tensors without history are plain, then all are -/
theorem plain_feeds {h : Heap T} (hg : h.Good) {l : Nat}
    (hp : ∀ i v, Feeds h i l → historyOf h i = some none → dataOf h i = some v → Plain v) :
    ∀ i v, Feeds h i l → dataOf h i = some v → Plain v := by
  intro i
  induction i using Nat.strong_induction_on with
  | _ i ih =>
    intro v hi hv
    simp only [dataOf, Option.map_eq_some_iff] at hv
    obtain ⟨n, hn, rfl⟩ := hv
    cases hd : n.gradFn with
    | none => exact hp i _ hi (by simp [historyOf, hn, hd]) (by simp [dataOf, hn])
    | some d =>
      obtain ⟨vs, h1, h2⟩ := (hg i n hn).explained d hd
      refine fwd_plain (fun u hu => ?_) h2
      obtain ⟨j, hj, h3⟩ := (vals_mem h1).1 u hu
      exact ih j ((hg i n hn).older d hd j hj) u (feeds_step hi hn hd hj) h3

theorem feeds_data {h : Heap T} (hg : h.Good) {a l : Nat} (ha : Ancestor h a l) : ∃ v, dataOf h l = some v := by
  cases ha with
  | single hb => obtain ⟨n, d, hn, _⟩ := hb; exact ⟨n.val, by simp [dataOf, hn]⟩
  | tail _ hb => obtain ⟨n, d, hn, _⟩ := hb; exact ⟨n.val, by simp [dataOf, hn]⟩

/-- what is computed from a tensor with a bad element has a bad element -/
theorem ancestor_bad (hB : Absorbing Bad) {h : Heap T} (hg : h.Good) {l a : Nat}
    (hp : ∀ i v, Feeds h i l → dataOf h i = some v → Plain v) (ha : Feeds h a l) {v w : Raw T} (hv : dataOf h a = some v)
    (hw : dataOf h l = some w) (hb : Poisoned Bad v) : Poisoned Bad w := by
  rcases ha with rfl | ha
  · rw [hv] at hw
    cases hw
    exact hb
  · induction ha generalizing w with
    | @single l h1 =>
      obtain ⟨n, d, hn, hd, hi⟩ := h1
      obtain ⟨vs, h1, h2⟩ := (hg l n hn).explained d hd
      obtain ⟨u, hu, h3⟩ := (vals_mem h1).2 a hi
      rw [hv] at h3
      cases h3
      simp only [dataOf, hn, Option.map_some, Option.some.injEq] at hw
      subst hw
      refine (fwd_bad hB (fun u hu => ?_) h2).2 _ hu hb
      obtain ⟨j, hj, h3⟩ := (vals_mem h1).1 u hu
      exact hp j u (Or.inr (.single ⟨n, d, hn, hd, hj⟩)) h3
    | @tail b l hab h1 ih =>
      obtain ⟨n, d, hn, hd, hi⟩ := id h1
      obtain ⟨vs, h4, h2⟩ := (hg l n hn).explained d hd
      obtain ⟨u, hu, h3⟩ := (vals_mem h4).2 b hi
      simp only [dataOf, hn, Option.map_some, Option.some.injEq] at hw
      subst hw
      refine (fwd_bad hB (fun u hu => ?_) h2).2 _ hu (ih (fun i v hi hv => ?_) h3)
      · obtain ⟨j, hj, h3⟩ := (vals_mem h4).1 u hu
        exact hp j u (Or.inr (.single ⟨n, d, hn, hd, hj⟩)) h3
      · refine hp i v ?_ hv
        rcases hi with rfl | hi
        · exact Or.inr (.single h1)
        · exact Or.inr (hi.tail h1)

/-! ### training -/

/-- the tensor has a bad element -/
def BadAt (Bad : T → Prop) (h : Heap T) (i : Nat) : Prop := ∃ v, dataOf h i = some v ∧ Poisoned Bad v

theorem frame_keeps {h h' : Heap T} (hf : Frame h h') {i : Nat} {v : Raw T} (hv : dataOf h i = some v) : dataOf h' i = some v := by
  simp only [dataOf, Option.map_eq_some_iff] at hv
  obtain ⟨n, hn, rfl⟩ := hv
  obtain ⟨g, hg⟩ := hf.get hn
  simp [dataOf, hg]

theorem BadAt.frame {h h' : Heap T} (hf : Frame h h') {i : Nat} (hb : BadAt Bad h i) : BadAt Bad h' i := by
  obtain ⟨v, hv, hb⟩ := hb
  exact ⟨v, frame_keeps hf hv, hb⟩

theorem allPlain_append {h : Heap T} (hw : AllPlain h) {n : Node T} (hn : Plain n.val) : AllPlain (h ++ [n]) := by
  intro i v hv
  simp only [dataOf, Option.map_eq_some_iff] at hv
  obtain ⟨m, hm, rfl⟩ := hv
  rcases Nat.lt_or_ge i h.length with hi | hi
  · rw [List.getElem?_append_left hi] at hm
    exact hw i m.val (by simp [dataOf, hm])
  · rw [List.getElem?_append_right hi] at hm
    obtain ⟨_, rfl⟩ := List.getElem?_eq_some_iff.1 hm
    simpa using hn

theorem allPlain_set {h : Heap T} (hw : AllPlain h) {t : Nat} {n : Node T} (hn : h[t]? = some n) (g : Option Nat) :
    AllPlain (h.set t { n with grad := g }) := by
  intro i v hv
  simp only [dataOf, Option.map_eq_some_iff] at hv
  obtain ⟨m, hm, rfl⟩ := hv
  by_cases hi : t = i
  · subst hi
    rw [List.getElem?_set_self (getElem?_lt hn)] at hm
    cases hm
    exact hw t n.val (by simp [dataOf, hn])
  · rw [List.getElem?_set_ne hi] at hm
    exact hw i m.val (by simp [dataOf, hm])

theorem allPlain_node {h : Heap T} (hw : AllPlain h) {i : Nat} {n : Node T} (hn : h[i]? = some n) : Plain n.val :=
  hw i n.val (by simp [dataOf, hn])

theorem badAt_node {h : Heap T} {i : Nat} {n : Node T} (hn : h[i]? = some n) : BadAt Bad h i ↔ Poisoned Bad n.val := by
  simp [BadAt, dataOf, hn]

theorem badAt_last {h : Heap T} {n : Node T} : BadAt Bad (h ++ [n]) h.length ↔ Poisoned Bad n.val :=
  badAt_node (by simp)

/-- a result that is bad if one of the operands `as` is -/
def Infects (Bad : T → Prop) (as : List Nat) (h h' : Heap T) (r : Nat) : Prop :=
  Frame h h' ∧ (AllPlain h → AllPlain h' ∧ ∀ a ∈ as, BadAt Bad h a → BadAt Bad h' r)

theorem unary_infects {h : Heap T} {t : Nat} {n : Node T} (hn : h[t]? = some n) {v : Raw T} {g : Option Deriv}
    (hv : Plain n.val → Plain v ∧ (Poisoned Bad n.val → Poisoned Bad v)) : Infects Bad [t] h (h ++ [⟨v, none, g⟩]) h.length := by
  refine ⟨Frame.append _ _, fun hw => ?_⟩
  obtain ⟨h1, h2⟩ := hv (allPlain_node hw hn)
  refine ⟨allPlain_append hw h1, fun a ha hb => badAt_last.2 (h2 ?_)⟩
  rw [List.mem_singleton] at ha
  subst ha
  exact (badAt_node hn).1 hb

theorem binary_infects {h : Heap T} {l r : Nat} {n m : Node T} (hn : h[l]? = some n) (hm : h[r]? = some m) {v : Raw T} {g : Option Deriv}
    (hv : Plain n.val → Plain m.val → Plain v ∧ (Poisoned Bad n.val ∨ Poisoned Bad m.val → Poisoned Bad v)) :
    Infects Bad [l, r] h (h ++ [⟨v, none, g⟩]) h.length := by
  refine ⟨Frame.append _ _, fun hw => ?_⟩
  obtain ⟨h1, h2⟩ := hv (allPlain_node hw hn) (allPlain_node hw hm)
  refine ⟨allPlain_append hw h1, fun a ha hb => badAt_last.2 (h2 ?_)⟩
  simp only [List.mem_cons, List.not_mem_nil, or_false] at ha
  rcases ha with rfl | rfl
  · exact Or.inl ((badAt_node hn).1 hb)
  · exact Or.inr ((badAt_node hm).1 hb)

theorem addT_infects (hB : Absorbing Bad) {h h' : Heap T} {l r id : Nat} (e : addT h l r = .ok (h', id)) : Infects Bad [l, r] h h' id := by
  obtain ⟨ln, rn, v, hl, hr, hv, rfl, rfl⟩ := addT_inv e
  exact binary_infects hl hr fun p q => add_bad hB p q hv

theorem negT_infects (hB : Absorbing Bad) {h h' : Heap T} {t id : Nat} (e : negT h t = .ok (h', id)) : Infects Bad [t] h h' id := by
  obtain ⟨n, v, hn, hv, rfl, rfl⟩ := negT_inv e
  exact unary_infects hn fun p => unary_bad p hB.neg hv

theorem absT_infects (hB : Absorbing Bad) {h h' : Heap T} {t id : Nat} (e : absT h t = .ok (h', id)) : Infects Bad [t] h h' id := by
  simp only [absT, R.bind_eq_ok, Heap.node_eq_ok, R.pure_eq_ok, Heap.alloc] at e
  obtain ⟨n, hn, v, hv, e⟩ := e
  cases e
  exact unary_infects hn fun p => unary_bad p hB.abs hv

theorem tanhT_infects (hB : Absorbing Bad) {h h' : Heap T} {t id : Nat} (e : tanhT h t = .ok (h', id)) : Infects Bad [t] h h' id := by
  simp only [tanhT, R.bind_eq_ok, Heap.node_eq_ok, R.pure_eq_ok, Heap.alloc] at e
  obtain ⟨n, hn, v, hv, e⟩ := e
  cases e
  exact unary_infects hn fun p => unary_bad p hB.tanh hv

theorem reluT_infects (hB : Absorbing Bad) {h h' : Heap T} {t id : Nat} (e : reluT h t = .ok (h', id)) : Infects Bad [t] h h' id := by
  simp only [reluT, R.bind_eq_ok, Heap.node_eq_ok, R.pure_eq_ok, Heap.alloc] at e
  obtain ⟨n, hn, v, hv, e⟩ := e
  cases e
  refine unary_infects hn fun p => unary_bad p (fun x hx => ?_) hv
  unfold reluFn
  rw [if_neg (hB.not_neg x hx)]
  exact hx

theorem bmmT_infects (hB : Absorbing Bad) {h h' : Heap T} {l r id : Nat} (e : bmmT h l r = .ok (h', id)) : Infects Bad [l, r] h h' id := by
  simp only [bmmT, R.bind_eq_ok, Heap.node_eq_ok, R.pure_eq_ok, Heap.alloc] at e
  obtain ⟨ln, hl, rn, hr, v, hv, e⟩ := e
  cases e
  exact binary_infects hl hr fun p q => bmm_bad hB p q hv

theorem newWithFiller_plain {v : Raw T} (hv : Plain v) (x : T) : Plain (Raw.newWithFiller v.shape x) := by
  refine ⟨Raw.newWithFiller_wf _ _, ?_⟩
  rw [Raw.newWithFiller_eq]
  exact hv.2

theorem sumT_infects (hB : Absorbing Bad) {h h' : Heap T} {t id : Nat} (e : sumT h t = .ok (h', id)) :
    Infects Bad [t] h h' id ∧ ∃ x, dataOf h' id = some ⟨[x], []⟩ := by
  have hf := (sumT_allocs e).frame
  obtain ⟨n, v, hn, hv, rfl, rfl⟩ := sumT_inv e
  refine ⟨⟨hf, fun hw => ?_⟩, ?_⟩
  · have p := allPlain_node hw hn
    obtain ⟨h1, h2⟩ := sum_bad (Bad := Bad) hB p hv
    have hw1 := allPlain_append hw (n := leafNode (Raw.newWithFiller n.val.shape (1 : T))) (newWithFiller_plain p 1)
    have hw2 := allPlain_append hw1 (n := ⟨v, some h.length, some ⟨[t], .sum⟩⟩) h1
    refine ⟨by simpa using hw2, fun a ha hb => ?_⟩
    rw [List.mem_singleton] at ha
    subst ha
    exact (badAt_node (n := ⟨v, some h.length, some ⟨[a], .sum⟩⟩) (by simp)).2 (h2 ((badAt_node hn).1 hb))
  · obtain ⟨h1, h2⟩ := sum_post _ v hv
    obtain ⟨a, s⟩ := v
    simp only at h1
    subst h1
    match a, h2 with
    | [x], _ => exact ⟨x, by simp [dataOf]⟩

theorem Infects.trans {as bs : List Nat} {h h1 h2 : Heap T} {r s : Nat} (a : Infects Bad as h h1 r) (b : Infects Bad (r :: bs) h1 h2 s) :
    Infects Bad (as ++ bs) h h2 s := by
  refine ⟨a.1.trans b.1, fun hw => ?_⟩
  obtain ⟨h3, h4⟩ := a.2 hw
  obtain ⟨h5, h6⟩ := b.2 h3
  refine ⟨h5, fun c hc hb => ?_⟩
  rcases List.mem_append.1 hc with hc | hc
  · exact h6 r (by simp) (h4 c hc hb)
  · exact h6 c (by simp [hc]) (hb.frame a.1)

theorem Infects.mono {as bs : List Nat} {h h' : Heap T} {r : Nat} (a : Infects Bad as h h' r) (hs : ∀ b ∈ bs, b ∈ as) : Infects Bad bs h h' r :=
  ⟨a.1, fun hw => ⟨(a.2 hw).1, fun b hb => (a.2 hw).2 b (hs b hb)⟩⟩

/-- identity, `relu` or `tanh` -/
def StdAct (f : Activation T) : Prop := f = Activation.identity ∨ f = reluT ∨ f = tanhT

theorem act_infects (hB : Absorbing Bad) {f : Activation T} (hf : StdAct f) {h h' : Heap T} {t r : Nat} (e : f h t = .ok (h', r)) :
    Infects Bad [t] h h' r := by
  rcases hf with rfl | rfl | rfl
  · cases e
    refine ⟨Frame.refl _, fun hw => ⟨hw, fun a ha hb => ?_⟩⟩
    rw [List.mem_singleton] at ha
    exact ha ▸ hb
  · exact reluT_infects hB e
  · exact tanhT_infects hB e

theorem linear_infects (hB : Absorbing Bad) {l : Linear T} (hf : StdAct l.activation) {h h' : Heap T} {x r : Nat}
    (e : l.forward h x = .ok (h', r)) : Infects Bad [x, l.weights, l.bias] h h' r := by
  simp only [Linear.forward, R.bind_eq_ok, Prod.exists] at e
  obtain ⟨ha, y, e1, hz, z, e2, e3⟩ := e
  exact ((bmmT_infects hB e1).trans (addT_infects hB e2)).trans (act_infects hB hf e3)

theorem forward_infects (hB : Absorbing Bad) : ∀ (ls : List (Linear T)) {h h' : Heap T} {x r : Nat}, (∀ l ∈ ls, StdAct l.activation) →
    (⟨ls⟩ : Mlp T).forward h x = .ok (h', r) → Infects Bad (x :: (⟨ls⟩ : Mlp T).params) h h' r := by
  intro ls
  induction ls with
  | nil =>
    intro h h' x r _ e
    cases e
    exact act_infects hB (Or.inl rfl) rfl
  | cons l ls ih =>
    intro h h' x r hf e
    simp only [Mlp.forward, List.foldlM_cons, R.bind_eq_ok, Prod.exists] at e
    obtain ⟨h1, y, e1, e2⟩ := e
    exact (linear_infects hB (hf l (by simp)) e1).trans (ih (fun l hl => hf l (by simp [hl])) e2)

theorem trainLoss_infects (hB : Absorbing Bad) {mlp : Mlp T} (hf : ∀ l ∈ mlp.layers, StdAct l.activation) {h h' : Heap T} {x y l : Nat}
    (e : trainLoss mlp h x y = .ok (h', l)) : Infects Bad (x :: y :: mlp.params) h h' l ∧ ∃ z, dataOf h' l = some ⟨[z], []⟩ := by
  simp only [trainLoss, subT, R.bind_eq_ok, Prod.exists] at e
  obtain ⟨h1, r, e1, h3, d, ⟨h2, m, e2, e3⟩, h4, a, e4, e5⟩ := e
  obtain ⟨i5, hz⟩ := sumT_infects hB e5
  refine ⟨?_, hz⟩
  have i1 := forward_infects hB mlp.layers hf e1
  have i2 := negT_infects hB e2
  have i3 := addT_infects hB e3
  have i45 := (absT_infects hB e4).trans i5
  have i23 : Infects Bad [r, y] h1 h3 d := by
    refine ⟨i2.1.trans i3.1, fun hw => ?_⟩
    obtain ⟨w1, b1⟩ := i2.2 hw
    obtain ⟨w2, b2⟩ := i3.2 w1
    refine ⟨w2, fun c hc hb => ?_⟩
    simp only [List.mem_cons, List.not_mem_nil, or_false] at hc
    rcases hc with rfl | rfl
    · exact b2 c (by simp) (hb.frame i2.1)
    · exact b2 m (by simp) (b1 c (by simp) hb)
  exact ((i1.trans i23).trans i45).mono (by intro b hb; simp at hb ⊢; tauto)

theorem updateGrad_plain {h h' : Heap T} {t g : Nat} (hw : AllPlain h) (e : updateGrad h t g = .ok h') : AllPlain h' := by
  obtain ⟨n, hn, ⟨_, rfl⟩ | ⟨o, on, gn, v, _, ho, hg, hv, rfl⟩⟩ := updateGrad_inv e
  · exact allPlain_set hw hn _
  · have hn' : (h ++ [(⟨v, none, some ⟨[o, g], .add⟩⟩ : Node T)])[t]? = some n := by
      rw [List.getElem?_append_left (getElem?_lt hn), hn]
    refine allPlain_set (allPlain_append hw (n := ⟨v, none, some ⟨[o, g], .add⟩⟩) ?_) hn' _
    exact fwd_plain (k := .add) (vs := [on.val, gn.val]) (by
      intro u hu
      simp only [List.mem_cons, List.not_mem_nil, or_false] at hu
      rcases hu with rfl | rfl
      · exact allPlain_node hw ho
      · exact allPlain_node hw hg) hv

theorem applyUpdates_plain {us : List (Nat × Raw T)} : ∀ {h h' : Heap T}, AllPlain h → (∀ u ∈ us, Plain u.2) →
    applyUpdates h us = .ok h' → AllPlain h' := by
  induction us with
  | nil => intro h h' hw _ e; cases e; exact hw
  | cons u us ih =>
    intro h h' hw hu e
    rw [applyUpdates_cons, R.bind_eq_ok] at e
    obtain ⟨h1, e1, e2⟩ := e
    exact ih (updateGrad_plain (allPlain_append hw (n := leafNode u.2) (hu u (by simp))) e1) (fun v hv => hu v (by simp [hv])) e2

theorem backward_plain {h h' : Heap T} {l : Nat} (hg : h.Good) (hw : AllPlain h) (e : backward h l = .ok h') : AllPlain h' := by
  obtain ⟨n, d, us, _, _, _, h1, h2⟩ := backward_inv hg e
  refine applyUpdates_plain hw (fun u hu => ?_) h2
  obtain ⟨m, hm, hs, h3⟩ := jvpUpdates_shape h1 u hu
  refine ⟨h3, ?_⟩
  rw [hs]
  exact (allPlain_node hw hm).2

theorem sgdParam_infects (hB : Absorbing Bad) {h h' : Heap T} {s p q : Nat} {lr : T} (hs : dataOf h s = some (Raw.scalar lr))
    (e : sgdParam h s p = .ok (h', q)) : Infects Bad [p] h h' q := by
  obtain ⟨pn, gn, sn, g, delta, neg, val, hp, _, hg, hsn, h1, h2, h3, rfl, rfl⟩ := sgdParam_inv e
  refine ⟨Frame.append _ _, fun hw => ?_⟩
  have pg := allPlain_node hw hg
  have pp := allPlain_node hw hp
  simp only [dataOf, hsn, Option.map_some, Option.some.injEq] at hs
  rw [hs, (C14_left_partial lr gn.val pg.1).1] at h1
  cases h1
  obtain ⟨-, pn'⟩ := unary_plain (v := neg) (t := ⟨gn.val.array.map (fun v => lr * v), gn.val.shape⟩) ⟨by simpa [WF] using pg.1, pg.2⟩ h2
  obtain ⟨pv, hb⟩ := add_bad hB pp pn' h3
  have hw' := allPlain_append (allPlain_append (allPlain_append hw (n := leafNode ⟨gn.val.array.map (fun v => lr * v), gn.val.shape⟩)
    ⟨by simpa [WF, leafNode] using pg.1, pg.2⟩) (n := ⟨neg, none, some ⟨[h.length], .neg⟩⟩) pn') (n := ⟨val, none, some ⟨[p, h.length + 1], .add⟩⟩) pv
  refine ⟨by simpa using hw', fun a ha hb' => ?_⟩
  rw [List.mem_singleton] at ha
  subst ha
  exact (badAt_node (n := ⟨val, none, some ⟨[a, h.length + 1], .add⟩⟩) (by simp)).2 (hb (Or.inl ((badAt_node hp).1 hb')))

theorem sgdParams_infects (hB : Absorbing Bad) {s : Nat} {lr : T} : ∀ {ps : List Nat} {h h' : Heap T} {qs : List Nat},
    dataOf h s = some (Raw.scalar lr) → sgdParams h s ps = .ok (h', qs) → AllPlain h →
    Frame h h' ∧ AllPlain h' ∧ List.Forall₂ (fun p q => BadAt Bad h p → BadAt Bad h' q) ps qs := by
  intro ps
  induction ps with
  | nil => intro h h' qs _ e hw; cases e; exact ⟨Frame.refl _, hw, .nil⟩
  | cons p ps ih =>
    intro h h' qs hs e hw
    rw [sgdParams_cons, R.bind_eq_ok] at e
    obtain ⟨⟨h1, q⟩, e1, e⟩ := e
    simp only [R.bind_eq_ok] at e
    obtain ⟨⟨h2, qs'⟩, e2, e3⟩ := e
    cases e3
    obtain ⟨f1, i1⟩ := sgdParam_infects (Bad := Bad) hB hs e1
    obtain ⟨w1, b1⟩ := i1 hw
    obtain ⟨f2, w2, b2⟩ := ih (frame_keeps f1 hs) e2 w1
    exact ⟨f1.trans f2, w2, .cons (fun hb => (b1 p (by simp) hb).frame f2) (b2.imp fun a b hab ha => hab (ha.frame f1))⟩

theorem zeroGrad_plain {h h' : Heap T} {t : Nat} (hw : AllPlain h) (e : zeroGrad h t = .ok h') : AllPlain h' := by
  obtain ⟨n, hn, rfl⟩ := zeroGrad_inv e
  exact allPlain_set hw hn _

theorem stdAct_extends {f : Activation T} (hf : StdAct f) : ∃ c, Extends f c := by
  rcases hf with rfl | rfl | rfl
  · exact ⟨0, extends_identity⟩
  · exact ⟨1, extends_relu⟩
  · exact ⟨1, extends_tanh⟩

theorem trainStep_infects (hB : Absorbing Bad) {mlp mlp' : Mlp T} {h h' : Heap T} {x y : Nat} {lr : T} (hr : Reachable h)
    (hf : ∀ l ∈ mlp.layers, StdAct l.activation) (hp : ∀ p ∈ mlp.params, p < h.length) (hx : x < h.length) (hy : y < h.length)
    (hw : AllPlain h) (e : trainStep mlp h x y lr = .ok (h', mlp')) :
    AllPlain h' ∧ List.Forall₂ (fun p q => BadAt Bad h p → BadAt Bad h' q) mlp.params mlp'.params := by
  simp only [trainStep] at e
  rw [R.bind_eq_ok] at e
  obtain ⟨⟨h1, l⟩, e1, e⟩ := e
  simp only [R.bind_eq_ok, Prod.exists] at e
  obtain ⟨h2, e2, h3, mlp1, e3, h4, e4, h5, e5, e6⟩ := e
  rw [R.pure_eq_ok] at e6
  cases e6
  obtain ⟨⟨o1, r1⟩, -⟩ := trainLoss_ways hr (fun l hl => actCost_spec (stdAct_extends (hf l hl)))
    (fun p hm => ⟨hp p hm, wayCount_spec hr (hp p hm)⟩) hx hy (wayCount_spec hr hx) (wayCount_spec hr hy) e1
  obtain ⟨⟨f1, i1⟩, -⟩ := trainLoss_infects (Bad := Bad) hB hf e1
  have rh1 := hr.run r1
  have w1 := (i1 hw).1
  have w2 := backward_plain rh1.good w1 e2
  have f2 : Frame h1 h2 := (runOps_frame rh1.good (ops := [.backward l]) (by simp [runOps, Op.run, e2])).1
  have w3 := allPlain_append w2 (n := leafNode (Raw.scalar lr)) ⟨rfl, by simp [Pos, leafNode, Raw.scalar], by simp [leafNode, Raw.scalar]⟩
  have f3 : Frame h2 (h2 ++ [leafNode (Raw.scalar lr)]) := Frame.append _ _
  obtain ⟨f4, w4, b4⟩ := sgdParams_infects (Bad := Bad) hB (lr := lr) (by simp [dataOf, leafNode, Heap.leaf, Heap.alloc]) (sgdStep_inv e3) w3
  have w5 := zeroGrad_plain (zeroGrad_plain w4 e4) e5
  refine ⟨w5, b4.imp fun a b hab ha => ?_⟩
  have hb := hab (((ha.frame f1).frame f2).frame f3)
  have z : ∀ {k k' : Heap T} {t : Nat}, zeroGrad k t = .ok k' → ∀ {i}, BadAt Bad k i → BadAt Bad k' i := by
    intro k k' t ez i hb
    obtain ⟨n, hn, rfl⟩ := zeroGrad_inv ez
    obtain ⟨v, hv, hb⟩ := hb
    refine ⟨v, ?_, hb⟩
    rw [← hv]
    simp only [dataOf]
    by_cases hi : t = i
    · subst hi
      rw [List.getElem?_set_self (getElem?_lt hn), hn]
      rfl
    · rw [List.getElem?_set_ne hi]
  exact z e5 (z e4 hb)

theorem forall₂_trans {α : Type} {P Q R : α → α → Prop} (hR : ∀ a b c, P a b → Q b c → R a c) : ∀ {as bs cs : List α},
    List.Forall₂ P as bs → List.Forall₂ Q bs cs → List.Forall₂ R as cs
  | [], [], [], _, _ => .nil
  | _ :: _, _ :: _, _ :: _, .cons h1 h2, .cons h3 h4 => .cons (hR _ _ _ h1 h3) (forall₂_trans hR h2 h4)

theorem forall₂_getElem? {α β : Type} {P : α → β → Prop} {as : List α} {bs : List β} (h : List.Forall₂ P as bs) {t : Nat} {a : α}
    (ha : as[t]? = some a) : ∃ b, bs[t]? = some b ∧ P a b := by
  induction h generalizing t with
  | nil => simp at ha
  | @cons a' b' as bs h1 h2 ih =>
    cases t with
    | zero => simp at ha; subst ha; exact ⟨b', by simp, h1⟩
    | succ t => simpa using ih (by simpa using ha)

theorem train_infects (hB : Absorbing Bad) {x y : Nat} {lr : T} : ∀ (n : Nat) {mlp mlp' : Mlp T} {h h' : Heap T}, Reachable h →
    (∀ l ∈ mlp.layers, StdAct l.activation) → (∀ p ∈ mlp.params, p < h.length) → x < h.length → y < h.length → AllPlain h →
    train mlp h x y lr n = .ok (h', mlp') →
    Reachable h' ∧ Frame h h' ∧ AllPlain h' ∧ (∀ l ∈ mlp'.layers, StdAct l.activation) ∧
      List.Forall₂ (fun p q => BadAt Bad h p → BadAt Bad h' q) mlp.params mlp'.params := by
  intro n
  induction n with
  | zero =>
    intro mlp mlp' h h' hr hc hp hx hy hw e
    cases e
    exact ⟨hr, Frame.refl _, hw, hc, List.forall₂_same.2 fun _ _ h => h⟩
  | succ n ih =>
    intro mlp mlp' h h' hr hc hp hx hy hw e
    simp only [train, R.bind_eq_ok, Prod.exists] at e
    obtain ⟨h1, mlp1, e1, e2⟩ := e
    obtain ⟨w1, b1⟩ := trainStep_infects (Bad := Bad) hB hr hc hp hx hy hw e1
    obtain ⟨k, ops, ht, eo⟩ := trainStep_trains (m := 0) (ops := []) hr (fun l hl => stdAct_extends (hc l hl)) hp hx hy .start rfl e1
    obtain ⟨r1, f1, p1, a1, -⟩ := trains_later hr hp ht eo
    obtain ⟨r2, f2, w2, c2, b2⟩ := ih r1 (acts_of_map (P := StdAct) a1 hc) p1 (hx.trans_le f1.len) (hy.trans_le f1.len) w1 e2
    exact ⟨r2, f1.trans f2, w2, c2, forall₂_trans (fun a b c h1 h2 ha => h2 (h1 ha)) b1 b2⟩

end

end RL
