import Verif.SpecDebug
import Verif.Lemmas.MemCycle
import Mathlib.Data.List.Range
import Mathlib.Data.List.Perm.Subperm
import Mathlib.Data.List.Lex

/-!
# Lemmas about `{:?}`
-/

namespace RL

open Spec Relation

variable {T : Type}

/-- the references a tensor owns, with the code of the step to them -/
def Node.fields (n : Node T) : List (Nat × Nat) := n.grad.toList.map (0, ·) ++ (match n.gradFn with
  | some d => d.inputs.zipIdx.map fun x => (x.2 + 1, x.1)
  | none => [])

theorem Node.fields_map (n : Node T) : n.fields.map Prod.snd = n.refs := by
  unfold Node.fields Node.refs
  cases n.gradFn <;> simp [Function.comp_def]

theorem Node.fields_pairwise (n : Node T) : n.fields.Pairwise (fun x y => x.1 < y.1) := by
  unfold Node.fields
  have h1 : ∀ (l : List Nat) (k : Nat), ((l.zipIdx k).map fun x => (x.2 + 1, x.1)).Pairwise (fun x y => x.1 < y.1) := by
    intro l
    induction l with
    | nil => intro k; simp
    | cons a l ih =>
      intro k
      simp only [List.zipIdx_cons, List.map_cons, List.pairwise_cons]
      refine ⟨?_, ih _⟩
      rintro ⟨c, j⟩ hc
      simp only [List.mem_map, Prod.exists, Prod.mk.injEq] at hc
      obtain ⟨b, i, hb, rfl, rfl⟩ := hc
      have := List.le_snd_of_mem_zipIdx hb
      simp only at this ⊢
      omega
  rw [List.pairwise_append]
  refine ⟨?_, ?_, ?_⟩
  · cases n.grad <;> simp
  · cases n.gradFn with
    | none => simp
    | some d => exact h1 _ _
  · intro x hx y hy
    cases hg : n.grad with
    | none => rw [hg] at hx; cases hx
    | some g =>
      rw [hg] at hx
      cases hd : n.gradFn with
      | none => rw [hd] at hy; cases hy
      | some d =>
        rw [hd] at hy
        simp only [Option.toList_some, List.map_cons, List.map_nil, List.mem_singleton] at hx
        simp only [List.mem_map, Prod.exists] at hy
        obtain ⟨b, i, _, rfl⟩ := hy
        subst hx
        simp

theorem Node.mem_fields {n : Node T} {c j : Nat} : (c, j) ∈ n.fields ↔
    (c = 0 ∧ n.grad = some j) ∨ ∃ d k, c = k + 1 ∧ n.gradFn = some d ∧ d.inputs[k]? = some j := by
  unfold Node.fields
  rw [List.mem_append]
  refine or_congr ?_ ?_
  · cases n.grad <;> simp [eq_comm]
  · cases n.gradFn with
    | none => simp
    | some d =>
      simp only [List.mem_map, Prod.exists, Prod.mk.injEq, Option.some.injEq, List.mem_zipIdx_iff_getElem?]
      constructor
      · rintro ⟨a, k, h1, rfl, rfl⟩; exact ⟨d, k, rfl, rfl, h1⟩
      · rintro ⟨_, k, rfl, rfl, h1⟩; exact ⟨j, k, h1, rfl, rfl⟩

theorem ownPath_nil {h : Heap T} {t i : Nat} : OwnPath h t i [] ↔ i = t ∧ ∃ n, h[t]? = some n := by
  constructor
  · rintro ⟨h1⟩; exact ⟨rfl, _, h1⟩
  · rintro ⟨rfl, n, h1⟩; exact .here h1

theorem ownPath_cons {h : Heap T} {t i c : Nat} {p : List Nat} {n : Node T} (hn : h[t]? = some n) : OwnPath h t i (c :: p) ↔
    ∃ j, (c, j) ∈ n.fields ∧ OwnPath h j i p := by
  simp only [Node.mem_fields]
  constructor
  · intro hp
    cases hp with
    | grad h1 h2 h3 => rw [hn] at h1; cases h1; exact ⟨_, .inl ⟨rfl, h2⟩, h3⟩
    | input h1 h2 h3 h4 => rw [hn] at h1; cases h1; exact ⟨_, .inr ⟨_, _, rfl, h2, h3⟩, h4⟩
  · rintro ⟨j, ⟨rfl, h2⟩ | ⟨d, k, rfl, h2, h3⟩, h4⟩
    · exact .grad hn h2 h4
    · exact .input hn h2 h3 h4

theorem Spec.OwnPath.end_unique {h : Heap T} {t i j : Nat} {p : List Nat} (hi : OwnPath h t i p) (hj : OwnPath h t j p) : i = j := by
  induction hi with
  | here => cases hj; rfl
  | grad h1 h2 _ ih =>
    cases hj with
    | grad h4 h5 h6 =>
      rw [h1] at h4; cases h4
      rw [h2] at h5; cases h5
      exact ih h6
  | input h1 h2 h3 _ ih =>
    cases hj with
    | input h4 h5 h6 h7 =>
      rw [h1] at h4; cases h4
      rw [h2] at h5; cases h5
      rw [h3] at h6; cases h6
      exact ih h7

theorem Spec.OwnPath.start {h : Heap T} {t i : Nat} {p : List Nat} (hp : OwnPath h t i p) : ∃ n, h[t]? = some n := by
  cases hp <;> exact ⟨_, by assumption⟩

theorem Node.refers {h : Heap T} {t j : Nat} {n : Node T} (hn : h[t]? = some n) : Refers h t j ↔ j ∈ n.refs := by
  rw [← n.fields_map, List.mem_map]
  constructor
  · rintro (⟨n', h1, h2⟩ | ⟨n', d, h1, h2, h3⟩)
    · rw [hn] at h1; cases h1
      exact ⟨(0, j), Node.mem_fields.2 (.inl ⟨rfl, h2⟩), rfl⟩
    · rw [hn] at h1; cases h1
      obtain ⟨k, h4⟩ := List.mem_iff_getElem?.1 h3
      exact ⟨(k + 1, j), Node.mem_fields.2 (.inr ⟨d, k, rfl, h2, h4⟩), rfl⟩
  · rintro ⟨⟨c, j'⟩, h1, rfl⟩
    rcases Node.mem_fields.1 h1 with ⟨rfl, h2⟩ | ⟨d, k, rfl, h2, h3⟩
    · exact .inl ⟨n, hn, h2⟩
    · exact .inr ⟨n, d, hn, h2, List.mem_of_getElem? h3⟩

theorem mapM_ok_mem {α β : Type} {f : α → R β} : ∀ {l : List α} {bs : List β}, l.mapM f = .ok bs → ∀ a ∈ l, ∃ b, f a = .ok b
  | [], _, _ => by simp
  | a :: l, bs, e => by
    simp only [List.mapM_cons, R.bind_eq_ok] at e
    obtain ⟨b, e1, bs', e2, _⟩ := e
    intro c hc
    rcases List.mem_cons.1 hc with rfl | hc
    · exact ⟨b, e1⟩
    · exact mapM_ok_mem e2 c hc

/-- what is printed for a list of references -/
theorem debug_inner {h : Heap T} {f : Nat → R (List (Shown T))} {depth : Nat}
    (hf : ∀ j out, f j = .ok out → ∃ ps : List (List Nat), ps.Pairwise (· < ·) ∧
      List.Forall₂ (fun (s : Shown T) p => OwnPath h j s.id p ∧ s.depth = depth + p.length ∧ dataOf h s.id = some s.val) out ps ∧
      ∀ p, p ∈ ps ↔ ∃ i, OwnPath h j i p) :
    ∀ (fs : List (Nat × Nat)) (outs : List (List (Shown T))), fs.Pairwise (fun x y => x.1 < y.1) → (fs.map Prod.snd).mapM f = .ok outs →
    ∃ ps : List (List Nat), ps.Pairwise (· < ·) ∧
      List.Forall₂ (fun (s : Shown T) p => ∃ c j q, p = c :: q ∧ (c, j) ∈ fs ∧ OwnPath h j s.id q ∧ s.depth = depth + q.length ∧
        dataOf h s.id = some s.val) outs.flatten ps ∧
      ∀ p, p ∈ ps ↔ ∃ c j q i, p = c :: q ∧ (c, j) ∈ fs ∧ OwnPath h j i q := by
  intro fs
  induction fs with
  | nil =>
    intro outs _ e
    cases e
    exact ⟨[], by simp, by simp, by simp⟩
  | cons x fs ih =>
    obtain ⟨c, j⟩ := x
    intro outs hp e
    simp only [List.map_cons, List.mapM_cons, R.bind_eq_ok] at e
    obtain ⟨out, e1, outs', e2, e⟩ := e
    rw [R.pure_eq_ok] at e; cases e
    rw [List.pairwise_cons] at hp
    obtain ⟨ps, h1, h2, h3⟩ := ih outs' hp.2 e2
    obtain ⟨qs, h4, h5, h6⟩ := hf j out e1
    refine ⟨qs.map (c :: ·) ++ ps, ?_, ?_, ?_⟩
    · rw [List.pairwise_append, List.pairwise_map]
      refine ⟨h4.imp fun hab => List.Lex.cons hab, h1, ?_⟩
      intro a ha b hb
      obtain ⟨q, _, rfl⟩ := List.mem_map.1 ha
      obtain ⟨c', j', q', i, rfl, h7, _⟩ := (h3 b).1 hb
      exact List.Lex.rel (hp.1 _ h7)
    · rw [List.flatten_cons]
      refine List.rel_append ?_ ?_
      · rw [List.forall₂_map_right_iff]
        exact h5.imp fun s p hs => ⟨c, j, p, rfl, by simp, hs⟩
      · exact h2.imp fun s p ⟨c', j', q, hq, hm, hs⟩ => ⟨c', j', q, hq, by simp [hm], hs⟩
    · intro p
      rw [List.mem_append, List.mem_map, h3]
      constructor
      · rintro (⟨q, hq, rfl⟩ | ⟨c', j', q, i, rfl, hm, hq⟩)
        · obtain ⟨i, hi⟩ := (h6 q).1 hq
          exact ⟨c, j, q, i, rfl, by simp, hi⟩
        · exact ⟨c', j', q, i, rfl, by simp [hm], hq⟩
      · rintro ⟨c', j', q, i, rfl, hm, hq⟩
        rcases List.mem_cons.1 hm with hm | hm
        · cases hm
          exact .inl ⟨q, (h6 q).2 ⟨i, hq⟩, rfl⟩
        · exact .inr ⟨c', j', q, i, rfl, hm, hq⟩

theorem debugFmt_succ (h : Heap T) (stack depth t : Nat) : debugFmt h (stack + 1) depth t = (do
    let n ← h.node t
    let inner ← n.refs.mapM (debugFmt h stack (depth + 1))
    return ⟨depth, t, n.val⟩ :: inner.flatten) := rfl

/-- what is printed: one tensor for each path, in the order of the paths -/
theorem debugFmt_paths {h : Heap T} : ∀ {stack depth t : Nat} {out : List (Shown T)}, debugFmt h stack depth t = .ok out →
    ∃ ps : List (List Nat), ps.Pairwise (· < ·) ∧
      List.Forall₂ (fun (s : Shown T) p => OwnPath h t s.id p ∧ s.depth = depth + p.length ∧ dataOf h s.id = some s.val) out ps ∧
      ∀ p, p ∈ ps ↔ ∃ i, OwnPath h t i p
  | 0, _, _, _, e => by cases e
  | stack + 1, depth, t, out, e => by
    rw [debugFmt_succ] at e
    simp only [R.bind_eq_ok, Heap.node_eq_ok] at e
    obtain ⟨n, hn, outs, e1, e⟩ := e
    rw [R.pure_eq_ok] at e; cases e
    rw [← n.fields_map] at e1
    obtain ⟨ps, h1, h2, h3⟩ := debug_inner (fun j out e => debugFmt_paths e) n.fields outs n.fields_pairwise e1
    refine ⟨[] :: ps, ?_, ?_, ?_⟩
    · rw [List.pairwise_cons]
      refine ⟨fun p hp => ?_, h1⟩
      obtain ⟨c, j, q, i, rfl, _⟩ := (h3 p).1 hp
      exact List.Lex.nil
    · refine .cons ⟨.here hn, rfl, by simp [dataOf, hn]⟩ (h2.imp ?_)
      rintro s p ⟨c, j, q, rfl, hm, hq, hd, hv⟩
      exact ⟨(ownPath_cons hn).2 ⟨j, hm, hq⟩, by rw [hd, List.length_cons]; omega, hv⟩
    · intro p
      rw [List.mem_cons, h3]
      constructor
      · rintro (rfl | ⟨c, j, q, i, rfl, hm, hq⟩)
        · exact ⟨t, .here hn⟩
        · exact ⟨i, (ownPath_cons hn).2 ⟨j, hm, hq⟩⟩
      · rintro ⟨i, hp⟩
        cases p with
        | nil => exact .inl rfl
        | cons c q =>
          obtain ⟨j, hm, hq⟩ := (ownPath_cons hn).1 hp
          exact .inr ⟨c, j, q, i, rfl, hm, hq⟩

/-- there is room on the stack if and only if it is larger than every path is long -/
theorem debugFmt_room {h : Heap T} (hr : RefsOk h) : ∀ {stack depth t : Nat}, t < h.length →
    ((∃ out, debugFmt h stack depth t = .ok out) ↔ ∀ i p, OwnPath h t i p → p.length < stack)
  | 0, _, t, ht => by
    constructor
    · rintro ⟨_, e⟩; cases e
    · intro hp
      exact absurd (hp t [] (.here (List.getElem?_eq_getElem ht))) (by simp)
  | stack + 1, depth, t, ht => by
    have hn := List.getElem?_eq_getElem ht
    have hlt : ∀ j ∈ h[t].refs, j < h.length := fun j hj => hr t j ((Node.refers hn).2 hj)
    constructor
    · rintro ⟨out, e⟩ i p hp
      rw [debugFmt_succ] at e
      simp only [R.bind_eq_ok, Heap.node_eq_ok] at e
      obtain ⟨n, hn', outs, e1, _⟩ := e
      rw [hn] at hn'; cases hn'
      cases p with
      | nil => simp
      | cons c q =>
        obtain ⟨j, hm, hq⟩ := (ownPath_cons hn).1 hp
        have hj : j ∈ h[t].refs := by rw [← Node.fields_map]; exact List.mem_map.2 ⟨_, hm, rfl⟩
        obtain ⟨o, ho⟩ := mapM_ok_mem e1 j hj
        have := (debugFmt_room hr (hlt j hj)).1 ⟨_, ho⟩ i q hq
        simpa using this
    · intro hp
      obtain ⟨outs, e⟩ := mapM_exists (f := debugFmt h stack (depth + 1)) (l := h[t].refs) fun j hj => by
        rw [debugFmt_room hr (hlt j hj)]
        intro i q hq
        rw [← Node.fields_map] at hj
        obtain ⟨⟨c, j'⟩, hm, rfl⟩ := List.mem_map.1 hj
        have := hp i (c :: q) ((ownPath_cons hn).2 ⟨_, hm, hq⟩)
        simpa using this
      refine ⟨⟨depth, t, h[t].val⟩ :: outs.flatten, ?_⟩
      rw [debugFmt_succ, Heap.node_eq_ok.2 hn]
      simp only [R.bind_ok, e]
      rfl

theorem Spec.OwnPath.refers {h : Heap T} {t i : Nat} {p : List Nat} (hp : OwnPath h t i p) : ReflTransGen (Refers h) t i := by
  induction hp with
  | here => exact .refl
  | grad h1 h2 _ ih => exact .head (.inl ⟨_, h1, h2⟩) ih
  | input h1 h2 h3 _ ih => exact .head (.inr ⟨_, _, h1, h2, List.mem_of_getElem? h3⟩) ih

theorem ownPath_of_refers {h : Heap T} (hr : RefsOk h) {t i : Nat} (ht : t < h.length) (hp : ReflTransGen (Refers h) t i) :
    ∃ p, OwnPath h t i p := by
  induction hp using ReflTransGen.head_induction_on with
  | refl => exact ⟨[], .here (List.getElem?_eq_getElem ht)⟩
  | head h1 _ ih =>
    obtain ⟨p, hp⟩ := ih (hr _ _ h1)
    rcases h1 with ⟨n, h2, h3⟩ | ⟨n, d, h2, h3, h4⟩
    · exact ⟨_, .grad h2 h3 hp⟩
    · obtain ⟨k, h5⟩ := List.mem_iff_getElem?.1 h4
      exact ⟨_, .input h2 h3 h5 hp⟩

theorem Spec.OwnPath.trans {h : Heap T} {t i j : Nat} {p q : List Nat} (hp : OwnPath h t i p) (hq : OwnPath h i j q) :
    OwnPath h t j (p ++ q) := by
  induction hp with
  | here => exact hq
  | grad h1 h2 _ ih => exact .grad h1 h2 (ih hq)
  | input h1 h2 h3 _ ih => exact .input h1 h2 h3 (ih hq)

/-- the tensors on a path -/
theorem Spec.OwnPath.nodes {h : Heap T} {t i : Nat} {p : List Nat} (hp : OwnPath h t i p) :
    ∃ xs : List Nat, xs.length = p.length + 1 ∧ xs.head? = some t ∧ xs.IsChain (Refers h) ∧ ∀ x ∈ xs, x < h.length ∧ ReflTransGen (Refers h) t x := by
  induction hp with
  | here h1 => exact ⟨[_], rfl, rfl, by simp, by simpa using ⟨getElem?_lt h1, .refl⟩⟩
  | @grad t g i n p h1 h2 _ ih =>
    obtain ⟨xs, e1, e2, e3, e4⟩ := ih
    have h3 : Refers h t g := .inl ⟨_, h1, h2⟩
    refine ⟨t :: xs, by simp [e1], rfl, ?_, ?_⟩
    · rw [List.isChain_cons]
      exact ⟨fun y hy => by rw [e2] at hy; cases hy; exact h3, e3⟩
    · intro x hx
      rcases List.mem_cons.1 hx with rfl | hx
      · exact ⟨getElem?_lt h1, .refl⟩
      · exact ⟨(e4 x hx).1, .head h3 (e4 x hx).2⟩
  | @input t j k i n d p h1 h2 h2' _ ih =>
    obtain ⟨xs, e1, e2, e3, e4⟩ := ih
    have h3 : Refers h t j := .inr ⟨_, _, h1, h2, List.mem_of_getElem? h2'⟩
    refine ⟨t :: xs, by simp [e1], rfl, ?_, ?_⟩
    · rw [List.isChain_cons]
      exact ⟨fun y hy => by rw [e2] at hy; cases hy; exact h3, e3⟩
    · intro x hx
      rcases List.mem_cons.1 hx with rfl | hx
      · exact ⟨getElem?_lt h1, .refl⟩
      · exact ⟨(e4 x hx).1, .head h3 (e4 x hx).2⟩

/-- without a cycle a path is shorter than the number of tensors -/
theorem Spec.OwnPath.short {h : Heap T} {t i : Nat} {p : List Nat} (hp : OwnPath h t i p)
    (ha : ∀ j, ReflTransGen (Refers h) t j → ¬ TransGen (Refers h) j j) : p.length < h.length := by
  obtain ⟨xs, h1, _, h2, h3⟩ := hp.nodes
  have h4 : xs.IsChain (TransGen (Refers h)) := h2.imp fun _ _ => TransGen.single
  have h5 : xs.Pairwise (TransGen (Refers h)) := List.isChain_iff_pairwise.1 h4
  have h6 : xs.Nodup := by
    refine List.Pairwise.imp_of_mem ?_ h5
    rintro a b hm _ hab rfl
    exact ha a (h3 a hm).2 hab
  have h7 := (h6.subperm (l₂ := List.range h.length) fun x hx => List.mem_range.2 (h3 x hx).1).length_le
  rw [h1, List.length_range] at h7
  omega

end RL
