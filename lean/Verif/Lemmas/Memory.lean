import Verif.SpecMemory
import Verif.Lemmas.Fresh
import Verif.Lemmas.Accum
import Verif.Lemmas.Region
import Mathlib.Algebra.BigOperators.Group.Finset.Basic
import Mathlib.Algebra.Order.BigOperators.Group.Finset

/-!
# Reference counts
-/

namespace RL

open Spec Relation

variable {T : Type}

theorem refCount_eq (h : Heap T) (j i : Nat) : refCount h j i = match h[j]? with
    | none => 0
    | some n => n.refs.count i := by
  unfold refCount
  cases h[j]? with
  | none => rfl
  | some n =>
    simp only [Node.refs, List.count_append]
    congr 1
    · cases hg : n.grad with
      | none => simp
      | some g =>
        by_cases e : g = i
        · subst e; simp
        · simp [e]
    · cases n.gradFn <;> simp

theorem refers_iff (h : Heap T) (a b : Nat) : Refers h a b ↔ refCount h a b ≠ 0 := by
  rw [refCount_eq]
  cases ha : h[a]? with
  | none => simp [Refers, IsInput, ha]
  | some n =>
    have : (List.count b n.refs ≠ 0) ↔ b ∈ n.refs := by rw [ne_eq, List.count_eq_zero, not_not]
    simp only [this]
    simp only [Node.refs, List.mem_append, Refers, IsInput, ha, Option.some.injEq, exists_eq_left', Option.mem_toList, Option.mem_def,
      exists_and_left]
    cases hg : n.gradFn with
    | none => simp
    | some d => simp

/-- references point to tensors -/
def RefsOk (h : Heap T) : Prop := ∀ a b, Refers h a b → b < h.length

theorem Spec.Refers.lt {h : Heap T} {a b : Nat} (hr : Refers h a b) : a < h.length := by
  rcases hr with ⟨n, h1, _⟩ | ⟨n, d, h1, _⟩ <;> exact getElem?_lt h1

/-- number of references to `i` from tensors in memory -/
def inc (h : Heap T) (c : Nat → Nat) (i : Nat) : Nat := ∑ j ∈ Finset.range h.length, if c j = 0 then 0 else refCount h j i

/-- every count is the number of references, `W` are references about to be dropped -/
structure Bal (h : Heap T) (held W : List Nat) (c : Nat → Nat) : Prop where
  out : ∀ i, h.length ≤ i → c i = 0
  eq : ∀ i, c i = held.count i + W.count i + inc h c i

/-- total of the counts -/
def total (h : Heap T) (c : Nat → Nat) : Nat := ((List.range h.length).map c).sum

theorem total_eq (h : Heap T) (c : Nat → Nat) : total h c = ∑ i ∈ Finset.range h.length, c i := by
  rw [total, Finset.sum_eq_multiset_sum]; rfl

theorem Bal.pop {h : Heap T} {held W : List Nat} {c : Nat → Nat} {i : Nat} (hb : Bal h held (i :: W) c) :
    ∃ n, h[i]? = some n ∧ 0 < c i ∧
      (c i = 1 → Bal h held (n.refs ++ W) (fun j => if j = i then c j - 1 else c j)) ∧
      (c i ≠ 1 → Bal h held W (fun j => if j = i then c j - 1 else c j)) := by
  have hpos : 0 < c i := by
    have := hb.eq i
    simp only [List.count_cons_self] at this
    omega
  have hlt : i < h.length := by
    by_contra hlt
    have := hb.out i (by omega)
    omega
  obtain ⟨n, hn⟩ : ∃ n, h[i]? = some n := ⟨_, List.getElem?_eq_getElem hlt⟩
  have out : ∀ j, h.length ≤ j → (if j = i then c j - 1 else c j) = 0 := by
    intro j hj
    have := hb.out j hj
    split <;> omega
  refine ⟨n, hn, hpos, fun h1 => ⟨out, ?_⟩, fun h1 => ⟨out, ?_⟩⟩
  · -- the tensor is freed
    have hsum : ∀ x, inc h c x = inc h (fun j => if j = i then c j - 1 else c j) x + n.refs.count x := by
      intro x
      unfold inc
      have e1 : refCount h i x = n.refs.count x := by rw [refCount_eq, hn]
      rw [← Finset.add_sum_erase _ _ (Finset.mem_range.2 hlt),
        ← Finset.add_sum_erase (Finset.range h.length) (fun j => if (if j = i then c j - 1 else c j) = 0 then 0 else refCount h j x)
          (Finset.mem_range.2 hlt),
        Finset.sum_congr (g := fun j => if (if j = i then c j - 1 else c j) = 0 then 0 else refCount h j x) rfl]
      · rw [if_neg (by omega), if_pos (by simp [h1]), e1]; omega
      · intro j hj
        simp [Finset.ne_of_mem_erase hj]
    intro x
    have hx := hb.eq x
    have hs := hsum x
    rw [List.count_append]
    by_cases e : x = i
    · subst e
      simp only [if_true, List.count_cons_self] at hx ⊢
      omega
    · rw [if_neg e]
      rw [List.count_cons_of_ne (Ne.symm e)] at hx
      omega
  · have hsum : ∀ x, inc h c x = inc h (fun j => if j = i then c j - 1 else c j) x := by
      intro x
      unfold inc
      refine Finset.sum_congr rfl fun j _ => ?_
      by_cases e : j = i
      · subst e
        have : ¬ c j - 1 = 0 := by omega
        simp [this, show ¬ c j = 0 by omega]
      · simp [e]
    intro x
    have hx := hb.eq x
    rw [← hsum x]
    by_cases e : x = i
    · subst e
      simp only [if_true, List.count_cons_self] at hx ⊢
      omega
    · rw [if_neg e]
      rw [List.count_cons_of_ne (Ne.symm e)] at hx
      omega

theorem total_pop {h : Heap T} {c : Nat → Nat} {i : Nat} (hi : i < h.length) (hp : 0 < c i) :
    total h c = total h (fun j => if j = i then c j - 1 else c j) + 1 := by
  rw [total_eq, total_eq, ← Finset.add_sum_erase _ c (Finset.mem_range.2 hi),
    ← Finset.add_sum_erase _ (fun j => if j = i then c j - 1 else c j) (Finset.mem_range.2 hi),
    Finset.sum_congr (f := c) (g := fun j => if j = i then c j - 1 else c j) rfl]
  · rw [if_pos rfl]; omega
  · intro j hj
    simp [Finset.ne_of_mem_erase hj]

/-- dropping references never fails -/
theorem release_ok {h : Heap T} {held : List Nat} : ∀ (fuel : Nat) (c : Nat → Nat) (W : List (Nat × Nat)) (deep : Nat),
    total h c ≤ fuel → Bal h held (W.map Prod.fst) c → ∃ c' deep', release h fuel c W deep = .ok (c', deep') ∧ Bal h held [] c' ∧
      ∀ i, c' i ≤ c i := by
  intro fuel
  induction fuel with
  | zero =>
    intro c W deep hf hb
    cases W with
    | nil => exact ⟨c, deep, rfl, hb, fun _ => le_rfl⟩
    | cons w W =>
      obtain ⟨n, hn, hp, _⟩ := hb.pop
      have := total_pop (getElem?_lt hn) hp
      omega
  | succ fuel ih =>
    intro c W deep hf hb
    cases W with
    | nil => exact ⟨c, deep, by simp [release], hb, fun _ => le_rfl⟩
    | cons w W =>
      obtain ⟨i, d⟩ := w
      obtain ⟨n, hn, hp, h1, h2⟩ := hb.pop
      simp only at hn hp h1 h2
      have ht := total_pop (getElem?_lt hn) hp
      have hle : ∀ j, (if j = i then c j - 1 else c j) ≤ c j := fun j => by split <;> omega
      have e1 : release h (fuel + 1) c ((i, d) :: W) deep = (if (if i = i then c i - 1 else c i) = 0 then
          release h fuel (fun j => if j = i then c j - 1 else c j) (n.refs.map (·, d + 1) ++ W) (max deep d) else
          release h fuel (fun j => if j = i then c j - 1 else c j) W (max deep d)) := by
        rw [release]
        simp [assertR, hp, Heap.node, idxR, hn]
      rw [e1]
      by_cases e : c i = 1
      · obtain ⟨c', deep', h3, h4, h5⟩ := ih (fun j => if j = i then c j - 1 else c j) (n.refs.map (·, d + 1) ++ W) (max deep d)
          (by omega) (by simpa [Function.comp_def] using h1 e)
        refine ⟨c', deep', ?_, h4, fun j => (h5 j).trans (hle j)⟩
        rw [if_pos (by simp [e]), h3]
      · obtain ⟨c', deep', h3, h4, h5⟩ := ih (fun j => if j = i then c j - 1 else c j) W (max deep d) (by omega) (h2 e)
        refine ⟨c', deep', ?_, h4, fun j => (h5 j).trans (hle j)⟩
        rw [if_neg (by simp; omega), h3]

/-- counts agree with references, references with tensors -/
structure Mem.Inv (m : Mem T) : Prop where
  bal : Bal m.heap m.held [] m.count
  refs : RefsOk m.heap

theorem Mem.Inv.held_live {m : Mem T} (hm : m.Inv) {i : Nat} (hi : i ∈ m.held) : m.count i ≠ 0 := by
  have := hm.bal.eq i
  have := List.count_pos_iff.2 hi
  omega

theorem Mem.Inv.refers_live {m : Mem T} (hm : m.Inv) {a b : Nat} (ha : m.count a ≠ 0) (h : Refers m.heap a b) : m.count b ≠ 0 := by
  have h1 := hm.bal.eq b
  have h2 : refCount m.heap a b ≤ inc m.heap m.count b := by
    have := Finset.single_le_sum (f := fun j => if m.count j = 0 then 0 else refCount m.heap j b) (fun _ _ => Nat.zero_le _)
      (Finset.mem_range.2 h.lt)
    unfold inc
    simpa [ha] using this
  have := (refers_iff _ _ _).1 h
  omega

theorem Mem.Inv.live_lt {m : Mem T} (hm : m.Inv) {i : Nat} (hi : m.count i ≠ 0) : i < m.heap.length := by
  by_contra h
  exact hi (hm.bal.out i (by omega))

/-- a tensor in memory is owned by the program or by a tensor in memory -/
theorem Mem.Inv.live_owner {m : Mem T} (hm : m.Inv) {i : Nat} (hi : m.count i ≠ 0) :
    i ∈ m.held ∨ ∃ j, m.count j ≠ 0 ∧ Refers m.heap j i := by
  have h1 := hm.bal.eq i
  by_cases hh : i ∈ m.held
  · exact .inl hh
  · rw [List.count_eq_zero.2 hh] at h1
    simp only [List.count_nil, Nat.zero_add] at h1
    obtain ⟨j, hj, h2⟩ := Finset.exists_ne_zero_of_sum_ne_zero (show inc m.heap m.count i ≠ 0 by omega)
    simp only [ne_eq, ite_eq_left_iff, Classical.not_imp] at h2
    exact .inr ⟨j, h2.1, (refers_iff _ _ _).2 h2.2⟩

theorem inc_ext {h : Heap T} {c c' : Nat → Nat} (hc : ∀ i, c i = 0 ↔ c' i = 0) (x : Nat) : inc h c x = inc h c' x := by
  unfold inc
  refine Finset.sum_congr rfl fun j _ => ?_
  simp [hc j]

theorem Mem.releaseOne_ok {m : Mem T} {i : Nat} (hb : Bal m.heap m.held [i] m.count) :
    ∃ m' d, m.releaseOne i = .ok (m', d) ∧ m'.heap = m.heap ∧ m'.held = m.held ∧ Bal m.heap m.held [] m'.count ∧
      (2 ≤ m.count i → ∀ j, m.count j = 0 ↔ m'.count j = 0) := by
  obtain ⟨c, d, h1, h2, h3⟩ := release_ok (h := m.heap) (held := m.held) _ m.count [(i, 0)] 0 le_rfl (by simpa using hb)
  refine ⟨{ m with count := c }, d, ?_, rfl, rfl, h2, ?_⟩
  · unfold total at h1
    simp only [Mem.releaseOne, h1]
    rfl
  · intro h4
    obtain ⟨n, hn, _⟩ := hb.pop
    have hpos : total m.heap m.count = (total m.heap m.count - 1) + 1 := by
      have := total_pop (getElem?_lt hn) (c := m.count) (by omega)
      omega
    rw [hpos, release] at h1
    have hne : ¬ m.count i - 1 = 0 := by omega
    simp only [assertR, show 0 < m.count i by omega, decide_true, if_true, Heap.node, idxR, hn, hne, if_false] at h1
    have e1 : c = fun j => if j = i then m.count j - 1 else m.count j := by
      cases hf : total m.heap m.count - 1 <;> rw [hf] at h1 <;> cases h1 <;> rfl
    intro j
    rw [e1]
    by_cases e : j = i
    · subst e; simp; omega
    · simp [e]

theorem Mem.drop_ok {m : Mem T} (hm : m.Inv) {i : Nat} (hi : i ∈ m.held) :
    ∃ m' d, m.drop i = .ok (m', d) ∧ m'.heap = m.heap ∧ m'.held = m.held.erase i ∧ m'.Inv ∧
      (2 ≤ m.count i → ∀ j, m.count j = 0 ↔ m'.count j = 0) := by
  have hb : Bal m.heap (m.held.erase i) [i] m.count := by
    refine ⟨hm.bal.out, fun x => ?_⟩
    have := hm.bal.eq x
    by_cases e : x = i
    · subst e
      have h2 := List.count_pos_iff.2 hi
      rw [List.count_erase_self]
      simp at this ⊢
      omega
    · rw [List.count_erase_of_ne e]
      simp [List.count_cons_of_ne (Ne.symm e)] at this ⊢
      omega
  obtain ⟨m', d, h1, h2, h3, h4, h5⟩ := Mem.releaseOne_ok (m := { m with held := m.held.erase i }) hb
  refine ⟨m', d, ?_, h2, h3, ⟨?_, ?_⟩, h5⟩
  · simp only [Mem.drop, assertR, List.contains_iff_mem.2 hi, if_true]
    exact h1
  · rw [h2, h3]; exact h4
  · rw [h2]; exact hm.refs

theorem foldl_retain (l : List Nat) : ∀ (c : Nat → Nat) (x : Nat), l.foldl retain c x = c x + l.count x := by
  induction l with
  | nil => intro c x; simp
  | cons a l ih =>
    intro c x
    rw [List.foldl_cons, ih, retain, List.count_cons]
    by_cases e : x = a
    · subst e; simp; omega
    · simp [e, Ne.symm e]

theorem refCount_append_left {h : Heap T} {n : Node T} {j : Nat} (hj : j < h.length) (i : Nat) :
    refCount (h ++ [n]) j i = refCount h j i := by
  unfold refCount; rw [List.getElem?_append_left hj]

theorem refCount_append_last {h : Heap T} {n : Node T} (i : Nat) : refCount (h ++ [n]) h.length i = n.refs.count i := by
  rw [refCount_eq]; simp

theorem refers_append {h : Heap T} {n : Node T} {a b : Nat} : Refers (h ++ [n]) a b ↔ Refers h a b ∨ (a = h.length ∧ b ∈ n.refs) := by
  rw [refers_iff, refers_iff]
  rcases Nat.lt_trichotomy a h.length with h1 | h1 | h1
  · rw [refCount_append_left h1]
    simp [Nat.ne_of_lt h1]
  · subst h1
    rw [refCount_append_last]
    have : refCount h h.length b = 0 := by simp [refCount]
    simp only [this, ne_eq, List.count_eq_zero, not_true, not_not, false_or, true_and]
  · have e1 : refCount (h ++ [n]) a b = 0 := by
      rw [refCount, List.getElem?_eq_none (by simp; omega)]
    have e2 : refCount h a b = 0 := by
      rw [refCount, List.getElem?_eq_none (by omega)]
    simp [e1, e2]
    omega

theorem Mem.alloc_inv {m : Mem T} (hm : m.Inv) {n : Node T} (hn : ∀ r ∈ n.refs, m.count r ≠ 0) :
    (m.alloc n).Inv ∧ (∀ i, m.count i ≠ 0 → (m.alloc n).count i ≠ 0) ∧ (m.alloc n).count m.heap.length ≠ 0 := by
  have hc : ∀ i, (m.alloc n).count i = m.count i + n.refs.count i + if i = m.heap.length then 1 else 0 := by
    intro i
    simp only [Mem.alloc, retain, foldl_retain]
    split <;> rfl
  have hl : (m.alloc n).heap.length = m.heap.length + 1 := by simp [Mem.alloc]
  have hnl : n.refs.count m.heap.length = 0 := by
    rw [List.count_eq_zero]
    intro h
    exact hn _ h (hm.bal.out _ le_rfl)
  refine ⟨⟨⟨fun i hi => ?_, fun i => ?_⟩, ?_⟩, fun i hi => by rw [hc]; omega, by rw [hc]; simp⟩
  · rw [hl] at hi
    have h1 : n.refs.count i = 0 := by
      rw [List.count_eq_zero]
      intro h
      exact hn _ h (hm.bal.out _ (by omega))
    rw [hc, hm.bal.out i (by omega), h1, if_neg (by omega)]
  · have hi : inc (m.alloc n).heap (m.alloc n).count i = inc m.heap m.count i + n.refs.count i := by
      unfold inc
      rw [hl, Finset.sum_range_succ]
      congr 1
      · refine Finset.sum_congr rfl fun j hj => ?_
        rw [Finset.mem_range] at hj
        have e1 : (m.alloc n).count j = 0 ↔ m.count j = 0 := by
          rw [hc, if_neg (by omega)]
          by_cases e : j ∈ n.refs
          · have := hn j e; omega
          · rw [List.count_eq_zero.2 e]; omega
        have e2 : refCount (m.alloc n).heap j i = refCount m.heap j i := refCount_append_left hj i
        simp only [e1, e2]
      · have e1 : ¬ (m.alloc n).count m.heap.length = 0 := by rw [hc]; simp
        rw [if_neg e1]
        exact refCount_append_last i
    have := hm.bal.eq i
    rw [hi, hc]
    simp only [Mem.alloc, List.count_cons, List.count_nil, beq_iff_eq] at this ⊢
    by_cases e : i = m.heap.length
    · subst e; simp; omega
    · simp [e, Ne.symm e]; omega
  · intro a b hab
    rw [hl]
    rcases refers_append.1 hab with h | ⟨_, h⟩
    · have := hm.refs a b h; omega
    · have := hm.live_lt (hn b h); omega

theorem refCount_set {h : Heap T} {t : Nat} {n : Node T} (hn : h[t]? = some n) (g : Option Nat) (j i : Nat) :
    refCount (h.set t { n with grad := g }) j i + (if j = t then n.grad.toList.count i else 0) =
      refCount h j i + (if j = t then g.toList.count i else 0) := by
  have ht := getElem?_lt hn
  by_cases e : j = t
  · subst e
    rw [refCount_eq, refCount_eq, List.getElem?_set_self ht, hn]
    simp only [Node.refs, List.count_append, if_true]
    omega
  · unfold refCount
    rw [List.getElem?_set_ne (Ne.symm e)]
    simp [e]

theorem erase_toList_count {held : List Nat} {g : Option Nat} (hg : ∀ x, g = some x → x ∈ held) (i : Nat) :
    (g.toList.foldl List.erase held).count i + g.toList.count i = held.count i := by
  cases g with
  | none => simp
  | some x =>
    simp only [Option.toList_some, List.foldl_cons, List.foldl_nil]
    by_cases e : i = x
    · subst e
      have := List.count_pos_iff.2 (hg i rfl)
      rw [List.count_erase_self]; simp; omega
    · rw [List.count_erase_of_ne e]; simp [Ne.symm e]

theorem Mem.setGrad_ok {m : Mem T} (hm : m.Inv) {t : Nat} {n : Node T} (hn : m.heap[t]? = some n) (ht : m.count t ≠ 0) {g : Option Nat}
    (hg : ∀ x, g = some x → x ∈ m.held) :
    ∃ m', m.setGrad t g = .ok m' ∧ m'.heap = m.heap.set t { n with grad := g } ∧ m'.held = g.toList.foldl List.erase m.held ∧ m'.Inv ∧
      ((∀ o, n.grad = some o → 2 ≤ m.count o) → ∀ j, m.count j = 0 ↔ m'.count j = 0) := by
  have hlt := getElem?_lt hn
  have hb : Bal (m.heap.set t { n with grad := g }) (g.toList.foldl List.erase m.held) n.grad.toList m.count := by
    refine ⟨fun i hi => hm.bal.out i (by simpa using hi), fun i => ?_⟩
    have h1 : inc (m.heap.set t { n with grad := g }) m.count i + n.grad.toList.count i = inc m.heap m.count i + g.toList.count i := by
      unfold inc
      rw [List.length_set, ← Finset.add_sum_erase _ _ (Finset.mem_range.2 hlt),
        ← Finset.add_sum_erase (Finset.range m.heap.length) (fun j => if m.count j = 0 then 0 else refCount m.heap j i)
          (Finset.mem_range.2 hlt),
        Finset.sum_congr (g := fun j => if m.count j = 0 then 0 else refCount m.heap j i) rfl]
      · have := refCount_set hn g t i
        simp only [if_true] at this
        simp only [if_neg ht]
        omega
      · intro j hj
        have := refCount_set hn g j i
        simp only [if_neg (Finset.ne_of_mem_erase hj), Nat.add_zero] at this
        rw [this]
    have h2 := hm.bal.eq i
    have h3 := erase_toList_count hg i
    simp only [List.count_nil] at h2
    omega
  have hr : RefsOk (m.heap.set t { n with grad := g }) := by
    intro a b hab
    rw [List.length_set]
    rw [refers_iff] at hab
    have h1 := refCount_set hn g a b
    by_cases e : refCount m.heap a b = 0
    · have h2 : b ∈ g.toList := by
        rw [← List.count_pos_iff]
        split at h1 <;> omega
      have h3 : g = some b := by simpa using h2
      exact hm.live_lt (hm.held_live (hg b h3))
    · exact hm.refs a b ((refers_iff _ _ _).2 e)
  cases ho : n.grad with
  | none =>
    rw [ho] at hb
    refine ⟨⟨m.heap.set t { n with grad := g }, m.count, g.toList.foldl List.erase m.held⟩, ?_, rfl, rfl, ⟨hb, hr⟩, fun _ _ => Iff.rfl⟩
    simp [Mem.setGrad, Heap.node, idxR, hn, ho, pure, Except.pure, bind, Except.bind]
  | some o =>
    rw [ho] at hb
    obtain ⟨m', d, h1, h2, h3, h4, h5⟩ := Mem.releaseOne_ok
      (m := ⟨m.heap.set t { n with grad := g }, m.count, g.toList.foldl List.erase m.held⟩) (i := o) (by simpa using hb)
    refine ⟨m', ?_, h2, h3, ⟨?_, ?_⟩, fun h6 => h5 (h6 o rfl)⟩
    · simp only [Mem.setGrad, Heap.node, idxR, hn, ho, h1, pure, Except.pure, bind, Except.bind]
    · rw [h2, h3]; exact h4
    · rw [h2]; exact hr

/-- the reference counting version does what the graph model does, and ends in a state with `P` -/
def Sim (x : R (Mem T)) (y : R (Heap T)) (P : Mem T → Prop) : Prop := match y with
  | .ok h => ∃ m, x = .ok m ∧ m.heap = h ∧ P m
  | .error e => x = .error e

theorem Sim.bind {x : R (Mem T)} {y : R (Heap T)} {P Q : Mem T → Prop} {f : Mem T → R (Mem T)} {g : Heap T → R (Heap T)} (h : Sim x y P)
    (hf : ∀ m, P m → Sim (f m) (g m.heap) Q) : Sim (x >>= f) (y >>= g) Q := by
  cases y with
  | error e => simp only [Sim] at h; rw [h]; rfl
  | ok h' =>
    obtain ⟨m, rfl, rfl, hp⟩ := h
    exact hf m hp

theorem Sim.pre {α : Type} {z : R α} {f : α → R (Mem T)} {g : α → R (Heap T)} {P : Mem T → Prop} (h : ∀ a, z = .ok a → Sim (f a) (g a) P) :
    Sim (z >>= f) (z >>= g) P := by
  cases z with
  | error e => rfl
  | ok a => exact h a rfl

/-! ### operations -/

section
variable [Zero T] [One T] [Add T] [Mul T] [Sub T] [Neg T] [LT T] [DecidableLT T] [LE T] [DecidableLE T] [RealFn T]

theorem Heap.Good.refsOk {h : Heap T} (hg : h.Good) : RefsOk h := by
  rintro a b (⟨n, h1, h2⟩ | ⟨n, d, h1, h2, h3⟩)
  · exact (hg a n h1).grad b h2
  · exact ((hg a n h1).older d h2 b h3).trans (getElem?_lt h1)


theorem Mem.updateGrad_sim {m : Mem T} (hm : m.Inv) {t g : Nat} (ht : m.count t ≠ 0) (hg : g ∈ m.held) :
    Sim (m.updateGrad t g) (RL.updateGrad m.heap t g) fun m' => m'.Inv ∧ m'.held = m.held.erase g ∧ ∀ i, m.count i ≠ 0 → m'.count i ≠ 0 := by
  obtain ⟨n, hn⟩ : ∃ n, m.heap[t]? = some n := ⟨_, List.getElem?_eq_getElem (hm.live_lt ht)⟩
  have en : m.heap.node t = pure n := by simp [Heap.node, idxR, hn]
  cases ho : n.grad with
  | none =>
    obtain ⟨m', h1, h2, h3, h4, h5⟩ := Mem.setGrad_ok hm hn ht (g := some g) (fun x hx => by cases hx; exact hg)
    have e1 : m.updateGrad t g = .ok m' := by simp only [Mem.updateGrad, en, pure_bind, ho, h1]
    have e2 : RL.updateGrad m.heap t g = .ok m'.heap := by simp only [RL.updateGrad, en, pure_bind, ho, h2]; rfl
    rw [e1, e2]
    exact ⟨m', rfl, rfl, h4, h3, fun i => (not_congr (h5 (by simp [ho]) i)).1⟩
  | some o =>
    have hol : m.count o ≠ 0 := hm.refers_live ht (.inl ⟨n, hn, ho⟩)
    have hgl : m.count g ≠ 0 := hm.held_live hg
    obtain ⟨ln, hln⟩ : ∃ n, m.heap[o]? = some n := ⟨_, List.getElem?_eq_getElem (hm.live_lt hol)⟩
    obtain ⟨rn, hrn⟩ : ∃ n, m.heap[g]? = some n := ⟨_, List.getElem?_eq_getElem (hm.live_lt hgl)⟩
    have eln : m.heap.node o = pure ln := by simp [Heap.node, idxR, hln]
    have ern : m.heap.node g = pure rn := by simp [Heap.node, idxR, hrn]
    simp only [Mem.updateGrad, RL.updateGrad, addT, en, pure_bind, ho, eln, ern, bind_assoc]
    refine Sim.pre fun v _ => ?_
    simp only [pure_bind, Heap.alloc]
    have hrefs : (⟨v, none, some ⟨[o, g], .add⟩⟩ : Node T).refs = [o, g] := rfl
    obtain ⟨hi, hl, hln'⟩ := Mem.alloc_inv hm (n := ⟨v, none, some ⟨[o, g], .add⟩⟩) (by simp [hrefs, hol, hgl])
    have hn' : (m.alloc ⟨v, none, some ⟨[o, g], .add⟩⟩).heap[t]? = some n := by
      simp only [Mem.alloc]; rw [List.getElem?_append_left (getElem?_lt hn), hn]
    have hcnt : ∀ x, (m.alloc ⟨v, none, some ⟨[o, g], .add⟩⟩).count x = m.count x + [o, g].count x + if x = m.heap.length then 1 else 0 := by
      intro i
      simp only [Mem.alloc, retain, foldl_retain, hrefs]
      split <;> rfl
    obtain ⟨m1, h1, h2, h3, h4, h5⟩ := Mem.setGrad_ok hi hn' (hl t ht) (g := some m.heap.length) (fun x hx => by cases hx; simp [Mem.alloc])
    have h5 := h5 (fun o' ho' => by
      rw [ho] at ho'; cases ho'
      rw [hcnt]
      have : 0 < [o, g].count o := List.count_pos_iff.2 (by simp)
      omega)
    have hgh : g ∈ m1.held := by
      rw [h3]
      simp only [Mem.alloc, Option.toList_some, List.foldl_cons, List.foldl_nil, List.erase_cons_head]
      exact hg
    obtain ⟨m2, d, k1, k2, k3, k4, k5⟩ := Mem.drop_ok h4 hgh
    refine ⟨m2, ?_, ?_, k4, ?_, ?_⟩
    · rw [h1]
      change (do let x ← m1.drop g; pure x.1) = _
      rw [k1]; rfl
    · rw [k2, h2]; rfl
    · rw [k3, h3]
      simp only [Mem.alloc, Option.toList_some, List.foldl_cons, List.foldl_nil, List.erase_cons_head]
    · intro i hi0
      have h6 := (not_congr (h5 i)).1 (hl i hi0)
      refine (not_congr (k5 ?_ i)).1 h6
      -- `g` is owned by the program and by the sum
      have h7 := h4.bal.eq g
      have h8 := List.count_pos_iff.2 hgh
      have h9 : Refers m1.heap m.heap.length g := by
        right
        refine ⟨⟨v, none, some ⟨[o, g], .add⟩⟩, ⟨[o, g], .add⟩, ?_, rfl, by simp⟩
        rw [h2, List.getElem?_set_ne (by have := getElem?_lt hn; omega)]
        simp [Mem.alloc]
      have h10 := (refers_iff _ _ _).1 h9
      have h11 : refCount m1.heap m.heap.length g ≤ inc m1.heap m1.count g := by
        have := Finset.single_le_sum (f := fun j => if m1.count j = 0 then 0 else refCount m1.heap j g) (fun _ _ => Nat.zero_le _)
          (Finset.mem_range.2 h9.lt)
        unfold inc
        simpa [(not_congr (h5 _)).1 hln'] using this
      simp only [List.count_nil] at h7
      omega

theorem Sim.foldlM {α : Type} {P : Mem T → Prop} {f : Mem T → α → R (Mem T)} {g : Heap T → α → R (Heap T)} : ∀ (l : List α) (m : Mem T), P m →
    (∀ m, P m → ∀ a ∈ l, Sim (f m a) (g m.heap a) P) → Sim (l.foldlM f m) (l.foldlM g m.heap) P := by
  intro l
  induction l with
  | nil => intro m hp _; exact ⟨m, rfl, rfl, hp⟩
  | cons a l ih =>
    intro m hp hf
    rw [List.foldlM_cons, List.foldlM_cons]
    exact (hf m hp a (by simp)).bind fun m' hp' => ih m' hp' fun m hp b hb => hf m hp b (by simp [hb])

theorem Sim.mono {x : R (Mem T)} {y : R (Heap T)} {P Q : Mem T → Prop} (h : Sim x y P) (hpq : ∀ m, P m → Q m) : Sim x y Q := by
  cases y with
  | error e => exact h
  | ok h' => obtain ⟨m, h1, h2, h3⟩ := h; exact ⟨m, h1, h2, hpq m h3⟩

theorem Mem.computeJvp_sim : ∀ (fuel : Nat) (m : Mem T) (d : Deriv) (gs : List (Raw T)), m.Inv → (∀ i ∈ d.inputs, m.count i ≠ 0) →
    Sim (Mem.computeJvp fuel m d gs) (RL.computeJvp fuel m.heap d gs) fun m' => m'.Inv ∧ m'.held = m.held ∧
      ∀ i, m.count i ≠ 0 → m'.count i ≠ 0 := by
  intro fuel
  induction fuel with
  | zero => intro m d gs _ _; rfl
  | succ fuel ih =>
    intro m d gs hm hd
    simp only [Mem.computeJvp, RL.computeJvp]
    refine Sim.pre fun vs _ => Sim.pre fun sg _ => ?_
    refine Sim.foldlM (P := fun m' => m'.Inv ∧ m'.held = m.held ∧ ∀ i, m.count i ≠ 0 → m'.count i ≠ 0) _ m ⟨hm, rfl, fun _ h => h⟩ ?_
    rintro m1 ⟨hi1, hh1, hl1⟩ ⟨grad, input⟩ hin
    have hin : m1.count input ≠ 0 := hl1 _ (hd _ (List.of_mem_zip hin).2)
    refine Sim.pre fun n hn => Sim.pre fun _ _ => Sim.pre fun v _ => ?_
    have hn : m1.heap[input]? = some n := Heap.node_eq_ok.1 hn
    simp only [Heap.leaf, Heap.alloc]
    obtain ⟨ai, al, _⟩ := Mem.alloc_inv hi1 (n := leafNode v) (by simp [Node.refs, leafNode])
    have s1 := Mem.updateGrad_sim ai (t := input) (g := m1.heap.length) (al _ hin) (by simp [Mem.alloc])
    refine Sim.bind s1 ?_
    rintro m2 ⟨hi2, hh2, hl2⟩
    have hh2 : m2.held = m1.held := by rw [hh2]; simp [Mem.alloc]
    have hl12 : ∀ i, m1.count i ≠ 0 → m2.count i ≠ 0 := fun i hi => hl2 i (al i hi)
    cases hd' : n.gradFn with
    | none => exact ⟨m2, rfl, rfl, hi2, hh2.trans hh1, fun i hi => hl12 i (hl1 i hi)⟩
    | some d' =>
      refine (ih m2 d' [grad] hi2 fun i hi => hl12 i (hi1.refers_live hin (.inr ⟨n, d', hn, hd', hi⟩))).mono ?_
      rintro m3 ⟨h1, h2, h3⟩
      exact ⟨h1, h2.trans (hh2.trans hh1), fun i hi => h3 i (hl12 i (hl1 i hi))⟩

theorem Mem.backward_sim {m : Mem T} (hm : m.Inv) {t : Nat} (ht : m.count t ≠ 0) :
    Sim (m.backward t) (RL.backward m.heap t) fun m' => m'.Inv ∧ m'.held = m.held ∧ ∀ i, m.count i ≠ 0 → m'.count i ≠ 0 := by
  simp only [Mem.backward, RL.backward]
  refine Sim.pre fun n hn => Sim.pre fun _ _ => Sim.pre fun d hd => ?_
  have hn : m.heap[t]? = some n := Heap.node_eq_ok.1 hn
  rw [unwrapO_eq_ok] at hd
  exact Mem.computeJvp_sim _ m d _ hm fun i hi => hm.refers_live ht (.inr ⟨n, d, hn, hd, hi⟩)

/-- references of the tensors an operation creates -/
theorem Op.fresh_refs {h h' : Heap T} {op : Op T} (hop : op.isGrad = false) (e : op.run h = .ok h') :
    ∃ ns, h' = h ++ ns ∧ ((∃ n, ns = [n] ∧ ∀ r ∈ n.refs, r ∈ op.ids ∨ ∃ t ∈ op.ids, Refers h t r) ∨
      ∃ n1 n2, ns = [n1, n2] ∧ (∀ r ∈ n1.refs, r ∈ op.ids) ∧ ∀ r ∈ n2.refs, r ∈ op.ids ∨ r = h.length) := by
  obtain ⟨ns, h1, h2⟩ := Op.run_fresh hop e
  refine ⟨ns, h1, ?_⟩
  have key : ∀ n : Node T, n.refs = n.links.1.toList ++ (match n.links.2 with | some d => d.inputs | none => []) := fun n => rfl
  cases op <;> try (cases hop; done)
  case rawClone t =>
    cases ht : h[t]? with
    | none => simp [Op.run, rawCloneT, Heap.node, idxR, ht, R.panic, bind, Except.bind] at e
    | some n0 =>
      rw [show (Op.rawClone t : Op T).fresh h = [n0.links] by simp [Op.fresh, ht, Node.links]] at h2
      obtain ⟨n, rfl⟩ : ∃ n, ns = [n] := List.length_eq_one_iff.1 (by simpa [Op.fresh] using congrArg List.length h2)
      simp only [List.map_cons, List.map_nil, List.cons.injEq, and_true] at h2
      refine .inl ⟨n, rfl, fun r hr => .inr ⟨t, by simp [Op.ids], ?_⟩⟩
      rw [key, h2, ← key] at hr
      rw [refers_iff, refCount_eq, ht]
      simpa [List.count_eq_zero] using hr
  case sub | sum | bmmView | rawSum =>
    right
    obtain ⟨n1, n2, rfl⟩ : ∃ n1 n2, ns = [n1, n2] := List.length_eq_two.1 (by simpa [Op.fresh] using congrArg List.length h2)
    simp only [List.map_cons, List.map_nil, Op.fresh, List.cons.injEq, and_true] at h2
    refine ⟨n1, n2, rfl, ?_, ?_⟩
    · intro r hr; rw [key, h2.1] at hr; simp at hr; try simp [Op.ids, hr]
    · intro r hr; rw [key, h2.2] at hr; simp at hr; simp [Op.ids]; tauto
  all_goals
    left
    obtain ⟨n, rfl⟩ : ∃ n, ns = [n] := List.length_eq_one_iff.1 (by simpa [Op.fresh] using congrArg List.length h2)
    simp only [List.map_cons, List.map_nil, Op.fresh, List.cons.injEq, and_true] at h2
    refine ⟨n, rfl, fun r hr => .inl ?_⟩
    rw [key, h2] at hr
    simp at hr
    try simp [Op.ids, hr]

theorem Mem.retain_inv {m : Mem T} (hm : m.Inv) {g : Nat} (hg : m.count g ≠ 0) :
    ({ m with count := retain m.count g, held := g :: m.held } : Mem T).Inv := by
  have hz : ∀ i, retain m.count g i = 0 ↔ m.count i = 0 := by
    intro i
    unfold retain
    split
    · next e => subst e; omega
    · rfl
  refine ⟨⟨fun i hi => (hz i).2 (hm.bal.out i hi), fun i => ?_⟩, hm.refs⟩
  have := hm.bal.eq i
  rw [inc_ext hz]
  simp only [retain, List.count_cons, List.count_nil, beq_iff_eq] at this ⊢
  by_cases e : i = g
  · subst e; simp; omega
  · simp [e, Ne.symm e]; omega

theorem Mem.op_eq {o : Op T} (hop : o.isGrad = false) (m : Mem T) : m.op o = (do
    assertR (o.ids.all m.held.contains)
    let h ← o.run m.heap
    let m' := (h.drop m.heap.length).foldl Mem.alloc m
    (List.range' m.heap.length (h.length - 1 - m.heap.length)).foldlM (fun m i => do return (← m.drop i).1) m') := by
  cases o <;> first | rfl | cases hop

theorem Mem.op_sim {m : Mem T} (hm : m.Inv) {o : Op T} (ho : ∀ i ∈ o.ids, i ∈ m.held) :
    Sim (m.op o) (o.run m.heap) fun m' => m'.Inv ∧
      m'.held = if o.isGrad then m.held else (m'.heap.length - 1) :: m.held := by
  cases hop : o.isGrad with
  | true =>
    cases o <;> try (cases hop; done)
    case updateGrad t g =>
      have h1 : t ∈ m.held := ho t (by simp [Op.ids])
      have h2 : g ∈ m.held := ho g (by simp [Op.ids])
      obtain ⟨gn, hgn⟩ : ∃ n, m.heap[g]? = some n := ⟨_, List.getElem?_eq_getElem (hm.live_lt (hm.held_live h2))⟩
      have hi := Mem.retain_inv hm (hm.held_live h2)
      have := Mem.updateGrad_sim hi (t := t) (g := g) (hi.held_live (by simp [h1])) (by simp)
      simp only [Mem.op, Op.run, assertR, List.contains_iff_mem.2 h1, List.contains_iff_mem.2 h2, Bool.and_self, if_true, Heap.node, idxR, hgn]
      refine Sim.mono this ?_
      rintro m' ⟨h3, h4, _⟩
      exact ⟨h3, by simpa using h4⟩
    case zeroGrad t =>
      have h1 : t ∈ m.held := ho t (by simp [Op.ids])
      obtain ⟨n, hn⟩ : ∃ n, m.heap[t]? = some n := ⟨_, List.getElem?_eq_getElem (hm.live_lt (hm.held_live h1))⟩
      obtain ⟨m', h2, h3, h4, h5, _⟩ := Mem.setGrad_ok hm hn (hm.held_live h1) (g := none) (by simp)
      have e1 : m.op (.zeroGrad t) = .ok m' := by
        simp only [Mem.op, assertR, List.contains_iff_mem.2 h1, if_true]; exact h2
      have e2 : (Op.zeroGrad t : Op T).run m.heap = .ok m'.heap := by
        simp only [Op.run, RL.zeroGrad, Heap.node, idxR, hn, h3]; rfl
      rw [e1, e2]
      exact ⟨m', rfl, rfl, h5, by simpa using h4⟩
    case backward t =>
      have h1 : t ∈ m.held := ho t (by simp [Op.ids])
      simp only [Mem.op, Op.run, assertR, List.contains_iff_mem.2 h1, if_true]
      refine Sim.mono (Mem.backward_sim hm (hm.held_live h1)) ?_
      rintro m' ⟨h3, h4, _⟩
      exact ⟨h3, by simpa using h4⟩
  | false =>
    rw [Mem.op_eq hop]
    have hall : o.ids.all m.held.contains = true := List.all_eq_true.2 fun i hi => List.contains_iff_mem.2 (ho i hi)
    have hlive : ∀ i ∈ o.ids, m.count i ≠ 0 := fun i hi => hm.held_live (ho i hi)
    simp only [assertR, hall, if_true]
    cases e : o.run m.heap with
    | error er => rfl
    | ok h' =>
      obtain ⟨ns, rfl, h1⟩ := Op.fresh_refs hop e
      change Sim (List.foldlM _ _ _) _ _
      rcases h1 with ⟨n, rfl, hr⟩ | ⟨n1, n2, rfl, hr1, hr2⟩
      · obtain ⟨ai, _, _⟩ := Mem.alloc_inv hm (n := n) fun r hr' => by
          rcases hr r hr' with h2 | ⟨t, h2, h3⟩
          · exact hlive r h2
          · exact hm.refers_live (hlive t h2) h3
        refine ⟨m.alloc n, ?_, rfl, ai, ?_⟩
        · simp [pure, Except.pure]
        · simp [Mem.alloc]
      · obtain ⟨ai, al, an⟩ := Mem.alloc_inv hm (n := n1) fun r hr' => hlive r (hr1 r hr')
        obtain ⟨bi, bl, bn⟩ := Mem.alloc_inv ai (n := n2) fun r hr' => by
          rcases hr2 r hr' with h2 | rfl
          · exact al r (hlive r h2)
          · exact an
        obtain ⟨m2, d, k1, k2, k3, k4, k5⟩ := Mem.drop_ok bi (i := m.heap.length) (by simp [Mem.alloc])
        refine ⟨m2, ?_, ?_, k4, ?_⟩
        · have : (m.heap ++ [n1, n2]).length - 1 - m.heap.length = 1 := by simp
          rw [this]
          simp only [List.drop_left, List.foldl_cons, List.foldl_nil, List.range'_one, List.foldlM_cons, List.foldlM_nil, k1]
          rfl
        · rw [k2]; simp [Mem.alloc]
        · rw [k3, k2]; simp [Mem.alloc]

theorem Mem.op_ids {m m' : Mem T} {o : Op T} (e : m.op o = .ok m') : ∀ i ∈ o.ids, i ∈ m.held := by
  cases hop : o.isGrad with
  | true =>
    cases o <;> try (cases hop; done)
    all_goals
      simp only [Mem.op, R.bind_eq_ok] at e
      obtain ⟨⟨⟩, h1, _⟩ := e
      rw [assertR_eq_ok] at h1
      simpa [Op.ids] using h1
  | false =>
    rw [Mem.op_eq hop] at e
    rw [R.bind_eq_ok] at e
    obtain ⟨⟨⟩, h1, _⟩ := e
    rw [assertR_eq_ok] at h1
    intro i hi
    exact List.contains_iff_mem.1 (List.all_eq_true.1 h1 i hi)

/-- what a step does to the heap -/
theorem MemOp.run_inv {m m' : Mem T} (hm : m.Inv) {o : MemOp T} (e : o.run m = .ok m') : m'.Inv ∧ (match o with
    | .op x => x.run m.heap = .ok m'.heap
    | _ => m'.heap = m.heap) := by
  cases o with
  | op x =>
    have h1 := Mem.op_sim hm (Mem.op_ids e)
    have e : m.op x = .ok m' := e
    cases ex : x.run m.heap with
    | error er => rw [ex] at h1; rw [show m.op x = .error er from h1] at e; cases e
    | ok h' =>
      rw [ex] at h1
      obtain ⟨m1, h2, h3, h4, _⟩ := h1
      rw [h2] at e; cases e
      exact ⟨h4, by simp only [← h3, ex]⟩
  | clone t =>
    simp only [MemOp.run, R.bind_eq_ok, R.pure_eq_ok] at e
    obtain ⟨⟨⟩, h1, rfl⟩ := e
    rw [assertR_eq_ok, List.contains_iff_mem] at h1
    exact ⟨Mem.retain_inv hm (hm.held_live h1), rfl⟩
  | grad t =>
    simp only [MemOp.run, R.bind_eq_ok, R.pure_eq_ok, gradT, Heap.node_eq_ok, unwrapO_eq_ok] at e
    obtain ⟨⟨⟩, h1, g, ⟨n, hn, hg⟩, rfl⟩ := e
    rw [assertR_eq_ok, List.contains_iff_mem] at h1
    exact ⟨Mem.retain_inv hm (hm.refers_live (hm.held_live h1) (.inl ⟨n, hn, hg⟩)), rfl⟩
  | drop t =>
    simp only [MemOp.run, R.bind_eq_ok, R.pure_eq_ok] at e
    obtain ⟨⟨m1, d⟩, h1, rfl⟩ := e
    have ht : t ∈ m.held := by
      simp only [Mem.drop, R.bind_eq_ok] at h1
      obtain ⟨⟨⟩, h1, _⟩ := h1
      rwa [assertR_eq_ok, List.contains_iff_mem] at h1
    obtain ⟨m2, d2, h2, h3, h4, h5, _⟩ := Mem.drop_ok hm ht
    rw [h1] at h2
    cases h2
    exact ⟨h5, h3⟩

theorem runMem_inv : ∀ (os : List (MemOp T)) {m m' : Mem T}, m.Inv → runMem m os = .ok m' →
    m'.Inv ∧ runOps m.heap (graphOps os) = .ok m'.heap := by
  intro os
  induction os with
  | nil => intro m m' hm e; cases e; exact ⟨hm, rfl⟩
  | cons o os ih =>
    intro m m' hm e
    simp only [runMem, List.foldlM_cons, R.bind_eq_ok] at e
    obtain ⟨m1, e1, e2⟩ := e
    obtain ⟨h1, h2⟩ := MemOp.run_inv hm e1
    obtain ⟨h3, h4⟩ := ih h1 e2
    refine ⟨h3, ?_⟩
    cases o with
    | op x =>
      simp only at h2
      rw [show graphOps (MemOp.op x :: os) = x :: graphOps os from rfl, runOps_cons, h2]
      exact h4
    | clone t | grad t | drop t => simp only at h2; rw [h2] at h4; exact h4

theorem Mem.inv_empty : (Mem.empty : Mem T).Inv :=
  ⟨⟨fun _ _ => rfl, fun i => by simp [Mem.empty, inc]⟩, fun a b h => by have := h.lt; simp [Mem.empty] at this⟩

end

end RL
