import Verif.Lemmas.Get

namespace RL

open Spec

variable {T : Type}

theorem foldl_mul_eq (l : List Nat) (a : Nat) : l.foldl (fun len dim => len * dim) a = a * l.prod := by
  induction l generalizing a with
  | nil => simp
  | cons d ds ih => simp [ih, Nat.mul_assoc]

theorem Raw.new_ok_iff {array : List T} {shape : List Nat} {t : Raw T} :
    Raw.new array shape = .ok t ↔ array.length = shape.prod ∧ t = { array, shape } := by
  unfold Raw.new
  rw [foldl_mul_eq, Nat.one_mul]
  by_cases h : array.length = shape.prod
  · simp [h, eq_comm]
  · have : (shape.prod == array.length) = false := by simpa using fun e => h e.symm
    simp [this, h, R.panic]

theorem Raw.new_ok {array : List T} {shape : List Nat} (h : array.length = shape.prod) :
    Raw.new array shape = .ok { array, shape } := Raw.new_ok_iff.2 ⟨h, rfl⟩

theorem Raw.newWithFiller_eq (shape : List Nat) (v : T) :
    Raw.newWithFiller shape v = { array := List.replicate shape.prod v, shape } := by
  unfold Raw.newWithFiller
  split
  · rename_i h
    simp at h; subst h; rfl
  · rw [foldl_mul_eq, Nat.one_mul]

theorem Raw.newWithFiller_wf (shape : List Nat) (v : T) : WF (Raw.newWithFiller shape v) := by
  simp [WF, Raw.newWithFiller_eq]

theorem Raw.get_ok {t : Raw T} (ht : WF t) {idx : List Nat} (h : InRange t.shape idx) :
    ∃ v, Raw.elem? t idx = some v ∧ t.get idx = .ok v := by
  have hlt : rowMajor t.shape idx < t.array.length := by rw [ht]; exact rowMajor_lt h
  exact ⟨t.array[rowMajor t.shape idx], by simp [Raw.elem?, hlt], by rw [Raw.get_inRange h, idxR_ok hlt]⟩

theorem foldlM_ok {σ α : Type _} (f : σ → α → R σ) (g : σ → α → σ) (l : List α)
    (h : ∀ s, ∀ a ∈ l, f s a = .ok (g s a)) (s : σ) : l.foldlM f s = .ok (l.foldl g s) := by
  induction l generalizing s with
  | nil => rfl
  | cons a l ih =>
    rw [List.foldlM_cons, h s a (by simp)]
    exact ih (fun s b hb => h s b (by simp [hb])) _

theorem iterIndices_eq {shape : List Nat} (hp : Pos shape) : iterIndices shape = .ok (allIndices shape) := by
  unfold iterIndices
  rw [forIndices_eq hp]
  refine (foldlM_ok _ (fun acc idx => acc ++ [idx]) _ (fun _ _ _ => rfl) _).trans ?_
  congr 1
  have : ∀ (l acc : List (List Nat)), l.foldl (fun acc idx => acc ++ [idx]) acc = acc ++ l := by
    intro l
    induction l with
    | nil => simp
    | cons a l ih => intro acc; simp [ih]
  simpa using this (allIndices shape) []

theorem tensorIndexLoop_eq (shape : List Nat) (hp : Pos shape) :
    ∀ g acc, ∃ idx, tensorIndexLoop shape.reverse g acc = .ok (idx ++ acc, g / shape.prod) ∧
      InRange shape idx ∧ rowMajor shape idx = g % shape.prod := by
  induction shape using List.reverseRecOn with
  | nil => intro g acc; exact ⟨[], by simp [tensorIndexLoop], .nil, by simp [rowMajor, Nat.mod_one]⟩
  | append_singleton ds d ih =>
    intro g acc
    have hd : 0 < d := (Pos.append.1 hp).2 d (by simp)
    obtain ⟨idx, h1, h2, h3⟩ := ih (Pos.append.1 hp).1 (g / d) (g % d :: acc)
    refine ⟨idx ++ [g % d], ?_, List.rel_append h2 (.cons (Nat.mod_lt _ hd) .nil), ?_⟩
    · simp only [List.reverse_append, List.reverse_cons, List.reverse_nil, List.nil_append,
        List.singleton_append, tensorIndexLoop]
      rw [if_neg (by omega), h1]
      simp [Nat.div_div_eq_div_mul, Nat.mul_comm]
    · rw [rowMajor_append h2.length, h3]
      simp only [List.prod_append, List.prod_cons, List.prod_nil, mul_one]
      rw [Nat.mul_comm ds.prod d, Nat.mod_mul]
      ring

/-- concatenation in reading order -/
def NVec.flat : (n : Nat) → NVec T n → List T
  | 0, v => [v]
  | n + 1, vs => vs.toList.flatMap (NVec.flat n)

theorem mapM_ok_iff {α β : Type _} {f : α → R β} {l : List α} {bs : List β} :
    l.mapM f = .ok bs ↔ List.Forall₂ (fun a b => f a = .ok b) l bs := by
  induction l generalizing bs with
  | nil => simp [List.forall₂_nil_left_iff, eq_comm]
  | cons a l ih =>
    rw [List.mapM_cons]
    constructor
    · intro h
      cases ha : f a with
      | error e => simp [ha] at h
      | ok b =>
        cases hl : l.mapM f with
        | error e => simp [ha, hl] at h
        | ok bs' =>
          simp only [ha, hl, R.bind_ok, R.pure_eq, Except.ok.injEq] at h
          subst h
          exact .cons ha (ih.1 hl)
    · intro h
      cases h with
      | cons ha hl => simp [ha, ih.2 hl]

theorem flat_length {n : Nat} {v : NVec T n} {s : List Nat} (h : NVec.HasShape n v s) :
    (NVec.flat n v).length = s.prod := by
  induction n generalizing s with
  | zero => simp only [NVec.HasShape] at h; subst h; rfl
  | succ n ih =>
    obtain ⟨_, s', rfl, h⟩ := h
    simp only [NVec.flat, List.length_flatMap, List.prod_cons]
    have : List.map (fun a => (NVec.flat n a).length) v.toList
        = List.map (fun _ => s'.prod) v.toList :=
      List.map_congr_left (fun u hu => ih (h u hu))
    rw [this, List.map_const', List.sum_replicate]
    simp

theorem flatMap_getElem? {α β : Type _} (f : α → List β) (l : List α) (w : Nat)
    (h : ∀ a ∈ l, (f a).length = w) (i j : Nat) (hj : j < w) :
    (l.flatMap f)[i * w + j]? = l[i]?.bind (fun a => (f a)[j]?) := by
  induction l generalizing i with
  | nil => simp
  | cons a l ih =>
    have ha := h a (by simp)
    cases i with
    | zero =>
      rw [List.flatMap_cons, Nat.zero_mul, Nat.zero_add, List.getElem?_append_left (by rw [ha]; exact hj)]
      simp
    | succ i =>
      rw [List.flatMap_cons, List.getElem?_append_right (by rw [ha, Nat.succ_mul]; omega), ha]
      have e : (i + 1) * w + j - w = i * w + j := by rw [Nat.succ_mul]; omega
      rw [e, ih (fun b hb => h b (by simp [hb]))]
      simp

theorem flat_getElem? {n : Nat} {v : NVec T n} {s idx : List Nat} (h : NVec.HasShape n v s)
    (hi : InRange s idx) : (NVec.flat n v)[rowMajor s idx]? = NVec.elem? n v idx := by
  induction n generalizing s idx with
  | zero =>
    simp only [NVec.HasShape] at h; subst h; cases hi; rfl
  | succ n ih =>
    obtain ⟨_, s', rfl, h⟩ := h
    cases hi with
    | @cons _ i _ is hi hr =>
      simp only [NVec.flat, rowMajor, NVec.elem?]
      rw [flatMap_getElem? _ _ s'.prod (fun u hu => flat_length (h u hu)) _ _ (rowMajor_lt hr)]
      rw [List.getElem?_eq_getElem hi]
      simp only [Option.bind_some]
      exact ih (h _ (List.getElem_mem _)) hr

theorem fromNested_ok {n : Nat} {v : NVec T n} {s : List Nat} (h : NVec.HasShape n v s) :
    Raw.fromNested n v = .ok { array := NVec.flat n v, shape := s } := by
  induction n generalizing s with
  | zero => simp only [NVec.HasShape] at h; subst h; rfl
  | succ n ih =>
    obtain ⟨hne, s', rfl, h⟩ := h
    have e : List.mapM (fun u => Raw.fromNested n u) v.toList
        = .ok (List.map (fun u => { array := NVec.flat n u, shape := s' }) v.toList) := by
      rw [mapM_ok_iff, List.forall₂_map_right_iff]
      exact List.forall₂_same.2 (fun u hu => ih (h u hu))
    simp only [Raw.fromNested, e, R.bind_ok, Raw.fromVec]
    have hpos : 0 < v.toList.length := List.length_pos_iff.2 hne
    have hidx : idxR (List.map (fun t => t.shape) (List.map (fun u => ({ array := NVec.flat n u, shape := s' } : Raw T))
        v.toList)) 0 = .ok s' := by
      rw [idxR_ok (by simpa using hpos)]; simp
    rw [assertR_of, hidx]
    · simp [NVec.flat, List.flatMap_map]
    · rw [List.all_eq_true]
      intro x hx
      simp only [List.map_map, List.mem_map, Function.comp] at hx
      obtain ⟨_, _, rfl⟩ := hx
      simp [List.getElem?_eq_getElem hpos]

theorem fromNested_inv {n : Nat} {v : NVec T n} {t : Raw T} (h : Raw.fromNested n v = .ok t) :
    NVec.HasShape n v t.shape := by
  induction n generalizing t with
  | zero =>
    simp only [Raw.fromNested, R.pure_eq, Except.ok.injEq] at h
    subst h; rfl
  | succ n ih =>
    simp only [Raw.fromNested] at h
    cases e : List.mapM (fun u => Raw.fromNested n u) v.toList with
    | error f => simp [e] at h
    | ok ts =>
      simp only [e, R.bind_ok, Raw.fromVec] at h
      have e' := mapM_ok_iff.1 e
      cases hall : (ts.map (fun t => t.shape)).all
          (fun shape => some shape == (ts.map (fun t => t.shape))[0]?) with
      | false => rw [hall] at h; simp [R.panic] at h
      | true =>
        rw [hall] at h
        simp only [assertR_true, R.bind_ok] at h
        cases hi : idxR (ts.map (fun t => t.shape)) 0 with
        | error f => simp [hi] at h
        | ok s0 =>
          simp only [hi, R.bind_ok, R.pure_eq, Except.ok.injEq] at h
          subst h
          have hl := e'.length_eq
          have h0 := idxR_eq_ok.1 hi
          have hpos : 0 < ts.length := by
            rw [List.getElem?_eq_some_iff] at h0
            simpa using h0.1
          refine ⟨by intro hn; rw [hn] at hl; simp at hl; omega, s0, by simp [hl], ?_⟩
          intro u hu
          obtain ⟨k, hk, rfl⟩ := List.mem_iff_getElem.1 hu
          have hk2 : k < ts.length := by omega
          have := ih ((List.forall₂_iff_get.1 e').2 k hk hk2)
          rw [List.all_eq_true] at hall
          have hs := hall ts[k].shape (List.mem_map.2 ⟨ts[k], List.getElem_mem _, rfl⟩)
          rw [h0] at hs
          simp only [beq_iff_eq, Option.some.injEq] at hs
          rw [← hs]; exact this


end RL
