import Verif.Model.Jvp
import Verif.Lemmas.Bmm
import Mathlib.Data.List.Range

/-!
# Lemmas about the gradient functions
-/

namespace RL

open Spec

variable {T : Type}

/-! ### accumulating into an array -/

/-- add every contribution `(position, value)` in order -/
def accum [Add T] (arr : List T) (cs : List (Nat × T)) : List T :=
  cs.foldl (fun a c => a.modify c.1 (fun x => x + c.2)) arr

theorem accum_append [Add T] (arr : List T) (cs ds : List (Nat × T)) :
    accum arr (cs ++ ds) = accum (accum arr cs) ds := by
  simp [accum]

theorem accum_length [Add T] (arr : List T) (cs : List (Nat × T)) : (accum arr cs).length = arr.length := by
  induction cs generalizing arr with
  | nil => rfl
  | cons c cs ih =>
    have := ih (arr.modify c.1 (fun x => x + c.2))
    simpa [accum] using this

theorem accum_getElem? [Add T] (arr : List T) (cs : List (Nat × T)) (p : Nat) :
    (accum arr cs)[p]? =
      arr[p]?.map (fun x => (cs.filter (fun c => c.1 = p)).foldl (fun a c => a + c.2) x) := by
  induction cs generalizing arr with
  | nil => simp [accum]
  | cons c cs ih =>
    have := ih (arr.modify c.1 (fun x => x + c.2))
    rw [accum, List.foldl_cons]
    rw [accum] at this
    rw [this, List.getElem?_modify]
    by_cases h : c.1 = p
    · simp [h, Function.comp_def]
    · simp [h]

theorem addAt_ok [Add T] {arr : List T} {i : Nat} (h : i < arr.length) (v : T) :
    addAt arr i v = .ok (arr.modify i (fun x => x + v)) := by
  unfold addAt
  rw [idxR_ok h]
  simp only [R.bind_ok, R.pure_eq]
  congr 1
  apply List.ext_getElem?
  intro j
  rw [List.getElem?_set, List.getElem?_modify]
  by_cases hj : i = j
  · subst hj; simp [h]
  · simp [hj]

theorem foldlM_addAt [Add T] {α : Type _} (l : List α) (f : List T → α → R (List T)) (c : α → Nat × T)
    (n : Nat)
    (hf : ∀ arr : List T, arr.length = n → ∀ a ∈ l, f arr a = addAt arr (c a).1 (c a).2)
    (hc : ∀ a ∈ l, (c a).1 < n) :
    ∀ arr : List T, arr.length = n → l.foldlM f arr = .ok (accum arr (l.map c)) := by
  induction l with
  | nil => intro arr _; rfl
  | cons a l ih =>
    intro arr h
    rw [List.foldlM_cons, hf arr h a (by simp), addAt_ok (by rw [h]; exact hc a (by simp)), R.bind_ok,
      ih (fun arr h b hb => hf arr h b (by simp [hb])) (fun b hb => hc b (by simp [hb])) _ (by simpa using h)]
    rfl

theorem filter_range_eq (n r : Nat) (h : r < n) : (List.range n).filter (fun x => x = r) = [r] := by
  induction n with
  | zero => omega
  | succ n ih =>
    rw [List.range_succ, List.filter_append]
    by_cases hr : r = n
    · subst hr
      have : (List.range r).filter (fun x => decide (x = r)) = [] := by
        rw [List.filter_eq_nil_iff]; intro a ha; simp at ha; simp; omega
      simp [this]
    · rw [ih (by omega)]
      simp; omega

theorem cell_inj {m r r' e e' : Nat} (he : e < m) (he' : e' < m) : r' * m + e' = r * m + e ↔ r' = r ∧ e' = e := by
  constructor
  · intro h
    have h1 : (r' * m + e') / m = r' := by
      rw [Nat.mul_comm, Nat.mul_add_div (by omega), Nat.div_eq_of_lt he']; rfl
    have h2 : (r * m + e) / m = r := by
      rw [Nat.mul_comm, Nat.mul_add_div (by omega), Nat.div_eq_of_lt he]; rfl
    rw [h, h2] at h1
    subst h1
    omega
  · rintro ⟨rfl, rfl⟩; rfl

/-! ### `jvp_from_diagonal_broadcast` -/

theorem allIndices_row (n : Nat) : allIndices [1, n] = (List.range n).map (fun k => [0, k]) := by
  simp [allIndices, Function.comp_def]
  simp [List.map_eq_flatMap]
  induction n with
  | zero => rfl
  | succ n ih => simp [List.range_succ, ih]

theorem diagLoop_eq [Add T] [Mul T] {n m d0 : Nat} {bs inShape : List Nat} {diag grad : Raw T}
    (hd : diag.shape = [1, n]) (hbs : bs.prod = n) {P : Nat → Nat} {D : Nat → T} {g : Nat → Nat → T}
    (hP : ∀ k idx, (allIndices bs)[k]? = some idx → globalIndex idx inShape none = .ok (P k) ∧ P k < m)
    (hD : ∀ k < n, diag.at [0, k] = .ok (D k)) (hg : ∀ r < d0, ∀ k < n, grad.at [r, k] = .ok (g r k)) :
    ∀ (fuel k : Nat) (idx orig : List Nat) (arr : List T), arr.length = d0 * m → n ≤ k + fuel → k < n →
      (allIndices [1, n])[k]? = some idx → (allIndices bs)[k]? = some orig →
      diagLoop diag [d0, m] bs inShape grad d0 fuel idx orig arr =
        .ok (accum arr ((List.range' k (n - k)).flatMap fun k =>
          (List.range d0).map fun r => (r * m + P k, D k * g r k))) := by
  intro fuel
  induction fuel with
  | zero => intro k; intros; omega
  | succ fuel ih =>
    intro k idx orig arr hlen hf hk hi ho
    have hlr : (allIndices [1, n]).length = n := by simp [allIndices_length]
    have hlb : (allIndices bs).length = n := by rw [allIndices_length, hbs]
    have hidx : idx = [0, k] := by
      rw [allIndices_row, List.getElem?_map, List.getElem?_range hk] at hi
      simpa using hi.symm
    obtain ⟨hp1, hp2⟩ := hP k orig ho
    rw [diagLoop, hd, hidx, globalIndex_inRange (inRange2.2 ⟨by omega, hk⟩)]
    simp only [unwrapR_ok, R.bind_ok, rowMajor]
    have hinner : (List.range d0).foldlM (init := arr) (fun array jacIdx0 => do
        let outputIdx ← unwrapR (globalIndex orig inShape none)
        let outputJacIdx ← unwrapR (globalIndex [jacIdx0, outputIdx] [d0, m] none)
        let gradVal ← grad.at [jacIdx0, 0 * [n].prod + (k * ([] : List Nat).prod + 0)]
        let diagVal ← diag.at [0, k]
        addAt array outputJacIdx (diagVal * gradVal))
        = .ok (accum arr ((List.range d0).map fun r => (r * m + P k, D k * g r k))) := by
      refine foldlM_addAt _ _ (fun r => (r * m + P k, D k * g r k)) (d0 * m) ?_ ?_ arr hlen
      · intro arr hl r hr
        rw [List.mem_range] at hr
        rw [hp1]
        simp only [unwrapR_ok, R.bind_ok]
        rw [globalIndex_inRange (inRange2.2 ⟨hr, hp2⟩)]
        simp only [unwrapR_ok, R.bind_ok, rowMajor, List.prod_cons, List.prod_nil, Nat.mul_one, Nat.zero_mul,
          Nat.zero_add, Nat.add_zero]
        rw [hg r hr k hk, hD k hk]
        rfl
      · intro r hr
        rw [List.mem_range] at hr
        have : (r + 1) * m ≤ d0 * m := Nat.mul_le_mul_right _ hr
        rw [Nat.add_mul] at this
        simp only; omega
    rw [hinner]
    simp only [R.bind_ok]
    by_cases hlast : k + 1 = n
    · have h1 := incrementIndex_last (shape := [1, n]) (k := k) (by omega)
      have e1 : (allIndices [1, n])[k]'(by omega) = [0, k] := by
        have := List.getElem?_eq_getElem (l := allIndices [1, n]) (i := k) (by omega)
        rw [hi, hidx] at this; simpa using this.symm
      rw [e1] at h1
      rw [h1]
      simp only [R.bind_ok, Bool.false_eq_true, if_false, R.pure_eq]
      rw [show n - k = 1 by omega]
      simp
    · have h1 := incrementIndex_getElem (shape := [1, n]) (k := k) (by omega)
      have h2 := incrementIndex_getElem (shape := bs) (k := k) (by omega)
      have e1 : (allIndices [1, n])[k]'(by omega) = [0, k] := by
        have := List.getElem?_eq_getElem (l := allIndices [1, n]) (i := k) (by omega)
        rw [hi, hidx] at this; simpa using this.symm
      have e2 : (allIndices bs)[k]'(by omega) = orig := by
        have := List.getElem?_eq_getElem (l := allIndices bs) (i := k) (by omega)
        rw [ho] at this; simpa using this.symm
      rw [e1] at h1
      rw [e2] at h2
      rw [h1]
      simp only [R.bind_ok, if_true]
      rw [h2]
      simp only [R.bind_ok, assertR_true]
      rw [ih (k + 1) _ _ _ (by rw [accum_length, hlen]) (by omega) (by omega)
        (List.getElem?_eq_getElem (by omega)) (List.getElem?_eq_getElem (by omega)), ← accum_append]
      congr 2
      rw [show n - k = (n - (k + 1)) + 1 by omega, List.range'_succ, List.flatMap_cons]

/-- contributions that hit cell `(r, e)` -/
theorem filter_cells {d0 m n r e : Nat} (hr : r < d0) (he : e < m) (P : Nat → Nat) (v : Nat → Nat → T)
    (hP : ∀ k < n, P k < m) :
    ((List.range n).flatMap fun k => (List.range d0).map fun r => (r * m + P k, v r k)).filter
      (fun c => c.1 = r * m + e)
    = ((List.range n).filter (fun k => P k = e)).map (fun k => (r * m + e, v r k)) := by
  have : ∀ l : List Nat, (∀ k ∈ l, P k < m) →
      (l.flatMap fun k => (List.range d0).map fun r => (r * m + P k, v r k)).filter
        (fun c => c.1 = r * m + e)
      = (l.filter (fun k => P k = e)).map (fun k => (r * m + e, v r k)) := by
    intro l
    induction l with
    | nil => intro _; rfl
    | cons k l ih =>
      intro h
      rw [List.flatMap_cons, List.filter_append, ih (fun x hx => h x (by simp [hx])), List.filter_map]
      have hk := h k (by simp)
      by_cases hpe : P k = e
      · have e1 : (List.range d0).filter ((fun c : Nat × T => decide (c.1 = r * m + e)) ∘ fun r => (r * m + P k, v r k))
            = [r] := by
          rw [← filter_range_eq d0 r hr]
          apply List.filter_congr
          intro x _
          simp only [Function.comp, decide_eq_decide]
          rw [cell_inj he hk]; simp [hpe]
        rw [e1]
        simp [hpe]
      · have e1 : (List.range d0).filter ((fun c : Nat × T => decide (c.1 = r * m + e)) ∘ fun r => (r * m + P k, v r k))
            = [] := by
          rw [List.filter_eq_nil_iff]
          intro x _
          simp only [Function.comp, decide_eq_true_eq]
          rw [cell_inj he hk]; simp [hpe]
        rw [e1]
        simp [hpe]
  exact this _ (fun k hk => hP k (List.mem_range.1 hk))

/-- an upstream gradient: a matrix of `rows` by `n`, or the scalar `backward` starts with -/
def GradOk (grad : Raw T) (rows n : Nat) (g : Nat → Nat → T) : Prop :=
  (grad.shape = [rows, n] ∧ WF grad ∧ ∀ r < rows, ∀ k < n, grad.array[r * n + k]? = some (g r k)) ∨
  (grad.shape = [] ∧ rows = 1 ∧ WF grad ∧ ∀ k, grad.array[0]? = some (g 0 k))

theorem GradOk.at {grad : Raw T} {rows n : Nat} {g : Nat → Nat → T} (h : GradOk grad rows n g) {r k : Nat}
    (hr : r < rows) (hk : k < n) : grad.at [r, k] = .ok (g r k) := by
  rcases h with ⟨hs, _, hg⟩ | ⟨hs, h1, hw, hg⟩
  · rw [Raw.at, Raw.get_inRange (by rw [hs]; exact inRange2.2 ⟨hr, hk⟩), hs]
    have : rowMajor [rows, n] [r, k] = r * n + k := by simp [rowMajor]
    rw [this, idxR_eq_ok.2 (hg r hr k hk)]; rfl
  · have hr0 : r = 0 := by omega
    subst hr0
    have hrd : Readable grad.shape [0, k] := by rw [hs]; simp [Readable]
    rw [Raw.at, Raw.get_readable hrd, hs]
    have : rowMajor [] (bproj [] [0, k]) = 0 := by simp [rowMajor]
    rw [this, idxR_eq_ok.2 (hg k)]; rfl

theorem GradOk.dim0 {grad : Raw T} {rows n : Nat} {g : Nat → Nat → T} (h : GradOk grad rows n g) :
    gradDim0 grad = .ok rows := by
  rcases h with ⟨hs, _⟩ | ⟨hs, h1, _⟩
  · simp [gradDim0, hs, idxR]
  · simp [gradDim0, hs, h1]

theorem jvpFromDiagonalBroadcast_ok [Zero T] [Add T] [Mul T] {n m d0 : Nat} {bs inShape : List Nat}
    {diag grad : Raw T} (hd : diag.shape = [1, n]) (hbs : bs.prod = n) (hn : 0 < n)
    {P : Nat → Nat} {D : Nat → T} {g : Nat → Nat → T}
    (hP : ∀ k idx, (allIndices bs)[k]? = some idx → globalIndex idx inShape none = .ok (P k) ∧ P k < m)
    (hD : ∀ k < n, diag.at [0, k] = .ok (D k)) (hg : GradOk grad d0 n g) :
    ∃ t, jvpFromDiagonalBroadcast diag (some [d0, m]) bs inShape grad = .ok t ∧ t.shape = [d0, m] ∧ WF t ∧
      ∀ r < d0, ∀ e < m, t.array[r * m + e]? =
        some (((List.range n).filter (fun k => P k = e)).foldl (fun a k => a + D k * g r k) 0) := by
  have hpos : Pos bs := pos_of_prod_pos (by omega)
  have hpos1 : Pos [1, n] := by intro d hd; simp at hd; omega
  have key := diagLoop_eq hd hbs hP hD (fun r hr k hk => hg.at hr hk) (iterFuel diag.shape) 0
    (List.replicate diag.shape.length 0) (List.replicate bs.length 0) (List.replicate (d0 * m) 0) (by simp)
    (by rw [iterFuel, hd, prod_map_max_one hpos1]; simp) hn
    (by have := getElem_zero_allIndices hpos1; rw [hd]; exact this)
    (getElem_zero_allIndices hpos)
  have hlr : (allIndices bs).length = n := by rw [allIndices_length, hbs]
  have hle : grad.shape.length ≤ 2 := by rcases hg with ⟨hs, _⟩ | ⟨hs, _⟩ <;> simp [hs]
  have hdim : (grad.shape.length ≤ 1 ∧ d0 = 1) ∨ (¬ grad.shape.length ≤ 1 ∧ idxR grad.shape 0 = .ok d0) := by
    rcases hg with ⟨hs, _⟩ | ⟨hs, h1, _⟩
    · right; simp [hs, idxR]
    · left; simp [hs, h1]
  have i0 : idxR [d0, m] 0 = .ok d0 := rfl
  have i1 : idxR [d0, m] 1 = .ok m := rfl
  have hres : jvpFromDiagonalBroadcast diag (some [d0, m]) bs inShape grad = .ok
      ⟨accum (List.replicate (d0 * m) 0) ((List.range' 0 (n - 0)).flatMap fun k =>
          (List.range d0).map fun r => (r * m + P k, D k * g r k)), [d0, m]⟩ := by
    unfold jvpFromDiagonalBroadcast
    rw [assertR_of (by simpa using hle)]
    rcases hdim with ⟨h1, h2⟩ | ⟨h1, h2⟩
    · rw [if_pos h1]
      rw [h2] at i0 i1 key ⊢
      simp only [R.bind_ok, R.pure_eq, i0, i1]
      rw [assertR_of (by simp)]
      simp only [R.bind_ok]
      rw [key]
      exact Raw.new_ok (by simp [accum_length])
    · rw [if_neg h1]
      simp only [R.bind_ok, i0, i1, h2]
      rw [assertR_of (by simp)]
      simp only [R.bind_ok]
      rw [key]
      exact Raw.new_ok (by simp [accum_length])
  refine ⟨_, hres, rfl, by simp [WF, accum_length], fun r hr e he => ?_⟩
  have hlt : r * m + e < d0 * m := by
    have : (r + 1) * m ≤ d0 * m := Nat.mul_le_mul_right _ hr
    rw [Nat.add_mul] at this
    omega
  rw [accum_getElem?, ← List.range_eq_range', Nat.sub_zero]
  rw [filter_cells hr he P (fun r k => D k * g r k) (fun k hk => by
    obtain ⟨idx, hidx⟩ : ∃ idx, (allIndices bs)[k]? = some idx := ⟨_, List.getElem?_eq_getElem (by omega)⟩
    exact (hP k idx hidx).2)]
  simp [List.getElem?_replicate, hlt, List.foldl_map]

/-! ### elementwise operations -/

theorem diag_at {arr : List T} {n k : Nat} (hn : arr.length = n) (hk : k < n) :
    (⟨arr, [1, n]⟩ : Raw T).at [0, k] = .ok (arr[k]'(by omega)) := by
  rw [Raw.at, Raw.get_inRange (inRange2.2 ⟨by omega, hk⟩)]
  have : rowMajor [1, n] [0, k] = k := by simp [rowMajor]
  rw [this, idxR_ok (show k < arr.length by omega)]; rfl

theorem genericUnaryJvp_ok [Zero T] [Add T] [Mul T] {t grad : Raw T} (ht : WF t) (hp : Pos t.shape) {d0 : Nat}
    {g : Nat → Nat → T} (hg : GradOk grad d0 t.array.length g) (f : T → T) :
    ∃ s, genericUnaryJvp t grad f = .ok [s] ∧ s.shape = [d0, t.array.length] ∧ WF s ∧
      ∀ r < d0, ∀ e, (he : e < t.array.length) →
        s.array[r * t.array.length + e]? = some (0 + f (t.array[e]) * g r e) := by
  have hlen : t.array.length = t.shape.prod := ht
  have hn : 0 < t.array.length := by rw [hlen]; exact prod_pos_of_pos hp
  have harr : forIndices t.shape [] (fun acc idx => do
      let v ← unwrapR (t.get idx)
      return acc ++ [f v]) = (.ok (t.array.map f) : R (List T)) := by
    have h1 := forIndices_append hp (fun idx => do let v ← unwrapR (t.get idx); return f v)
    have h2 : (allIndices t.shape).mapM (fun idx => do let v ← unwrapR (t.get idx); (return f v : R T))
        = .ok (t.array.map f) := by
      have h3 := mapM_get (x := .raw t) ht
      rw [elems_raw ht] at h3
      rw [mapM_ok_iff] at h3 ⊢
      rw [List.forall₂_map_right_iff]
      exact h3.imp (fun a b h => by simp only [TL.get] at h; rw [h]; rfl)
    rw [h2] at h1
    rw [← h1]
    congr 1
    funext acc idx
    cases unwrapR (t.get idx) <;> rfl
  unfold genericUnaryJvp
  rw [hg.dim0]
  simp only [R.bind_ok]
  rw [harr]
  simp only [R.bind_ok]
  rw [Raw.new_ok (by simp)]
  simp only [R.bind_ok]
  obtain ⟨s, h1, h2, h3, h4⟩ := jvpFromDiagonalBroadcast_ok (diag := ⟨t.array.map f, [1, t.array.length]⟩)
    (bs := t.shape) (inShape := t.shape) (m := t.array.length) (P := fun k => k)
    (D := fun k => f (t.array.getD k 0)) rfl hlen.symm hn
    (fun k idx hk => by
      have hkl : k < (allIndices t.shape).length := (List.getElem?_eq_some_iff.1 hk).1
      have hidx : (allIndices t.shape)[k] = idx := (List.getElem?_eq_some_iff.1 hk).2
      have hr := inRange_getElem_allIndices hkl
      have hm := rowMajor_getElem_allIndices hkl
      rw [hidx] at hr hm
      refine ⟨?_, ?_⟩
      · rw [globalIndex_inRange hr, hm]
      · rw [allIndices_length] at hkl; omega)
    (fun k hk => by
      rw [diag_at (by simp) hk]; simp [hk]) hg
  rw [h1]
  refine ⟨s, rfl, h2, h3, fun r hr e he => ?_⟩
  rw [h4 r hr e he, filter_range_eq _ _ he]
  simp [he]

theorem genericBinopJvp_ok [Zero T] [Add T] [Mul T] {l r grad : Raw T} (hl : WF l) (hr : WF r) (pl : Pos l.shape)
    (pr : Pos r.shape) (hc : Compatible l.shape r.shape) {d0 : Nat} {g : Nat → Nat → T}
    (hg : GradOk grad d0 (bshape l.shape r.shape).prod g) (f : T → T → T) (D : List Nat → T)
    (hD : ∀ idx, InRange (bshape l.shape r.shape) idx → ∀ x y, Raw.elem? l (bproj l.shape idx) = some x →
      Raw.elem? r (bproj r.shape idx) = some y → D idx = f x y) :
    ∃ a b, genericBinopJvp l r grad f = .ok [a, b] ∧
      a.shape = [d0, l.array.length] ∧ WF a ∧ b.shape = [d0, r.array.length] ∧ WF b ∧
      (∀ row < d0, ∀ e, InRange l.shape e → a.array[row * l.array.length + rowMajor l.shape e]? =
        some (((allIndices (bshape l.shape r.shape)).filter (fun idx => bproj l.shape idx = e)).foldl
          (fun acc idx => acc + D idx * g row (rowMajor (bshape l.shape r.shape) idx)) 0)) ∧
      (∀ row < d0, ∀ e, InRange r.shape e → b.array[row * r.array.length + rowMajor r.shape e]? =
        some (((allIndices (bshape l.shape r.shape)).filter (fun idx => bproj r.shape idx = e)).foldl
          (fun acc idx => acc + D idx * g row (rowMajor (bshape l.shape r.shape) idx)) 0)) := by
  have hms := maxShape_eq_bshape pl pr hc
  have hpb : Pos (bshape l.shape r.shape) := by rw [← hms]; exact maxShape_pos pl pr
  generalize hbs : bshape l.shape r.shape = bs at *
  have hn : 0 < bs.prod := prod_pos_of_pos hpb
  have hread : ∀ idx, InRange bs idx → ∃ x y, l.get idx = .ok x ∧ r.get idx = .ok y ∧
      Raw.elem? l (bproj l.shape idx) = some x ∧ Raw.elem? r (bproj r.shape idx) = some y := by
    intro idx hi
    obtain ⟨h1, h2⟩ := readable_left_right hc (hbs ▸ hi)
    obtain ⟨x, hx1, hx2⟩ := Raw.get_ok hl (bproj_inRange pl h1)
    obtain ⟨y, hy1, hy2⟩ := Raw.get_ok hr (bproj_inRange pr h2)
    rw [Raw.get_inRange (bproj_inRange pl h1), ← Raw.get_readable h1] at hx2
    rw [Raw.get_inRange (bproj_inRange pr h2), ← Raw.get_readable h2] at hy2
    exact ⟨x, y, hx2, hy2, hx1, hy1⟩
  have harr : forIndices bs [] (fun acc idx => do
      let l ← unwrapR (l.get idx)
      let r ← unwrapR (r.get idx)
      return acc ++ [f l r]) = (.ok ((allIndices bs).map D) : R (List T)) := by
    have h1 := forIndices_append hpb (fun idx => do
      let x ← unwrapR (l.get idx)
      let y ← unwrapR (r.get idx)
      return f x y)
    have h2 := mapM_ok_of (fun idx => do
      let x ← unwrapR (l.get idx)
      let y ← unwrapR (r.get idx)
      return f x y) D (allIndices bs) (fun idx hi => by
        obtain ⟨x, y, e1, e2, e3, e4⟩ := hread idx (mem_allIndices.1 hi)
        rw [e1, e2, hD idx (mem_allIndices.1 hi) x y e3 e4]; rfl)
    rw [h2] at h1
    rw [← h1]
    congr 1
    funext acc idx
    cases unwrapR (l.get idx) <;> [rfl; (cases unwrapR (r.get idx) <;> rfl)]
  have hfirst : ¬ grad.shape.length ≥ 2 ∨ (grad.shape.length ≥ 2 ∧ idxR grad.shape 1 = .ok bs.prod) := by
    rcases hg with ⟨hs, _⟩ | ⟨hs, _⟩
    · right; simp [hs, idxR]
    · left; simp [hs]
  have main : ∀ t : Raw T, WF t → Pos t.shape → (∀ idx, InRange bs idx → Readable t.shape idx) →
      ∃ a, jvpFromDiagonalBroadcast ⟨(allIndices bs).map D, [1, bs.prod]⟩ (some [d0, t.array.length]) bs t.shape grad
        = .ok a ∧ a.shape = [d0, t.array.length] ∧ WF a ∧
        ∀ row < d0, ∀ e, InRange t.shape e → a.array[row * t.array.length + rowMajor t.shape e]? =
        some (((allIndices bs).filter (fun idx => bproj t.shape idx = e)).foldl
          (fun acc idx => acc + D idx * g row (rowMajor bs idx)) 0) := by
    intro t ht pt hrd
    have hlen : t.array.length = t.shape.prod := ht
    let I : Nat → List Nat := fun k => (allIndices bs).getD k []
    have hI : ∀ k, k < bs.prod → (allIndices bs)[k]? = some (I k) := by
      intro k hk
      have : k < (allIndices bs).length := by rw [allIndices_length]; exact hk
      simp [I, this]
    have hIr : ∀ k, k < bs.prod → InRange bs (I k) ∧ rowMajor bs (I k) = k := by
      intro k hk
      have hkl : k < (allIndices bs).length := by rw [allIndices_length]; exact hk
      have hidx : (allIndices bs)[k] = I k := (List.getElem?_eq_some_iff.1 (hI k hk)).2
      have hr := inRange_getElem_allIndices hkl
      have hm := rowMajor_getElem_allIndices hkl
      rw [hidx] at hr hm
      exact ⟨hr, hm⟩
    obtain ⟨a, h1, h2, h3, h4⟩ := jvpFromDiagonalBroadcast_ok (diag := ⟨(allIndices bs).map D, [1, bs.prod]⟩)
      (bs := bs) (inShape := t.shape) (m := t.array.length)
      (P := fun k => rowMajor t.shape (bproj t.shape (I k))) (D := fun k => D (I k)) rfl rfl hn
      (fun k idx hk => by
        have hkl : k < bs.prod := by
          rw [← allIndices_length bs]; exact (List.getElem?_eq_some_iff.1 hk).1
        have hidx : idx = I k := by
          have := hI k hkl; rw [hk] at this; simpa using this
        subst hidx
        obtain ⟨hr, hm⟩ := hIr k hkl
        exact ⟨globalIndex_none_ok (hrd _ hr), by rw [hlen]; exact rowMajor_lt (bproj_inRange pt (hrd _ hr))⟩)
      (fun k hk => by
        rw [diag_at (by simp [allIndices_length]) hk]
        have hk' : k < (allIndices bs).length := by rw [allIndices_length]; exact hk
        simp [I, hk']) hg
    refine ⟨a, h1, h2, h3, fun row hrow e he => ?_⟩
    rw [h4 row hrow _ (by rw [hlen]; exact rowMajor_lt he)]
    congr 1
    have hlist : allIndices bs = (List.range bs.prod).map I := by
      apply List.ext_getElem?
      intro k
      by_cases hk : k < bs.prod
      · rw [hI k hk]; simp [hk]
      · rw [List.getElem?_eq_none (by rw [allIndices_length]; omega), List.getElem?_eq_none (by simp; omega)]
    rw [hlist, List.filter_map, List.foldl_map]
    have hfil : (List.range bs.prod).filter (fun k => decide (rowMajor t.shape (bproj t.shape (I k)) = rowMajor t.shape e))
        = (List.range bs.prod).filter ((fun idx => decide (bproj t.shape idx = e)) ∘ I) := by
      apply List.filter_congr
      intro k hk
      obtain ⟨hr, hm⟩ := hIr k (List.mem_range.1 hk)
      simp only [Function.comp, decide_eq_decide]
      exact ⟨fun h => rowMajor_inj (bproj_inRange pt (hrd _ hr)) he h, fun h => by rw [h]⟩
    rw [hfil]
    have : ∀ L : List Nat, (∀ k ∈ L, k < bs.prod) → ∀ acc : T,
        L.foldl (fun a k => a + D (I k) * g row k) acc
          = L.foldl (fun a k => a + D (I k) * g row (rowMajor bs (I k))) acc := by
      intro L
      induction L with
      | nil => intros; rfl
      | cons k L ih =>
        intro h acc
        rw [List.foldl_cons, List.foldl_cons, ih (fun x hx => h x (by simp [hx])), (hIr k (h k (by simp))).2]
    exact this _ (fun k hk => List.mem_range.1 (List.mem_filter.1 hk).1) 0
  obtain ⟨a, a1, a2, a3, a4⟩ := main l hl pl (fun idx hi => (readable_left_right hc (hbs ▸ hi)).1)
  obtain ⟨b, b1, b2, b3, b4⟩ := main r hr pr (fun idx hi => (readable_left_right hc (hbs ▸ hi)).2)
  refine ⟨a, b, ?_, a2, a3, b2, b3, a4, b4⟩
  unfold genericBinopJvp
  rw [hms]
  simp only []
  have tail : (do
      let dim0 ← gradDim0 grad
      let array ← forIndices bs [] fun acc idx => do
        let l ← unwrapR (l.get idx)
        let r ← unwrapR (r.get idx)
        pure (acc ++ [f l r])
      let diag ← Raw.new array [1, bs.prod]
      let leftJvp ← jvpFromDiagonalBroadcast diag (some [dim0, l.array.length]) bs l.shape grad
      let rightJvp ← jvpFromDiagonalBroadcast diag (some [dim0, r.array.length]) bs r.shape grad
      (pure [leftJvp, rightJvp] : R (List (Raw T)))) = .ok [a, b] := by
    rw [hg.dim0]
    simp only [R.bind_ok]
    rw [harr]
    simp only [R.bind_ok]
    rw [Raw.new_ok (by simp [allIndices_length])]
    simp only [R.bind_ok]
    rw [a1, b1]
    rfl
  rcases hfirst with h | ⟨h, h'⟩
  · rw [if_neg h]; exact tail
  · rw [if_pos h, h']
    simp only [R.bind_ok]
    rw [assertR_of (by simp)]
    exact tail

end RL
