import Verif.Lemmas.Adjoint
import Verif.Lemmas.Accum
import Verif.Props.MatMul
import Verif.Props.Elementwise

/-! Helper lemmas: derivatives of re-evaluated computations -/

namespace RL

open Spec

theorem shapeOf_eq {T : Type} {h : Heap T} {i : Nat} {n : Node T} (hn : h[i]? = some n) : shapeOf h i = n.val.shape := by
  simp [shapeOf, dataOf, hn]

theorem Spec.Feeds.input {T : Type} {h : Heap T} {i l a : Nat} {n : Node T} {d : Deriv} (hi : Feeds h i l) (hn : h[i]? = some n)
    (hd : n.gradFn = some d) (ha : a ∈ d.inputs) : Ancestor h a l := by
  have h1 : IsInput h a i := ⟨n, d, hn, hd, ha⟩
  rcases hi with rfl | hi
  · exact .single h1
  · exact .head h1 hi

/-- the unary operations -/
def isUnary : JvpKind → Prop
  | .neg | .relu | .abs | .tanh => True
  | _ => False

noncomputable def uval : JvpKind → ℝ → ℝ
  | .neg => fun z => -z
  | .relu => fun z => max z 0
  | .abs => fun z => |z|
  | _ => Real.tanh

noncomputable def uder : JvpKind → ℝ → ℝ
  | .neg => fun _ => -1
  | .relu => reluDeriv
  | .abs => absDeriv
  | _ => fun z => 1 - Real.tanh z ^ 2

theorem hasDerivAt_uval {k : JvpKind} (hk : isUnary k) {z : ℝ} (hz : k = .relu ∨ k = .abs → z ≠ 0) : HasDerivAt (uval k) (uder k z) z := by
  cases k <;> simp only [isUnary] at hk
  · exact (hasDerivAt_id z).neg
  · exact hasDerivAt_relu (hz (by simp))
  · exact hasDerivAt_absDeriv (hz (by simp))
  · exact hasDerivAt_tanh z

theorem fwd_unary {k : JvpKind} (hk : isUnary k) {t v : Raw ℝ} (ht : WF t) (e : fwd k [t] = .ok v) :
    v = ⟨t.array.map (uval k), t.shape⟩ := by
  have key : ∀ f : ℝ → ℝ, genericUnaryOp (.raw t) f = .ok ⟨t.array.map f, t.shape⟩ := by
    intro f
    have := genericUnaryOp_eq (x := .raw t) ht (Or.inl ⟨t, rfl⟩) f
    rw [elems_raw ht] at this
    exact this
  cases k <;> simp only [isUnary] at hk <;> simp only [fwd] at e
  · rw [negRaw, key] at e
    cases e
    rfl
  · rw [reluRaw, key] at e
    cases e
    congr 1
    apply List.map_congr_left
    intro z _
    simp only [reluFn, uval]
    split
    · next h => exact (max_eq_right h.le).symm
    · next h => exact (max_eq_left (not_lt.1 h)).symm
  · rw [absRaw, key] at e
    cases e
    rfl
  · rw [tanhRaw, key] at e
    cases e
    rfl

/-- one node of a computation with the facts about its inputs -/
inductive NodeForm (h : Heap ℝ) (l i : Nat) : Prop where
  | leaf : historyOf h i = some none → NodeForm h l i
  | add {a b : Nat} {t u v : Raw ℝ} : historyOf h i = some (some ⟨[a, b], .add⟩) → dataOf h a = some t → dataOf h b = some u →
      dataOf h i = some v → a < i → b < i → Ancestor h a l → Ancestor h b l → Compatible t.shape u.shape →
      v.shape = bshape t.shape u.shape →
      (∀ idx, InRange v.shape idx → cell v idx = cell t (bproj t.shape idx) + cell u (bproj u.shape idx)) → NodeForm h l i
  | unary {a : Nat} {k : JvpKind} {t v : Raw ℝ} : isUnary k → historyOf h i = some (some ⟨[a], k⟩) → dataOf h a = some t →
      dataOf h i = some v → a < i → Ancestor h a l → (i = l → k ≠ .abs) → v.shape = t.shape →
      (∀ idx, InRange v.shape idx → cell v idx = uval k (cell t idx)) → NodeForm h l i
  | bmm {a b m k n : Nat} {t u v : Raw ℝ} : i ≠ l → historyOf h i = some (some ⟨[a, b], .bmm⟩) → dataOf h a = some t →
      dataOf h b = some u → dataOf h i = some v → a < i → b < i → Ancestor h a l → Ancestor h b l → t.shape = [m, k] →
      u.shape = [k, n] → v.shape = [m, n] →
      (∀ r < m, ∀ c < n, cell v [r, c] = ∑ j ∈ Finset.range k, cell t [r, j] * cell u [j, c]) → NodeForm h l i
  | sum {a : Nat} {t v : Raw ℝ} : historyOf h i = some (some ⟨[a], .sum⟩) → dataOf h a = some t → dataOf h i = some v →
      a < i → Ancestor h a l → v.shape = [] → cell v [] = ((allIndices t.shape).map (cell t)).sum → NodeForm h l i
  | dot {a b : Nat} {t u v : Raw ℝ} : i = l → historyOf h i = some (some ⟨[a, b], .dot⟩) → dataOf h a = some t → dataOf h b = some u →
      dataOf h i = some v → a < i → b < i → Ancestor h a l → Ancestor h b l → t.shape = u.shape → v.shape = [1] →
      cell v [0] = ((allIndices t.shape).map fun idx => cell t idx * cell u idx).sum → NodeForm h l i

theorem vals_one {T : Type} {h : Heap T} {a : Nat} {vs : List (Raw T)} (e : h.vals [a] = .ok vs) : ∃ n, h[a]? = some n ∧ vs = [n.val] := by
  rw [Heap.vals_cons, Heap.vals_nil] at e
  simp only [R.bind_eq_ok, Heap.node_eq_ok, R.pure_eq_ok] at e
  aesop

theorem vals_two {T : Type} {h : Heap T} {a b : Nat} {vs : List (Raw T)} (e : h.vals [a, b] = .ok vs) :
    ∃ n m, h[a]? = some n ∧ h[b]? = some m ∧ vs = [n.val, m.val] := by
  rw [Heap.vals_cons, Heap.vals_cons, Heap.vals_nil] at e
  simp only [R.bind_eq_ok, Heap.node_eq_ok, R.pure_eq_ok] at e
  aesop

theorem fwd_cases {k : JvpKind} {vs : List (Raw ℝ)} {v : Raw ℝ} (e : fwd k vs = .ok v) :
    (∃ a b, vs = [a, b] ∧ (k = .add ∨ k = .bmm ∨ k = .dot)) ∨ (∃ a, vs = [a] ∧ (isUnary k ∨ k = .sum)) := by
  unfold fwd at e
  split at e <;> simp_all [isUnary, R.panic]

theorem fwd_inputs {h : Heap ℝ} (hg : h.Good) {i : Nat} {d : Deriv} (hd : historyOf h i = some (some d)) :
    ∃ n, h[i]? = some n ∧ n.gradFn = some d ∧
    ((∃ a b na nb, d.inputs = [a, b] ∧ a < i ∧ b < i ∧ (d.kind = .add ∨ d.kind = .bmm ∨ d.kind = .dot) ∧ h[a]? = some na ∧
        h[b]? = some nb ∧ fwd d.kind [na.val, nb.val] = .ok n.val) ∨
     (∃ a na, d.inputs = [a] ∧ a < i ∧ (isUnary d.kind ∨ d.kind = .sum) ∧ h[a]? = some na ∧ fwd d.kind [na.val] = .ok n.val)) := by
  simp only [historyOf, Option.map_eq_some_iff] at hd
  obtain ⟨n, hn, hd⟩ := hd
  refine ⟨n, hn, hd, ?_⟩
  obtain ⟨vs, h1, h2⟩ := (hg i n hn).explained d hd
  have hold := (hg i n hn).older d hd
  have hlen : vs.length = d.inputs.length := (Heap.vals_eq_ok.1 h1).length_eq.symm
  rcases fwd_cases h2 with ⟨a, b, rfl, hk⟩ | ⟨a, rfl, hk⟩
  · left
    obtain ⟨x, y, hxy⟩ := List.length_eq_two.1 (show d.inputs.length = 2 by simpa using hlen.symm)
    rw [hxy] at h1 hold
    obtain ⟨na, nb, ha, hb, hvs⟩ := vals_two h1
    simp only [List.cons.injEq, and_true] at hvs
    obtain ⟨rfl, rfl⟩ := hvs
    exact ⟨x, y, na, nb, hxy, hold x (by simp), hold y (by simp), hk, ha, hb, h2⟩
  · right
    obtain ⟨x, hx⟩ := List.length_eq_one_iff.1 (show d.inputs.length = 1 by simpa using hlen.symm)
    rw [hx] at h1 hold
    obtain ⟨na, ha, hvs⟩ := vals_one h1
    simp only [List.cons.injEq, and_true] at hvs
    subst hvs
    exact ⟨x, na, hx, hold x (by simp), hk, ha, h2⟩

theorem fwd_add_cells {t u v : Raw ℝ} (ht : WF t) (hu : WF u) (pt : Pos t.shape) (pu : Pos u.shape) (e : fwd .add [t, u] = .ok v) :
    Compatible t.shape u.shape ∧ v.shape = bshape t.shape u.shape ∧
    ∀ idx, InRange v.shape idx → cell v idx = cell t (bproj t.shape idx) + cell u (bproj u.shape idx) := by
  obtain ⟨h1, h2, _, h3⟩ := genericBinopRaw_inv (l := .raw t) (r := .raw u) ht hu pt pu e
  refine ⟨h1, h2, fun idx hi => ?_⟩
  obtain ⟨x, y, hx, hy, hv⟩ := h3 idx hi
  rw [cell_elem hv]
  simp only [elem?, TL.shape] at hx hy
  rw [cell_elem hx, cell_elem hy]

theorem fwd_unary_cells {k : JvpKind} (hk : isUnary k) {t v : Raw ℝ} (ht : WF t) (e : fwd k [t] = .ok v) :
    v.shape = t.shape ∧ ∀ idx, InRange v.shape idx → cell v idx = uval k (cell t idx) := by
  rw [fwd_unary hk ht e]
  refine ⟨rfl, fun idx hi => ?_⟩
  have hlt : rowMajor t.shape idx < t.array.length := by rw [ht]; exact rowMajor_lt hi
  simp [cell, List.getD_eq_getElem?_getD, List.getElem?_eq_getElem hlt]

theorem fwd_bmm_cells {m k n : Nat} {t u v : Raw ℝ} (ht : WF t) (hu : WF u) (hts : t.shape = [m, k]) (hus : u.shape = [k, n])
    (e : fwd .bmm [t, u] = .ok v) : v.shape = [m, n] ∧
    ∀ r < m, ∀ c < n, cell v [r, c] = ∑ j ∈ Finset.range k, cell t [r, j] * cell u [j, c] := by
  obtain ⟨v', h1, h2, h3⟩ := C18_matrix_sum (.raw t) (.raw u) ht hu m k n hts hus (fun i j => cell t [i, j]) (fun i j => cell u [i, j])
    (fun i j hi hj => elem_cell ht (by rw [hts]; exact inRange2.2 ⟨hi, hj⟩))
    (fun i j hi hj => elem_cell hu (by rw [hus]; exact inRange2.2 ⟨hi, hj⟩))
  simp only [fwd] at e
  rw [h1] at e
  cases e
  refine ⟨h2, fun r hr c hc => ?_⟩
  have := h3 r c hr hc
  rw [Raw.get_inRange (by rw [h2]; exact inRange2.2 ⟨hr, hc⟩)] at this
  apply cell_elem
  simp only [idxR] at this
  split at this
  · next hv =>
    cases this
    exact hv
  · simp [R.panic] at this

theorem map_cell_allIndices {t : Raw ℝ} (ht : WF t) : (allIndices t.shape).map (cell t) = t.array := by
  apply ext_allIndices (shape := t.shape) (by simp [allIndices_length]) ht
  intro idx hi
  rw [map_allIndices_get _ hi]
  exact (elem_cell ht hi).symm

theorem fwd_sum_cells {t v : Raw ℝ} (ht : WF t) (e : fwd .sum [t] = .ok v) :
    v.shape = [] ∧ cell v [] = ((allIndices t.shape).map (cell t)).sum := by
  simp only [fwd] at e
  rw [C16_sum (.raw t) ht (Or.inl ⟨t, rfl⟩), elems_raw ht] at e
  cases e
  refine ⟨rfl, ?_⟩
  rw [map_cell_allIndices ht]
  simp [cell, rowMajor, List.sum_eq_foldl]

theorem ancestor_lt {h : Heap ℝ} (hg : h.Good) {a b : Nat} (hab : Ancestor h a b) : a < b := by
  induction hab with
  | single hb => obtain ⟨n, d, hn, hd, ha⟩ := hb; exact (hg _ n hn).older d hd _ ha
  | tail _ hb ih => obtain ⟨n, d, hn, hd, ha⟩ := hb; exact ih.trans ((hg _ n hn).older d hd _ ha)

theorem dataOf_node {T : Type} {h : Heap T} {i : Nat} {n : Node T} (hn : h[i]? = some n) : dataOf h i = some n.val := by simp [dataOf, hn]

theorem fwd_dot_cells {t u v : Raw ℝ} (ht : WF t) (hu : WF u) (e : fwd .dot [t, u] = .ok v) :
    t.shape = u.shape ∧ v.shape = [1] ∧ cell v [0] = ((allIndices t.shape).map fun idx => cell t idx * cell u idx).sum := by
  simp only [fwd] at e
  have hs : t.shape = u.shape := by
    by_contra hne
    have : (TL.raw t).sameShape (TL.raw u) = false := by simpa [TL.sameShape] using hne
    simp [dotRaw, this, R.panic] at e
  rw [dotRaw_raw ht hu hs] at e
  cases e
  refine ⟨hs, rfl, ?_⟩
  have h1 : (allIndices t.shape).map (fun idx => cell t idx * cell u idx) = List.zipWith (· * ·) t.array u.array := by
    rw [← map_cell_allIndices ht, ← map_cell_allIndices hu, ← hs, List.zipWith_map, List.zipWith_self]
  rw [h1]
  simp [cell, rowMajor, List.sum_eq_foldl]

theorem nodeForm {h : Heap ℝ} {l : Nat} (hg : h.Good) (hl : RealLoss h l) {i : Nat} (hi : Feeds h i l) : NodeForm h l i := by
  cases hh : historyOf h i with
  | none =>
    exfalso
    obtain ⟨d, hd, _⟩ := hl.root
    rcases hi with rfl | hi
    · rw [hd] at hh
      cases hh
    · have key : ∀ {b}, Ancestor h i b → ∃ n, h[i]? = some n := by
        intro b hb
        obtain ⟨c, ⟨n, d, hn, hd, hc⟩, _⟩ := Relation.TransGen.head'_iff.1 hb
        obtain ⟨vs, h1, _⟩ := (hg c n hn).explained d hd
        have := (hg c n hn).older d hd i hc
        exact ⟨h[i]'(this.trans (getElem?_lt hn)), List.getElem?_eq_getElem _⟩
      obtain ⟨n, hn⟩ := key hi
      simp [historyOf, hn] at hh
  | some o =>
  cases o with
  | none => exact .leaf hh
  | some d =>
  have hkind : (d.kind = .bmm → i ≠ l) ∧ (d.kind = .dot → i = l) ∧ (i = l → d.kind ≠ .abs) := by
    rcases hi with rfl | hi
    · obtain ⟨d', hd, hk⟩ := hl.root
      rw [hh] at hd
      cases hd
      refine ⟨fun h' => ?_, fun _ => rfl, fun _ h' => ?_⟩ <;> rw [h'] at hk <;> simp at hk
    · have hk := hl.inner i d hi hh
      refine ⟨fun _ => ?_, fun h' => ?_, ?_⟩
      · rintro rfl
        exact absurd (ancestor_lt hg hi) (lt_irrefl _)
      · rw [h'] at hk
        simp at hk
      · rintro rfl
        exact absurd (ancestor_lt hg hi) (lt_irrefl _)
  obtain ⟨n, hn, hd, hin⟩ := fwd_inputs hg hh
  obtain ⟨inputs, kind⟩ := d
  rcases hin with ⟨a, b, na, nb, hab, hai, hbi, hk, ha, hb, e⟩ | ⟨a, na, hab, hai, hk, ha, e⟩
  · simp only at hab hk e
    subst hab
    have fa := hi.input hn hd (a := a) (by simp)
    have fb := hi.input hn hd (a := b) (by simp)
    obtain ⟨wa, pa⟩ := hl.data a _ (Or.inr fa) (dataOf_node ha)
    obtain ⟨wb, pb⟩ := hl.data b _ (Or.inr fb) (dataOf_node hb)
    rcases hk with rfl | rfl | rfl
    · obtain ⟨h1, h2, h3⟩ := fwd_add_cells wa wb pa pb e
      exact .add hh (dataOf_node ha) (dataOf_node hb) (dataOf_node hn) hai hbi fa fb h1 h2 h3
    · obtain ⟨m, k, n', s1, s2⟩ := hl.mats i a b hi hh
      rw [shapeOf_eq ha] at s1
      rw [shapeOf_eq hb] at s2
      obtain ⟨h1, h2⟩ := fwd_bmm_cells wa wb s1 s2 e
      exact .bmm (hkind.1 rfl) hh (dataOf_node ha) (dataOf_node hb) (dataOf_node hn) hai hbi fa fb s1 s2 h1 h2
    · obtain ⟨h1, h2, h3⟩ := fwd_dot_cells wa wb e
      exact .dot (hkind.2.1 rfl) hh (dataOf_node ha) (dataOf_node hb) (dataOf_node hn) hai hbi fa fb h1 h2 h3
  · simp only at hab hk e
    subst hab
    have fa := hi.input hn hd (a := a) (by simp)
    obtain ⟨wa, pa⟩ := hl.data a _ (Or.inr fa) (dataOf_node ha)
    rcases hk with hk | rfl
    · obtain ⟨h1, h2⟩ := fwd_unary_cells hk wa e
      exact .unary hk hh (dataOf_node ha) (dataOf_node hn) hai fa hkind.2.2 h1 h2
    · obtain ⟨h1, h2⟩ := fwd_sum_cells wa e
      exact .sum hh (dataOf_node ha) (dataOf_node hn) hai fa h1 h2

/-! ### re-evaluation -/

theorem Spec.Reeval.unary {h : Heap ℝ} {l x : Nat} {X : List Nat → ℝ} {V : Nat → List Nat → ℝ} (hV : Reeval h l x X V) {i a : Nat}
    {k : JvpKind} (hk : isUnary k) (hi : Feeds h i l) (hx : i ≠ x) (hh : historyOf h i = some (some ⟨[a], k⟩)) {idx : List Nat}
    (hidx : InRange (shapeOf h i) idx) : V i idx = uval k (V a idx) := by
  cases k <;> simp only [isUnary] at hk
  · exact hV.neg i a hi hx hh idx hidx
  · exact hV.relu i a hi hx hh idx hidx
  · exact hV.abs i a hi hx hh idx hidx
  · exact hV.tanh i a hi hx hh idx hidx

theorem shapeOf_data {T : Type} {h : Heap T} {i : Nat} {v : Raw T} (hv : dataOf h i = some v) : shapeOf h i = v.shape := by
  simp [shapeOf, hv]

theorem allIndices_sum_congr {s : List Nat} {f g : List Nat → ℝ} (hfg : ∀ idx, InRange s idx → f idx = g idx) :
    ((allIndices s).map f).sum = ((allIndices s).map g).sum := by
  congr 1
  exact List.map_congr_left fun idx hi => hfg idx (mem_allIndices.1 hi)

theorem inRange_one {idx : List Nat} (hi : InRange [1] idx) : idx = [0] := by
  cases hi with
  | cons h1 h2 =>
    cases h2
    simp at h1
    rw [h1]

/-- re-evaluation with the actual elements gives the actual elements -/
theorem reeval_base {h : Heap ℝ} {l x : Nat} (hg : h.Good) (hl : RealLoss h l) {X : List Nat → ℝ} {V : Nat → List Nat → ℝ}
    (hV : Reeval h l x X V) (hX : ∀ v, dataOf h x = some v → ∀ idx, InRange v.shape idx → X idx = cell v idx) :
    ∀ (i : Nat) (v : Raw ℝ), Feeds h i l → dataOf h i = some v → ∀ idx, InRange v.shape idx → V i idx = cell v idx := by
  intro i
  induction i using Nat.strong_induction_on with
  | _ i ih =>
  intro v hi hv idx hidx
  have hs := shapeOf_data hv
  by_cases hx : i = x
  · subst hx
    rw [hV.self idx (by rw [hs]; exact hidx), hX v hv idx hidx]
  cases nodeForm hg hl hi with
  | leaf hh => exact (cell_elem (hV.leaf i v hi hx hv hh idx hidx)).symm
  | @add a b t u v' hh ht hu hv' hai hbi fa fb hc hsh hcell =>
    rw [hv] at hv'
    cases hv'
    obtain ⟨_, pt⟩ := hl.data a t (Or.inr fa) ht
    obtain ⟨_, pu⟩ := hl.data b u (Or.inr fb) hu
    obtain ⟨h1, h2⟩ := bproj_mem pt pu hc (hsh ▸ hidx)
    rw [hV.add i a b hi hx hh idx (hs ▸ hidx), shapeOf_data ht, shapeOf_data hu, ih a hai t (Or.inr fa) ht _ h1,
      ih b hbi u (Or.inr fb) hu _ h2, hcell idx hidx]
  | @unary a k t v' hk hh ht hv' hai fa _ hsh hcell =>
    rw [hv] at hv'
    cases hv'
    rw [hV.unary hk hi hx hh (hs ▸ hidx), ih a hai t (Or.inr fa) ht idx (hsh ▸ hidx), hcell idx hidx]
  | @bmm a b m k n t u v' _ hh ht hu hv' hai hbi fa fb hts hus hsh hcell =>
    rw [hv] at hv'
    cases hv'
    rw [hsh] at hidx
    obtain ⟨r, c, rfl⟩ : ∃ r c, idx = [r, c] := List.length_eq_two.1 hidx.length_eq.symm
    obtain ⟨hr, hc⟩ := inRange2.1 hidx
    rw [hV.bmm i a b hi hx hh m k n ((shapeOf_data ht).trans hts) ((shapeOf_data hu).trans hus) r hr c hc, hcell r hr c hc]
    refine Finset.sum_congr rfl fun j hj => ?_
    rw [Finset.mem_range] at hj
    rw [ih a hai t (Or.inr fa) ht _ (by rw [hts]; exact inRange2.2 ⟨hr, hj⟩),
      ih b hbi u (Or.inr fb) hu _ (by rw [hus]; exact inRange2.2 ⟨hj, hc⟩)]
  | @sum a t v' hh ht hv' hai fa hsh hcell =>
    rw [hv] at hv'
    cases hv'
    rw [hsh] at hidx
    obtain rfl : idx = [] := List.length_eq_zero_iff.1 hidx.length_eq.symm
    rw [hV.sum i a hi hx hh, hcell, shapeOf_data ht]
    exact allIndices_sum_congr fun idx hidx => ih a hai t (Or.inr fa) ht idx hidx
  | @dot a b t u v' _ hh ht hu hv' hai hbi fa fb hts hsh hcell =>
    rw [hv] at hv'
    cases hv'
    rw [hsh] at hidx
    obtain rfl := inRange_one hidx
    rw [hV.dot i a b hi hx hh, hcell, shapeOf_data ht]
    refine allIndices_sum_congr fun idx hidx => ?_
    rw [ih a hai t (Or.inr fa) ht idx hidx, ih b hbi u (Or.inr fb) hu idx (hts ▸ hidx)]

/-- the equations for the derivatives of all elements -/
structure Tan (h : Heap ℝ) (l x : Nat) (e : List Nat) (τ : Nat → List Nat → ℝ) : Prop where
  self : ∀ idx, InRange (shapeOf h x) idx → τ x idx = if e = idx then 1 else 0
  leaf : ∀ i, Feeds h i l → i ≠ x → historyOf h i = some none → ∀ idx, InRange (shapeOf h i) idx → τ i idx = 0
  add : ∀ i a b, Feeds h i l → i ≠ x → historyOf h i = some (some ⟨[a, b], .add⟩) → ∀ idx, InRange (shapeOf h i) idx →
    τ i idx = τ a (bproj (shapeOf h a) idx) + τ b (bproj (shapeOf h b) idx)
  unary : ∀ i a k t, isUnary k → Feeds h i l → i ≠ x → historyOf h i = some (some ⟨[a], k⟩) → dataOf h a = some t →
    ∀ idx, InRange (shapeOf h i) idx → τ i idx = uder k (cell t idx) * τ a idx
  bmm : ∀ i a b t u, Feeds h i l → i ≠ x → historyOf h i = some (some ⟨[a, b], .bmm⟩) → dataOf h a = some t → dataOf h b = some u →
    ∀ m k n, t.shape = [m, k] → u.shape = [k, n] → ∀ r < m, ∀ c < n,
    τ i [r, c] = ∑ j ∈ Finset.range k, (τ a [r, j] * cell u [j, c] + cell t [r, j] * τ b [j, c])
  sum : ∀ i a, Feeds h i l → i ≠ x → historyOf h i = some (some ⟨[a], .sum⟩) → τ i [] = ((allIndices (shapeOf h a)).map (τ a)).sum
  dot : ∀ i a b t u, Feeds h i l → i ≠ x → historyOf h i = some (some ⟨[a, b], .dot⟩) → dataOf h a = some t → dataOf h b = some u →
    τ i [0] = ((allIndices t.shape).map fun idx => τ a idx * cell u idx + cell t idx * τ b idx).sum

theorem mem_cell {t : Raw ℝ} (ht : WF t) {idx : List Nat} (hi : InRange t.shape idx) : cell t idx ∈ t.array :=
  List.mem_of_getElem? (elem_cell ht hi)

/-- where the input of `relu` or `abs` is zero and has derivative zero, so has the result -/
theorem hasDerivAt_uval_zero {k : JvpKind} (hk : k = .relu ∨ k = .abs) {f : ℝ → ℝ} {y : ℝ} (hf : HasDerivAt f 0 y) (h0 : f y = 0) :
    HasDerivAt (fun z => uval k (f z)) 0 y := by
  have hu : ∀ z, |uval k z| ≤ |z| := by
    intro z
    rcases hk with rfl | rfl
    · simp only [uval]
      rcases le_total z 0 with hz | hz
      · rw [max_eq_right hz]; simp
      · rw [max_eq_left hz]
    · simp [uval]
  have hu0 : uval k 0 = 0 := by rcases hk with rfl | rfl <;> simp [uval]
  rw [hasDerivAt_iff_isLittleO] at hf ⊢
  simp only [h0, hu0, smul_zero, sub_zero] at hf ⊢
  refine (Asymptotics.IsBigO.of_bound 1 (Filter.Eventually.of_forall fun z => ?_)).trans_isLittleO hf
  rw [Real.norm_eq_abs, Real.norm_eq_abs, one_mul]
  exact hu _

theorem reeval_tangent_regular {h : Heap ℝ} {l x : Nat} (hg : h.Good) (hl : RealLoss h l) {X : List Nat → ℝ}
    (hX : ∀ v, dataOf h x = some v → ∀ idx, InRange v.shape idx → X idx = cell v idx) {V : (List Nat → ℝ) → Nat → List Nat → ℝ}
    (hV : ∀ Y, Reeval h l x Y (V Y)) (e : List Nat)
    (hkk : ∀ i a k t, Feeds h i l → historyOf h i = some (some ⟨[a], k⟩) → k = .relu ∨ k = .abs → dataOf h a = some t →
      ∀ idx, InRange t.shape idx → cell t idx = 0 → ∀ D, HasDerivAt (fun y => V (Function.update X e y) a idx) D (X e) → D = 0) :
    ∃ τ, Tan h l x e τ ∧ ∀ i idx, Feeds h i l → InRange (shapeOf h i) idx →
      HasDerivAt (fun y => V (Function.update X e y) i idx) (τ i idx) (X e) := by
  let W : ℝ → Nat → List Nat → ℝ := fun y => V (Function.update X e y)
  let τ : Nat → List Nat → ℝ := fun i idx => deriv (fun y => W y i idx) (X e)
  have hW : ∀ y, Reeval h l x (Function.update X e y) (W y) := fun y => hV _
  have hbase : ∀ (i : Nat) (v : Raw ℝ), Feeds h i l → dataOf h i = some v → ∀ idx, InRange v.shape idx → W (X e) i idx = cell v idx := by
    have := reeval_base hg hl (hW (X e)) (by rwa [Function.update_eq_self])
    exact this
  have kself : ∀ idx, InRange (shapeOf h x) idx → HasDerivAt (fun y => W y x idx) (if e = idx then 1 else 0) (X e) := by
    intro idx hidx
    have : (fun y => W y x idx) = fun y => Function.update X e y idx := by
      funext y
      exact (hW y).self idx hidx
    rw [this]
    by_cases he : e = idx
    · subst he
      simpa using hasDerivAt_id' (X e)
    · have : (fun y => Function.update X e y idx) = fun _ => X idx := by
        funext y
        rw [Function.update_of_ne (Ne.symm he)]
      rw [this, if_neg he]
      exact hasDerivAt_const _ _
  have kleaf : ∀ i, Feeds h i l → i ≠ x → historyOf h i = some none → ∀ idx, InRange (shapeOf h i) idx →
      HasDerivAt (fun y => W y i idx) 0 (X e) := by
    intro i hi hx hh idx hidx
    have hn : ∃ v, dataOf h i = some v := by
      simp only [historyOf, Option.map_eq_some_iff] at hh
      obtain ⟨n, hn, _⟩ := hh
      exact ⟨_, dataOf_node hn⟩
    obtain ⟨v, hv⟩ := hn
    have : (fun y => W y i idx) = fun _ => cell v idx := by
      funext y
      exact (cell_elem ((hW y).leaf i v hi hx hv hh idx (shapeOf_data hv ▸ hidx))).symm
    rw [this]
    exact hasDerivAt_const _ _
  have kadd : ∀ i a b t u, Feeds h i l → i ≠ x → historyOf h i = some (some ⟨[a, b], .add⟩) → dataOf h a = some t → dataOf h b = some u →
      ∀ idx, InRange (shapeOf h i) idx →
      HasDerivAt (fun y => W y a (bproj t.shape idx)) (τ a (bproj t.shape idx)) (X e) →
      HasDerivAt (fun y => W y b (bproj u.shape idx)) (τ b (bproj u.shape idx)) (X e) →
      HasDerivAt (fun y => W y i idx) (τ a (bproj t.shape idx) + τ b (bproj u.shape idx)) (X e) := by
    intro i a b t u hi hx hh ht hu idx hidx da db
    have : (fun y => W y i idx) = fun y => W y a (bproj t.shape idx) + W y b (bproj u.shape idx) := by
      funext y
      rw [(hW y).add i a b hi hx hh idx hidx, shapeOf_data ht, shapeOf_data hu]
    rw [this]
    exact da.fun_add db
  have kun : ∀ i a k t, isUnary k → Feeds h i l → i ≠ x → historyOf h i = some (some ⟨[a], k⟩) → dataOf h a = some t → Ancestor h a l →
      shapeOf h i = t.shape → ∀ idx, InRange (shapeOf h i) idx →
      HasDerivAt (fun y => W y a idx) (τ a idx) (X e) → HasDerivAt (fun y => W y i idx) (uder k (cell t idx) * τ a idx) (X e) := by
    intro i a k t hk hi hx hh ht fa hsh idx hidx da
    have hb := hbase a t (Or.inr fa) ht idx (hsh ▸ hidx)
    have : (fun y => W y i idx) = fun y => uval k (W y a idx) := by
      funext y
      exact (hW y).unary hk hi hx hh hidx
    rw [this]
    by_cases h0 : (k = .relu ∨ k = .abs) ∧ cell t idx = 0
    · have hD := hkk i a k t hi hh h0.1 ht idx (hsh ▸ hidx) h0.2 _ da
      rw [hD] at da ⊢
      rw [mul_zero]
      exact hasDerivAt_uval_zero h0.1 da (hb.trans h0.2)
    · have du := hasDerivAt_uval hk (z := cell t idx) (fun hk' h1 => h0 ⟨hk', h1⟩)
      rw [← hb] at du ⊢
      exact HasDerivAt.comp (X e) (h₂ := uval k) (h := fun y => W y a idx) du da
  have kbmm : ∀ i a b t u, Feeds h i l → i ≠ x → historyOf h i = some (some ⟨[a, b], .bmm⟩) → dataOf h a = some t → dataOf h b = some u →
      Ancestor h a l → Ancestor h b l → ∀ m k n, t.shape = [m, k] → u.shape = [k, n] → ∀ r < m, ∀ c < n,
      (∀ j < k, HasDerivAt (fun y => W y a [r, j]) (τ a [r, j]) (X e)) → (∀ j < k, HasDerivAt (fun y => W y b [j, c]) (τ b [j, c]) (X e)) →
      HasDerivAt (fun y => W y i [r, c]) (∑ j ∈ Finset.range k, (τ a [r, j] * cell u [j, c] + cell t [r, j] * τ b [j, c])) (X e) := by
    intro i a b t u hi hx hh ht hu fa fb m k n hts hus r hr c hc da db
    have : (fun y => W y i [r, c]) = fun y => ∑ j ∈ Finset.range k, W y a [r, j] * W y b [j, c] := by
      funext y
      exact (hW y).bmm i a b hi hx hh m k n ((shapeOf_data ht).trans hts) ((shapeOf_data hu).trans hus) r hr c hc
    rw [this]
    refine HasDerivAt.fun_sum fun j hj => ?_
    rw [Finset.mem_range] at hj
    have := (da j hj).fun_mul (db j hj)
    rwa [hbase a t (Or.inr fa) ht _ (by rw [hts]; exact inRange2.2 ⟨hr, hj⟩),
      hbase b u (Or.inr fb) hu _ (by rw [hus]; exact inRange2.2 ⟨hj, hc⟩)] at this
  have ksum : ∀ i a, Feeds h i l → i ≠ x → historyOf h i = some (some ⟨[a], .sum⟩) →
      (∀ idx, InRange (shapeOf h a) idx → HasDerivAt (fun y => W y a idx) (τ a idx) (X e)) →
      HasDerivAt (fun y => W y i []) ((allIndices (shapeOf h a)).map (τ a)).sum (X e) := by
    intro i a hi hx hh da
    have : (fun y => W y i []) = fun y => ((allIndices (shapeOf h a)).map fun idx => W y a idx).sum := by
      funext y
      exact (hW y).sum i a hi hx hh
    rw [this]
    exact hasDerivAt_list_sum (f := fun idx y => W y a idx) fun idx hidx => da idx (mem_allIndices.1 hidx)
  have kdot : ∀ i a b t u, Feeds h i l → i ≠ x → historyOf h i = some (some ⟨[a, b], .dot⟩) → dataOf h a = some t → dataOf h b = some u →
      Ancestor h a l → Ancestor h b l → t.shape = u.shape →
      (∀ idx, InRange t.shape idx → HasDerivAt (fun y => W y a idx) (τ a idx) (X e)) →
      (∀ idx, InRange t.shape idx → HasDerivAt (fun y => W y b idx) (τ b idx) (X e)) →
      HasDerivAt (fun y => W y i [0]) ((allIndices t.shape).map fun idx => τ a idx * cell u idx + cell t idx * τ b idx).sum (X e) := by
    intro i a b t u hi hx hh ht hu fa fb hs da db
    have : (fun y => W y i [0]) = fun y => ((allIndices t.shape).map fun idx => W y a idx * W y b idx).sum := by
      funext y
      rw [(hW y).dot i a b hi hx hh, shapeOf_data ht]
    rw [this]
    refine hasDerivAt_list_sum (f := fun idx y => W y a idx * W y b idx)
      (f' := fun idx => τ a idx * cell u idx + cell t idx * τ b idx) fun idx hidx => ?_
    have hidx := mem_allIndices.1 hidx
    have := (da idx hidx).fun_mul (db idx hidx)
    rwa [hbase a t (Or.inr fa) ht _ hidx, hbase b u (Or.inr fb) hu _ (hs ▸ hidx)] at this
  have hτ : ∀ {i idx D}, HasDerivAt (fun y => W y i idx) D (X e) → HasDerivAt (fun y => W y i idx) (τ i idx) (X e) :=
    fun hD => hD.differentiableAt.hasDerivAt
  have main : ∀ i, Feeds h i l → ∀ idx, InRange (shapeOf h i) idx → HasDerivAt (fun y => W y i idx) (τ i idx) (X e) := by
    intro i
    induction i using Nat.strong_induction_on with
    | _ i ih =>
    intro hi idx hidx
    by_cases hx : i = x
    · subst hx
      exact hτ (kself idx hidx)
    cases nodeForm hg hl hi with
    | leaf hh => exact hτ (kleaf i hi hx hh idx hidx)
    | @add a b t u v' hh ht hu hv' hai hbi fa fb hc hsh _ =>
      obtain ⟨_, pt⟩ := hl.data a t (Or.inr fa) ht
      obtain ⟨_, pu⟩ := hl.data b u (Or.inr fb) hu
      have hidx' := hidx
      rw [shapeOf_data hv', hsh] at hidx'
      obtain ⟨h1, h2⟩ := bproj_mem pt pu hc hidx'
      exact hτ (kadd i a b t u hi hx hh ht hu idx hidx (ih a hai (Or.inr fa) _ (shapeOf_data ht ▸ h1))
        (ih b hbi (Or.inr fb) _ (shapeOf_data hu ▸ h2)))
    | @unary a k t v' hk hh ht hv' hai fa _ hsh _ =>
      have hsh' := (shapeOf_data hv').trans hsh
      exact hτ (kun i a k t hk hi hx hh ht fa hsh' idx hidx (ih a hai (Or.inr fa) idx (by rw [shapeOf_data ht, ← hsh']; exact hidx)))
    | @bmm a b m k n t u v' _ hh ht hu hv' hai hbi fa fb hts hus hsh _ =>
      rw [shapeOf_data hv', hsh] at hidx
      obtain ⟨r, c, rfl⟩ : ∃ r c, idx = [r, c] := List.length_eq_two.1 hidx.length_eq.symm
      obtain ⟨hr, hc⟩ := inRange2.1 hidx
      exact hτ (kbmm i a b t u hi hx hh ht hu fa fb m k n hts hus r hr c hc
        (fun j hj => ih a hai (Or.inr fa) _ (by rw [shapeOf_data ht, hts]; exact inRange2.2 ⟨hr, hj⟩))
        (fun j hj => ih b hbi (Or.inr fb) _ (by rw [shapeOf_data hu, hus]; exact inRange2.2 ⟨hj, hc⟩)))
    | @sum a t v' hh ht hv' hai fa hsh _ =>
      rw [shapeOf_data hv', hsh] at hidx
      obtain rfl : idx = [] := List.length_eq_zero_iff.1 hidx.length_eq.symm
      exact hτ (ksum i a hi hx hh fun idx hidx => ih a hai (Or.inr fa) idx hidx)
    | @dot a b t u v' _ hh ht hu hv' hai hbi fa fb hts hsh _ =>
      rw [shapeOf_data hv', hsh] at hidx
      obtain rfl := inRange_one hidx
      exact hτ (kdot i a b t u hi hx hh ht hu fa fb hts (fun idx hidx => ih a hai (Or.inr fa) idx (by rwa [shapeOf_data ht]))
        (fun idx hidx => ih b hbi (Or.inr fb) idx (by rw [shapeOf_data hu, ← hts]; exact hidx)))
  refine ⟨τ, ⟨fun idx hidx => (kself idx hidx).deriv, fun i hi hx hh idx hidx => (kleaf i hi hx hh idx hidx).deriv, ?_, ?_, ?_, ?_, ?_⟩,
    fun i idx hi hidx => main i hi idx hidx⟩
  · intro i a b hi hx hh idx hidx
    cases nodeForm hg hl hi with
    | @add a b t u v' hh' ht hu hv' hai hbi fa fb hc hsh _ =>
      rw [hh] at hh'
      cases hh'
      obtain ⟨_, pt⟩ := hl.data a t (Or.inr fa) ht
      obtain ⟨_, pu⟩ := hl.data b u (Or.inr fb) hu
      have hidx' := hidx
      rw [shapeOf_data hv', hsh] at hidx'
      obtain ⟨h1, h2⟩ := bproj_mem pt pu hc hidx'
      rw [shapeOf_data ht, shapeOf_data hu]
      exact (kadd i a b t u hi hx hh ht hu idx hidx (main a (Or.inr fa) _ (shapeOf_data ht ▸ h1))
        (main b (Or.inr fb) _ (shapeOf_data hu ▸ h2))).deriv
    | leaf hh' => rw [hh] at hh'; cases hh'
    | unary _ hh' => rw [hh] at hh'; cases hh'
    | bmm _ hh' => rw [hh] at hh'; cases hh'
    | sum hh' => rw [hh] at hh'; cases hh'
    | dot _ hh' => rw [hh] at hh'; cases hh'
  · intro i a k t hk hi hx hh ht idx hidx
    cases nodeForm hg hl hi with
    | @unary a k t' v' _ hh' ht' hv' hai fa _ hsh _ =>
      rw [hh] at hh'
      cases hh'
      rw [ht] at ht'
      cases ht'
      have hsh' := (shapeOf_data hv').trans hsh
      exact (kun i a k t hk hi hx hh ht fa hsh' idx hidx
        (main a (Or.inr fa) idx (by rw [shapeOf_data ht, ← hsh']; exact hidx))).deriv
    | leaf hh' => rw [hh] at hh'; cases hh'
    | add hh' => rw [hh] at hh'; cases hh'
    | bmm _ hh' => rw [hh] at hh'; cases hh'
    | sum hh' => rw [hh] at hh'; cases hh'; simp [isUnary] at hk
    | dot _ hh' => rw [hh] at hh'; cases hh'
  · intro i a b t u hi hx hh ht hu m k n hts hus r hr c hc
    have anc : ∀ z, z ∈ [a, b] → Ancestor h z l := by
      simp only [historyOf, Option.map_eq_some_iff] at hh
      obtain ⟨nd, hnd, hd⟩ := hh
      exact fun z hz => hi.input hnd hd hz
    have fa := anc a (by simp)
    have fb := anc b (by simp)
    exact (kbmm i a b t u hi hx hh ht hu fa fb m k n hts hus r hr c hc
        (fun j hj => main a (Or.inr fa) _ (by rw [shapeOf_data ht, hts]; exact inRange2.2 ⟨hr, hj⟩))
        (fun j hj => main b (Or.inr fb) _ (by rw [shapeOf_data hu, hus]; exact inRange2.2 ⟨hj, hc⟩))).deriv
  · intro i a hi hx hh
    have fa : Ancestor h a l := by
      simp only [historyOf, Option.map_eq_some_iff] at hh
      obtain ⟨nd, hnd, hd⟩ := hh
      exact hi.input hnd hd (by simp)
    exact (ksum i a hi hx hh fun idx hidx => main a (Or.inr fa) idx hidx).deriv
  · intro i a b t u hi hx hh ht hu
    cases nodeForm hg hl hi with
    | @dot a b t' u' v' _ hh' ht' hu' hv' hai hbi fa fb hts hsh _ =>
      rw [hh] at hh'
      cases hh'
      rw [ht] at ht'
      cases ht'
      rw [hu] at hu'
      cases hu'
      exact (kdot i a b t u hi hx hh ht hu fa fb hts (fun idx hidx => main a (Or.inr fa) idx (by rwa [shapeOf_data ht]))
        (fun idx hidx => main b (Or.inr fb) idx (by rw [shapeOf_data hu, ← hts]; exact hidx))).deriv
    | leaf hh' => rw [hh] at hh'; cases hh'
    | add hh' => rw [hh] at hh'; cases hh'
    | unary hk hh' => rw [hh] at hh'; cases hh'
    | bmm _ hh' => rw [hh] at hh'; cases hh'
    | sum hh' => rw [hh] at hh'; cases hh'

theorem reeval_tangent {h : Heap ℝ} {l x : Nat} (hg : h.Good) (hl : DiffLoss h l) {X : List Nat → ℝ}
    (hX : ∀ v, dataOf h x = some v → ∀ idx, InRange v.shape idx → X idx = cell v idx) {V : (List Nat → ℝ) → Nat → List Nat → ℝ}
    (hV : ∀ Y, Reeval h l x Y (V Y)) (e : List Nat) :
    ∃ τ, Tan h l x e τ ∧ ∀ i idx, Feeds h i l → InRange (shapeOf h i) idx →
      HasDerivAt (fun y => V (Function.update X e y) i idx) (τ i idx) (X e) :=
  reeval_tangent_regular hg hl.toRealLoss hX hV e fun i a k t hi hh hk ht idx hidx h0 => by
    have fa : Ancestor h a l := by
      simp only [historyOf, Option.map_eq_some_iff] at hh
      obtain ⟨nd, hnd, hd⟩ := hh
      exact hi.input hnd hd (by simp)
    have := mem_cell (hl.data a t (Or.inr fa) ht).1 hidx
    rw [h0] at this
    exact absurd this (hl.kink i a k t hi hh hk ht)

end RL
