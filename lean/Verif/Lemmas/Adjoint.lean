import Verif.Lemmas.RealSums
import Verif.Lemmas.BmmJvp
import Verif.Lemmas.TanhJvp
import Verif.Props.Jvp

/-! Helper lemmas: the gradient functions are adjoint to the derivatives of the operations -/

namespace RL

open Spec

/-- element of a tensor, 0 outside -/
noncomputable def cell (t : Raw ℝ) (idx : List Nat) : ℝ := t.array.getD (rowMajor t.shape idx) 0

theorem cell_elem {t : Raw ℝ} {idx : List Nat} {v : ℝ} (h : Raw.elem? t idx = some v) : cell t idx = v := by
  simp only [Raw.elem?] at h
  simp [cell, List.getD_eq_getElem?_getD, h]

theorem elem_cell {t : Raw ℝ} (ht : WF t) {idx : List Nat} (hi : InRange t.shape idx) : Raw.elem? t idx = some (cell t idx) := by
  have : rowMajor t.shape idx < t.array.length := by rw [ht]; exact rowMajor_lt hi
  simp [Raw.elem?, cell, this]

/-- entry of a gradient row that belongs to an index of a shape -/
noncomputable def gv (G : Raw ℝ) (s : List Nat) (idx : List Nat) : ℝ := G.array.getD (rowMajor s idx) 0

theorem gradOk_getD {G : Raw ℝ} {n : Nat} (hs : G.shape = [1, n]) (hw : WF G) : GradOk G 1 n (fun _ k => G.array.getD k 0) := by
  refine Or.inl ⟨hs, hw, fun r hr k hk => ?_⟩
  have : G.array.length = n := by rw [hw, hs]; simp
  have hr0 : r = 0 := by omega
  subst hr0
  have hk' : k < G.array.length := by omega
  simp [hk']

theorem adj_unary {t G : Raw ℝ} (ht : WF t) (hp : Pos t.shape) {g : Nat → ℝ} (hG : GradOk G 1 t.array.length (fun _ k => g k))
    (f : ℝ → ℝ) : ∃ s, genericUnaryJvp t G f = .ok [s] ∧ s.shape = [1, t.shape.prod] ∧ WF s ∧
      ∀ τ, pair t.shape (gv s t.shape) τ = pair t.shape (fun idx => g (rowMajor t.shape idx)) (fun idx => f (cell t idx) * τ idx) := by
  obtain ⟨s, h1, h2, h3, h4⟩ := genericUnaryJvp_ok ht hp hG f
  refine ⟨s, h1, by rw [h2, ht], h3, fun τ => pair_congr fun idx hi => ?_⟩
  have hlt : rowMajor t.shape idx < t.array.length := by rw [ht]; exact rowMajor_lt hi
  have := h4 0 (by omega) _ hlt
  simp only [Nat.zero_mul, Nat.zero_add] at this
  simp only [gv, List.getD_eq_getElem?_getD, this, cell, List.getElem?_eq_getElem hlt, Option.getD_some]
  ring

theorem adj_tanh {t G : Raw ℝ} (ht : WF t) (hp : Pos t.shape) {g : Nat → ℝ} (hG : GradOk G 1 t.array.length (fun _ k => g k))
    (hsh : G.shape = [1, t.array.length] ∨ t.array.length = 1) : ∃ s, tanhJvp [t] [G] = .ok [s] ∧ s.shape = [1, t.shape.prod] ∧ WF s ∧
      ∀ τ, pair t.shape (gv s t.shape) τ =
        pair t.shape (fun idx => g (rowMajor t.shape idx)) (fun idx => (1 - Real.tanh (cell t idx) ^ 2) * τ idx) := by
  obtain ⟨s, h1, h2, h3, h4⟩ := tanhJvp_ok ht hp hG hsh
  refine ⟨s, h1, by rw [h2, ht], h3, fun τ => pair_congr fun idx hi => ?_⟩
  have hlt : rowMajor t.shape idx < t.array.length := by rw [ht]; exact rowMajor_lt hi
  have := h4 _ hlt
  simp only [gv, List.getD_eq_getElem?_getD, this, cell, List.getElem?_eq_getElem hlt, Option.getD_some]
  change _ * (1 - Real.tanh _ ^ 2) * _ = _
  ring

theorem foldl_add_list (L : List (List Nat)) (f : List Nat → ℝ) (acc : ℝ) :
    L.foldl (fun acc idx => acc + 1 * f idx) acc = acc + (L.map f).sum := foldl_one_mul_sum L f acc

theorem bproj_mem {l r idx : List Nat} (pl : Pos l) (pr : Pos r) (hc : Compatible l r) (hi : InRange (bshape l r) idx) :
    InRange l (bproj l idx) ∧ InRange r (bproj r idx) := by
  obtain ⟨h1, h2⟩ := readable_left_right hc hi
  exact ⟨bproj_inRange pl h1, bproj_inRange pr h2⟩

theorem adj_add {l r G : Raw ℝ} (hl : WF l) (hr : WF r) (pl : Pos l.shape) (pr : Pos r.shape) (hc : Compatible l.shape r.shape)
    {g : Nat → ℝ} (hG : GradOk G 1 (bshape l.shape r.shape).prod (fun _ k => g k)) :
    ∃ a b, addJvp [l, r] [G] = .ok [a, b] ∧ a.shape = [1, l.shape.prod] ∧ WF a ∧ b.shape = [1, r.shape.prod] ∧ WF b ∧
      ∀ τl τr, pair l.shape (gv a l.shape) τl + pair r.shape (gv b r.shape) τr =
        pair (bshape l.shape r.shape) (fun idx => g (rowMajor (bshape l.shape r.shape) idx))
          (fun idx => τl (bproj l.shape idx) + τr (bproj r.shape idx)) := by
  obtain ⟨a, b, h1, h2, h3, h4, h5, h6, h7⟩ := genericBinopJvp_ok hl hr pl pr hc hG (fun _ _ => 1) (fun _ => 1)
    (fun _ _ _ _ _ _ => rfl)
  refine ⟨a, b, ?_, by rw [h2, hl], h3, by rw [h4, hr], h5, fun τl τr => ?_⟩
  · unfold addJvp
    simpa [idxR] using h1
  · have key : ∀ (t s : Raw ℝ) (τ : List Nat → ℝ), (∀ idx, InRange (bshape l.shape r.shape) idx → InRange t.shape (bproj t.shape idx)) →
        (∀ row < 1, ∀ e, InRange t.shape e → s.array[row * t.array.length + rowMajor t.shape e]? =
        some (((allIndices (bshape l.shape r.shape)).filter (fun idx => bproj t.shape idx = e)).foldl
          (fun acc idx => acc + 1 * g (rowMajor (bshape l.shape r.shape) idx)) 0)) →
        pair t.shape (gv s t.shape) τ = pair (bshape l.shape r.shape) (fun idx => g (rowMajor (bshape l.shape r.shape) idx))
          (fun idx => τ (bproj t.shape idx)) := by
      intro t s τ hin hcell
      rw [pair, pair, ← sum_fiber (allIndices_nodup t.shape) (allIndices (bshape l.shape r.shape)) (bproj t.shape)
        (fun i hi => mem_allIndices.2 (hin i (mem_allIndices.1 hi))) (fun idx => g (rowMajor (bshape l.shape r.shape) idx)) τ]
      congr 1
      apply List.map_congr_left
      intro e he
      have := hcell 0 (by omega) e (mem_allIndices.1 he)
      simp only [Nat.zero_mul, Nat.zero_add] at this
      simp only [gv, List.getD_eq_getElem?_getD, this, Option.getD_some, foldl_add_list, zero_add]
    rw [key l a τl (fun idx hi => (bproj_mem pl pr hc hi).1) h6, key r b τr (fun idx hi => (bproj_mem pl pr hc hi).2) h7]
    simp only [pair, ← List.sum_map_add, mul_add]

/-- entry of a matrix with shuffled positions -/
def seg (m k : Nat) (f : List Nat → ℝ) (i j : Nat) : ℝ := f [segPos (m * k) (i * k + j) / k, segPos (m * k) (i * k + j) % k]

theorem seg_small {m k : Nat} (hs : m * k ≤ 32) (f : List Nat → ℝ) {i j : Nat} (hi : i < m) (hj : j < k) : seg m k f i j = f [i, j] := by
  rw [seg, segPos_small hs (mul_add_lt hi hj)]
  congr 2
  · rw [Nat.mul_comm, Nat.mul_add_div (by omega), Nat.div_eq_of_lt hj, Nat.add_zero]
  · rw [Nat.mul_comm, Nat.mul_add_mod, Nat.mod_eq_of_lt hj]

theorem seg_inRange {m k i j : Nat} (hi : i < m) (hj : j < k) :
    segPos (m * k) (i * k + j) / k < m ∧ segPos (m * k) (i * k + j) % k < k := by
  have h := segPos_lt (mul_add_lt hi hj)
  exact ⟨Nat.div_lt_of_lt_mul (by rwa [Nat.mul_comm k m]), Nat.mod_lt _ (by omega)⟩

theorem sum_mat (F : Nat → ℝ) (m k : Nat) : ∑ i ∈ Finset.range m, ∑ j ∈ Finset.range k, F (i * k + j) = ∑ p ∈ Finset.range (m * k), F p := by
  induction m with
  | zero => simp
  | succ m ih => rw [Finset.sum_range_succ, ih, Nat.succ_mul, Finset.sum_range_add]

theorem sum_segPos (F : Nat → ℝ) (len : Nat) : ∑ p ∈ Finset.range len, F (segPos len p) = ∑ p ∈ Finset.range len, F p := by
  have hmaps : Set.MapsTo (segPos len) (Finset.range len) (Finset.range len) := by
    intro p hp
    simp only [Finset.coe_range, Set.mem_Iio] at hp ⊢
    exact segPos_lt hp
  have hinj : Set.InjOn (segPos len) (Finset.range len) := by
    intro p hp q hq h
    simp only [Finset.coe_range, Set.mem_Iio] at hp hq
    exact segPos_inj hp hq h
  exact Finset.sum_nbij (segPos len) hmaps hinj (Finset.surjOn_of_injOn_of_card_le _ hmaps hinj le_rfl) fun _ _ => rfl

theorem pair_seg (m k : Nat) (f τ : List Nat → ℝ) :
    pair [m, k] f τ = ∑ i ∈ Finset.range m, ∑ j ∈ Finset.range k, seg m k f i j * seg m k τ i j := by
  have h := sum_mat (fun p => f [segPos (m * k) p / k, segPos (m * k) p % k] * τ [segPos (m * k) p / k, segPos (m * k) p % k]) m k
  rw [sum_segPos (fun p => f [p / k, p % k] * τ [p / k, p % k]), ← sum_mat] at h
  simp only [seg]
  rw [h, pair]
  rw [sum_allIndices_mat]
  refine Finset.sum_congr rfl fun i _ => Finset.sum_congr rfl fun j hj => ?_
  rw [Finset.mem_range] at hj
  have h1 : (i * k + j) / k = i := by rw [Nat.mul_comm, Nat.mul_add_div (by omega), Nat.div_eq_of_lt hj, Nat.add_zero]
  have h2 : (i * k + j) % k = j := by rw [Nat.mul_comm, Nat.mul_add_mod, Nat.mod_eq_of_lt hj]
  simp only [h1, h2]

theorem seg_gv (G : Raw ℝ) (m k i j : Nat) : seg m k (gv G [m, k]) i j = G.array.getD (segPos (m * k) (i * k + j)) 0 := by
  rw [seg, gv, rowMajor_pair]
  congr 1
  exact Nat.div_add_mod' _ _

theorem adj_bmm {a b G : Raw ℝ} {m k n : Nat} (ha : WF a) (hb : WF b) (hw : WF G) (has : a.shape = [m, k]) (hbs : b.shape = [k, n])
    (hGs : G.shape = [1, m * n]) :
    ∃ l r, bmmJvp [a, b] [G] = .ok [l, r] ∧ l.shape = [1, m * k] ∧ WF l ∧ r.shape = [1, k * n] ∧ WF r ∧
      ∀ τa τb : List Nat → ℝ, pair [m, k] (gv l [m, k]) τa + pair [k, n] (gv r [k, n]) τb =
        ∑ i ∈ Finset.range m, ∑ c ∈ Finset.range n, gv G [m, n] [i, c] *
          ∑ j ∈ Finset.range k, (seg m k τa i j * cell b [j, c] + cell a [i, j] * seg k n τb j c) := by
  have hA : IsMat a m k (fun i j => cell a [i, j]) := isMat_of ha has fun i hi j hj => elem_cell ha (by rw [has]; exact inRange2.2 ⟨hi, hj⟩)
  have hB : IsMat b k n (fun i j => cell b [i, j]) := isMat_of hb hbs fun i hi j hj => elem_cell hb (by rw [hbs]; exact inRange2.2 ⟨hi, hj⟩)
  have hGm : IsMat G 1 (m * n) (fun _ p => G.array.getD p 0) := by
    refine isMat_of hw hGs fun i hi j hj => ?_
    have hlen : G.array.length = m * n := by rw [hw, hGs]; simp
    have hi0 : i = 0 := by omega
    subst hi0
    rw [Raw.elem?, hGs, rowMajor_pair]
    have hj' : j < G.array.length := by omega
    simp [hj']
  obtain ⟨l, r, h1, h2, h3, h4, h5, h6, h7⟩ := bmmJvp_cells hA hB hGm
  refine ⟨l, r, h1, h2, h3, h4, h5, fun τa τb => ?_⟩
  have cl : ∀ i ∈ Finset.range m, ∀ j ∈ Finset.range k, seg m k (gv l [m, k]) i j =
      ∑ c ∈ Finset.range n, gv G [m, n] [i, c] * cell b [j, c] := by
    intro i hi j hj
    rw [Finset.mem_range] at hi hj
    have := h6 0 (by omega) i hi j hj
    simp only [Nat.zero_mul, Nat.zero_add, Nat.one_mul] at this
    rw [seg_gv, List.getD_eq_getElem?_getD, this, Option.getD_some]
    simp only [gv, List.getD_eq_getElem?_getD, rowMajor_pair]
    rw [foldl_add_eq_sum]
  have cr : ∀ j ∈ Finset.range k, ∀ c ∈ Finset.range n, seg k n (gv r [k, n]) j c =
      ∑ i ∈ Finset.range m, gv G [m, n] [i, c] * cell a [i, j] := by
    intro j hj c hc
    rw [Finset.mem_range] at hj hc
    have := h7 0 (by omega) j hj c hc
    simp only [Nat.zero_mul, Nat.zero_add, Nat.one_mul] at this
    rw [seg_gv, List.getD_eq_getElem?_getD, this, Option.getD_some]
    simp only [gv, List.getD_eq_getElem?_getD, rowMajor_pair]
    rw [foldl_add_eq_sum]
  rw [pair_seg, pair_seg]
  have e1 : ∑ i ∈ Finset.range m, ∑ j ∈ Finset.range k, seg m k (gv l [m, k]) i j * seg m k τa i j =
      ∑ i ∈ Finset.range m, ∑ c ∈ Finset.range n, ∑ j ∈ Finset.range k, gv G [m, n] [i, c] * (seg m k τa i j * cell b [j, c]) := by
    refine Finset.sum_congr rfl fun i hi => ?_
    rw [Finset.sum_comm]
    refine Finset.sum_congr rfl fun j hj => ?_
    rw [cl i hi j hj, Finset.sum_mul]
    exact Finset.sum_congr rfl fun c _ => by ring
  have e2 : ∑ j ∈ Finset.range k, ∑ c ∈ Finset.range n, seg k n (gv r [k, n]) j c * seg k n τb j c =
      ∑ i ∈ Finset.range m, ∑ c ∈ Finset.range n, ∑ j ∈ Finset.range k, gv G [m, n] [i, c] * (cell a [i, j] * seg k n τb j c) := by
    have : ∀ j ∈ Finset.range k, ∑ c ∈ Finset.range n, seg k n (gv r [k, n]) j c * seg k n τb j c =
        ∑ i ∈ Finset.range m, ∑ c ∈ Finset.range n, gv G [m, n] [i, c] * (cell a [i, j] * seg k n τb j c) := by
      intro j hj
      rw [Finset.sum_comm]
      refine Finset.sum_congr rfl fun c hc => ?_
      rw [cr j hj c hc, Finset.sum_mul]
      exact Finset.sum_congr rfl fun i _ => by ring
    rw [Finset.sum_congr rfl this, Finset.sum_comm]
    exact Finset.sum_congr rfl fun i _ => Finset.sum_comm
  rw [e1, e2, ← Finset.sum_add_distrib]
  refine Finset.sum_congr rfl fun i _ => ?_
  rw [← Finset.sum_add_distrib]
  refine Finset.sum_congr rfl fun c _ => ?_
  rw [← Finset.sum_add_distrib, Finset.mul_sum]
  exact Finset.sum_congr rfl fun j _ => by ring

end RL
