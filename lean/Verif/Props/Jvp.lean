import Verif.Lemmas.BmmJvp
import Verif.Lemmas.TanhJvp
import Mathlib.Algebra.Ring.Int.Defs
import Mathlib.Algebra.BigOperators.Group.Finset.Basic
import Mathlib.Algebra.BigOperators.Group.List.Basic

/-!
# C30-C32, C53: the gradient functions of the single operations
-/

namespace RL

open Spec

variable {T : Type}

/-! ## broadcast addition (C30) -/

theorem rowMajor_pair (p q x y : Nat) : rowMajor [p, q] [x, y] = x * q + y := by simp [rowMajor]

/-- C30 without any law of `+` and `*`: at element `e` of an operand and row `row` of the upstream gradient, the
gradient is the left fold, over exactly the output positions `idx` that read `e`, of `1 *` upstream. -/
theorem C30_fold [Zero T] [One T] [Add T] [Mul T] (l r grad : Raw T) (hl : WF l) (hr : WF r) (hg : WF grad)
    (pl : Pos l.shape) (pr : Pos r.shape) (hc : Compatible l.shape r.shape) (rows : Nat)
    (hs : grad.shape = [rows, (bshape l.shape r.shape).prod]) (g : Nat → List Nat → T)
    (hgv : ∀ row < rows, ∀ idx, InRange (bshape l.shape r.shape) idx →
      Raw.elem? grad [row, rowMajor (bshape l.shape r.shape) idx] = some (g row idx)) :
    ∃ a b, addJvp [l, r] [grad] = .ok [a, b] ∧
      a.shape = [rows, l.shape.prod] ∧ WF a ∧ b.shape = [rows, r.shape.prod] ∧ WF b ∧
      (∀ row < rows, ∀ e, InRange l.shape e → Raw.elem? a [row, rowMajor l.shape e] =
        some (((allIndices (bshape l.shape r.shape)).filter (fun idx => bproj l.shape idx = e)).foldl
          (fun acc idx => acc + 1 * g row idx) 0)) ∧
      (∀ row < rows, ∀ e, InRange r.shape e → Raw.elem? b [row, rowMajor r.shape e] =
        some (((allIndices (bshape l.shape r.shape)).filter (fun idx => bproj r.shape idx = e)).foldl
          (fun acc idx => acc + 1 * g row idx) 0)) := by
  have hgo : GradOk grad rows (bshape l.shape r.shape).prod
      (fun row k => g row ((allIndices (bshape l.shape r.shape)).getD k [])) := by
    refine Or.inl ⟨hs, hg, fun row hrow k hk => ?_⟩
    have hkl : k < (allIndices (bshape l.shape r.shape)).length := by rw [allIndices_length]; exact hk
    have h1 := hgv row hrow _ (inRange_getElem_allIndices hkl)
    rw [rowMajor_getElem_allIndices hkl, Raw.elem?, hs, rowMajor_pair] at h1
    rw [h1]; simp [hkl]
  obtain ⟨a, b, h1, h2, h3, h4, h5, h6, h7⟩ := genericBinopJvp_ok hl hr pl pr hc hgo (fun _ _ => 1) (fun _ => 1)
    (fun _ _ _ _ _ _ => rfl)
  have hl' : l.array.length = l.shape.prod := hl
  have hr' : r.array.length = r.shape.prod := hr
  have key : ∀ (L : List (List Nat)) (row : Nat), (∀ idx ∈ L, InRange (bshape l.shape r.shape) idx) → ∀ acc : T,
      L.foldl (fun acc idx => acc + 1 * g row ((allIndices (bshape l.shape r.shape)).getD
        (rowMajor (bshape l.shape r.shape) idx) [])) acc = L.foldl (fun acc idx => acc + 1 * g row idx) acc := by
    intro L row
    induction L with
    | nil => intros; rfl
    | cons idx L ih =>
      intro h acc
      rw [List.foldl_cons, List.foldl_cons, ih (fun x hx => h x (by simp [hx]))]
      simp [getElem_allIndices_of (h idx (by simp))]
  refine ⟨a, b, ?_, by rw [h2, hl'], h3, by rw [h4, hr'], h5, fun row hrow e he => ?_, fun row hrow e he => ?_⟩
  · unfold addJvp
    simpa [idxR] using h1
  · have := h6 row hrow e he
    rw [key _ row (fun idx hi => mem_allIndices.1 (List.mem_filter.1 hi).1)] at this
    rw [Raw.elem?, h2, rowMajor_pair]; exact this
  · have := h7 row hrow e he
    rw [key _ row (fun idx hi => mem_allIndices.1 (List.mem_filter.1 hi).1)] at this
    rw [Raw.elem?, h4, rowMajor_pair]; exact this

theorem foldl_one_mul_sum [CommRing T] {α : Type _} (L : List α) (f : α → T) (acc : T) :
    L.foldl (fun acc x => acc + 1 * f x) acc = acc + (L.map f).sum := by
  induction L generalizing acc with
  | nil => simp
  | cons x L ih => rw [List.foldl_cons, ih]; simp [add_assoc]

/-- C30 over a ring: the gradient at `e` is the sum of the upstream gradient over the output positions reading `e`. -/
theorem C30_sum [CommRing T] (l r grad : Raw T) (hl : WF l) (hr : WF r) (hg : WF grad)
    (pl : Pos l.shape) (pr : Pos r.shape) (hc : Compatible l.shape r.shape) (rows : Nat)
    (hs : grad.shape = [rows, (bshape l.shape r.shape).prod]) (g : Nat → List Nat → T)
    (hgv : ∀ row < rows, ∀ idx, InRange (bshape l.shape r.shape) idx →
      Raw.elem? grad [row, rowMajor (bshape l.shape r.shape) idx] = some (g row idx)) :
    ∃ a b, addJvp [l, r] [grad] = .ok [a, b] ∧
      a.shape = [rows, l.shape.prod] ∧ b.shape = [rows, r.shape.prod] ∧
      (∀ row < rows, ∀ e, InRange l.shape e → Raw.elem? a [row, rowMajor l.shape e] =
        some ((((allIndices (bshape l.shape r.shape)).filter (fun idx => bproj l.shape idx = e)).map (g row)).sum)) ∧
      (∀ row < rows, ∀ e, InRange r.shape e → Raw.elem? b [row, rowMajor r.shape e] =
        some ((((allIndices (bshape l.shape r.shape)).filter (fun idx => bproj r.shape idx = e)).map (g row)).sum)) := by
  obtain ⟨a, b, h1, h2, _, h4, _, h6, h7⟩ := C30_fold l r grad hl hr hg pl pr hc rows hs g hgv
  refine ⟨a, b, h1, h2, h4, fun row hrow e he => ?_, fun row hrow e he => ?_⟩
  · rw [h6 row hrow e he, foldl_one_mul_sum, zero_add]
  · rw [h7 row hrow e he, foldl_one_mul_sum, zero_add]

/-- C30: when both operands have the shape of the result, each upstream row is passed on unchanged. -/
theorem C30_same_shape [CommRing T] (l r grad : Raw T) (hl : WF l) (hr : WF r) (hg : WF grad)
    (pl : Pos l.shape) (hlr : l.shape = r.shape) (rows : Nat) (hs : grad.shape = [rows, l.shape.prod]) :
    addJvp [l, r] [grad] = .ok [grad, grad] := by
  have hb : bshape l.shape r.shape = l.shape := by rw [← hlr, bshape_self]
  have hgl : grad.array.length = rows * l.shape.prod := by rw [hg, hs]; simp
  have hex : ∀ row < rows, ∀ idx, InRange (bshape l.shape r.shape) idx →
      Raw.elem? grad [row, rowMajor (bshape l.shape r.shape) idx] =
        some (grad.array.getD (row * l.shape.prod + rowMajor l.shape idx) 0) := by
    intro row hrow idx hi
    rw [hb] at hi ⊢
    have : row * l.shape.prod + rowMajor l.shape idx < grad.array.length := by
      rw [hgl]; exact mul_add_lt hrow (rowMajor_lt hi)
    rw [Raw.elem?, hs, rowMajor_pair]
    simp [this]
  obtain ⟨a, b, h1, h2, h4, h5⟩ := C30_sum l r grad hl hr hg pl (hlr ▸ pl) (hlr ▸ compat_self _) rows
    (by rw [hb]; exact hs) _ hex
  obtain ⟨a', b', h1', _, wa, _, wb, _⟩ := C30_fold l r grad hl hr hg pl (hlr ▸ pl) (hlr ▸ compat_self _) rows
    (by rw [hb]; exact hs) _ hex
  have hab : a' = a ∧ b' = b := by rw [h1] at h1'; simpa [eq_comm] using h1'
  rw [hab.1] at wa
  rw [hab.2] at wb
  have hfil : ∀ e, InRange l.shape e → (allIndices l.shape).filter (fun idx => bproj l.shape idx = e) = [e] := by
    intro e he
    have h1 : (allIndices l.shape).filter (fun idx => bproj l.shape idx = e)
        = (allIndices l.shape).filter (fun idx => idx == e) := by
      apply List.filter_congr
      intro idx hi
      rw [bproj_of_inRange (mem_allIndices.1 hi)]
      by_cases h : idx = e <;> simp [h]
    rw [h1, List.filter_beq, List.count_eq_one_of_mem (allIndices_nodup _) (mem_allIndices.2 he)]
    rfl
  have hcell : ∀ (t : Raw T), WF t → t.shape = [rows, l.shape.prod] →
      (∀ row < rows, ∀ e, InRange l.shape e → Raw.elem? t [row, rowMajor l.shape e] =
        some (grad.array.getD (row * l.shape.prod + rowMajor l.shape e) 0)) → t = grad := by
    intro t wt ht h
    refine Raw.ext_elem wt hg (by rw [ht, hs]) (fun idx hi => ?_)
    rw [ht] at hi
    obtain ⟨row, x, rfl⟩ : ∃ row x, idx = [row, x] := by
      have hlen := hi.length
      match idx, hlen with
      | [row, x], _ => exact ⟨row, x, rfl⟩
    obtain ⟨hrow, hx⟩ := inRange2.1 hi
    have hxl : x < (allIndices l.shape).length := by rw [allIndices_length]; exact hx
    have e1 := h row hrow _ (inRange_getElem_allIndices hxl)
    have e2 := hex row hrow ((allIndices l.shape)[x]) (by rw [hb]; exact inRange_getElem_allIndices hxl)
    rw [hb] at e2
    rw [rowMajor_getElem_allIndices hxl] at e1 e2
    rw [e1, e2]
  rw [h1]
  congr 2
  · refine hcell a wa h2 (fun row hrow e he => ?_)
    rw [h5.1 row hrow e he, hb, hfil e he]; simp
  · congr 1
    refine hcell b wb (by rw [h4, hlr]) (fun row hrow e he => ?_)
    rw [hlr, h5.2 row hrow e (hlr ▸ he), hb, ← hlr, hfil e he]; simp

/-- C30, tests: the cases of the unit test `test_add_jvp`, and a `[2,1]` operand broadcast along columns. -/
example : addJvp [(⟨[1], [1]⟩ : Raw Int), ⟨[1, 2, 3], [3]⟩] [⟨[1, 2, 3, 1, 2, 3], [2, 3]⟩]
    = .ok [⟨[6, 6], [2, 1]⟩, ⟨[1, 2, 3, 1, 2, 3], [2, 3]⟩] := by decide
example : addJvp [(⟨[1, 1], [2, 1]⟩ : Raw Int), ⟨[1, 2, 3], [3]⟩] [⟨[1, 2, 3, 4, 5, 6], [1, 6]⟩]
    = .ok [⟨[6, 15], [1, 2]⟩, ⟨[5, 7, 9], [1, 3]⟩] := by decide

/-! ## sum (C31) -/

/-- C31 as stated: with a one-element upstream gradient `g`, the gradient of every element is `g`. -/
def C31_statement (T : Type) [Zero T] [One T] [Add T] [Mul T] : Prop :=
  ∀ (t : Raw T) (g : T), WF t →
    ∃ a, onesJvp [t] [⟨[g], [1, 1]⟩] = .ok [a] ∧ a.shape = [1, t.shape.prod] ∧
      ∀ e, InRange t.shape e → Raw.elem? a [0, rowMajor t.shape e] = some g

/-- C31 is false: `sum` ignores the upstream gradient. -/
theorem C31_false : ¬ C31_statement Int := by
  intro h
  obtain ⟨a, h1, _, h3⟩ := h ⟨[5, 7], [2]⟩ (-1) rfl
  have h4 : onesJvp [(⟨[5, 7], [2]⟩ : Raw Int)] [⟨[-1], [1, 1]⟩] = .ok [⟨[1, 1], [1, 2]⟩] := by decide
  rw [h4] at h1
  have ha : a = ⟨[1, 1], [1, 2]⟩ := by simpa [eq_comm] using h1
  subst ha
  have := h3 [0] (by simp [InRange])
  exact absurd this (by decide)

/-- what `sum` passes on: ones, whatever the upstream values are. -/
theorem C31_actual [One T] (t g : Raw T) :
    ∃ a, onesJvp [t] [g] = .ok [a] ∧ a.shape = [g.shape.prod, t.shape.prod] ∧ WF a ∧ ∀ x ∈ a.array, x = 1 := by
  refine ⟨Raw.newWithFiller [g.shape.prod, t.shape.prod] 1, rfl, by rw [Raw.newWithFiller_eq],
    Raw.newWithFiller_wf _ _, ?_⟩
  rw [Raw.newWithFiller_eq]
  intro x hx
  exact List.eq_of_mem_replicate hx

/-- C31 holds when the upstream gradient is 1 (the sum is the tensor `backward` is called on, or only additions lie
in between). Missing: every other upstream value. -/
theorem C31_partial [One T] (t : Raw T) (s : List Nat) (hs : s.prod = 1) :
    ∃ a, onesJvp [t] [⟨[1], s⟩] = .ok [a] ∧ a.shape = [1, t.shape.prod] ∧
      ∀ e, InRange t.shape e → Raw.elem? a [0, rowMajor t.shape e] = some (1 : T) := by
  obtain ⟨a, h1, h2, h3, h4⟩ := C31_actual t ⟨[1], s⟩
  refine ⟨a, h1, by rw [h2]; simp [hs], fun e he => ?_⟩
  rw [hs] at h2
  have hin : InRange a.shape [0, rowMajor t.shape e] := by rw [h2]; exact inRange2.2 ⟨by omega, rowMajor_lt he⟩
  obtain ⟨v, hv, _⟩ := Raw.get_ok h3 hin
  rw [hv]
  congr 1
  exact h4 v (List.mem_of_getElem? hv)

example : onesJvp [(⟨[5, 7], [2]⟩ : Raw Int)] [⟨[1], []⟩] = .ok [⟨[1, 1], [1, 2]⟩] := by decide

/-! ## matrix product (C32) -/

/-- C32 as stated, law-free: left folds in the order of the loops. -/
def C32_statement (T : Type) [Zero T] [Add T] [Mul T] : Prop :=
  ∀ (a b jac : Raw T) (m k n rows : Nat) (A B G : Nat → Nat → T),
    WF a → WF b → WF jac → a.shape = [m, k] → b.shape = [k, n] → jac.shape = [rows, m * n] →
    (∀ i < m, ∀ kk < k, Raw.elem? a [i, kk] = some (A i kk)) →
    (∀ kk < k, ∀ j < n, Raw.elem? b [kk, j] = some (B kk j)) →
    (∀ row < rows, ∀ i < m, ∀ j < n, Raw.elem? jac [row, i * n + j] = some (G row (i * n + j))) →
    ∃ l r, bmmJvp [a, b] [jac] = .ok [l, r] ∧ l.shape = [rows, m * k] ∧ r.shape = [rows, k * n] ∧
      (∀ row < rows, ∀ i < m, ∀ kk < k, Raw.elem? l [row, i * k + kk] =
        some ((List.range n).foldl (fun acc j => acc + G row (i * n + j) * B kk j) 0)) ∧
      (∀ row < rows, ∀ kk < k, ∀ j < n, Raw.elem? r [row, kk * n + j] =
        some ((List.range m).foldl (fun acc i => acc + G row (i * n + j) * A i kk) 0))

theorem isMat_of {t : Raw T} {m n : Nat} {A : Nat → Nat → T} (ht : WF t) (hs : t.shape = [m, n])
    (h : ∀ i < m, ∀ j < n, Raw.elem? t [i, j] = some (A i j)) : IsMat t m n A := by
  refine ⟨hs, ht, fun i hi j hj => ?_⟩
  have := h i hi j hj
  rwa [Raw.elem?, hs, rowMajor_pair] at this

theorem isMat_grad {t : Raw T} {rows m n : Nat} {G : Nat → Nat → T} (ht : WF t) (hs : t.shape = [rows, m * n])
    (h : ∀ row < rows, ∀ i < m, ∀ j < n, Raw.elem? t [row, i * n + j] = some (G row (i * n + j))) :
    IsMat t rows (m * n) G := by
  refine isMat_of ht hs (fun row hrow x hx => ?_)
  have hn : 0 < n := by
    rcases Nat.eq_zero_or_pos n with h | h
    · subst h; omega
    · exact h
  have := h row hrow (x / n) (Nat.div_lt_of_lt_mul (by rwa [Nat.mul_comm])) (x % n) (Nat.mod_lt _ hn)
  rwa [Nat.div_add_mod' x n] at this

/-- What `bmm_jvp` computes, for all sizes: the right values, but the value for flat position `p` of an array of
length `len` is stored at `len - min (32 * (p / 32 + 1)) len + p % 32`. -/
theorem C32_actual [Zero T] [Add T] [Mul T] (a b jac : Raw T) (m k n rows : Nat) (A B G : Nat → Nat → T)
    (ha : WF a) (hb : WF b) (hj : WF jac) (has : a.shape = [m, k]) (hbs : b.shape = [k, n])
    (hjs : jac.shape = [rows, m * n])
    (hA : ∀ i < m, ∀ kk < k, Raw.elem? a [i, kk] = some (A i kk))
    (hB : ∀ kk < k, ∀ j < n, Raw.elem? b [kk, j] = some (B kk j))
    (hG : ∀ row < rows, ∀ i < m, ∀ j < n, Raw.elem? jac [row, i * n + j] = some (G row (i * n + j))) :
    ∃ l r, bmmJvp [a, b] [jac] = .ok [l, r] ∧ l.shape = [rows, m * k] ∧ WF l ∧ r.shape = [rows, k * n] ∧ WF r ∧
      (∀ row < rows, ∀ i < m, ∀ kk < k, ∀ p, p = row * (m * k) + (i * k + kk) →
        l.array[rows * (m * k) - min (32 * (p / 32 + 1)) (rows * (m * k)) + p % 32]? =
        some ((List.range n).foldl (fun acc j => acc + G row (i * n + j) * B kk j) 0)) ∧
      (∀ row < rows, ∀ kk < k, ∀ j < n, ∀ p, p = row * (k * n) + (kk * n + j) →
        r.array[rows * (k * n) - min (32 * (p / 32 + 1)) (rows * (k * n)) + p % 32]? =
        some ((List.range m).foldl (fun acc i => acc + G row (i * n + j) * A i kk) 0)) := by
  obtain ⟨l, r, h1, h2, h3, h4, h5, h6, h7⟩ := bmmJvp_cells (isMat_of ha has hA) (isMat_of hb hbs hB)
    (isMat_grad hj hjs hG)
  refine ⟨l, r, h1, h2, h3, h4, h5, ?_, ?_⟩
  · rintro row hrow i hi kk hk _ rfl
    exact h6 row hrow i hi kk hk
  · rintro row hrow kk hk j hjn _ rfl
    exact h7 row hrow kk hk j hjn

/-- C32 holds when neither gradient array has more than 32 elements. Missing: larger arrays, where it is false
(`C32_false`, `C32_actual`). -/
theorem C32_partial [Zero T] [Add T] [Mul T] (a b jac : Raw T) (m k n rows : Nat) (A B G : Nat → Nat → T)
    (hsl : rows * (m * k) ≤ 32) (hsr : rows * (k * n) ≤ 32)
    (ha : WF a) (hb : WF b) (hj : WF jac) (has : a.shape = [m, k]) (hbs : b.shape = [k, n])
    (hjs : jac.shape = [rows, m * n])
    (hA : ∀ i < m, ∀ kk < k, Raw.elem? a [i, kk] = some (A i kk))
    (hB : ∀ kk < k, ∀ j < n, Raw.elem? b [kk, j] = some (B kk j))
    (hG : ∀ row < rows, ∀ i < m, ∀ j < n, Raw.elem? jac [row, i * n + j] = some (G row (i * n + j))) :
    ∃ l r, bmmJvp [a, b] [jac] = .ok [l, r] ∧ l.shape = [rows, m * k] ∧ r.shape = [rows, k * n] ∧
      (∀ row < rows, ∀ i < m, ∀ kk < k, Raw.elem? l [row, i * k + kk] =
        some ((List.range n).foldl (fun acc j => acc + G row (i * n + j) * B kk j) 0)) ∧
      (∀ row < rows, ∀ kk < k, ∀ j < n, Raw.elem? r [row, kk * n + j] =
        some ((List.range m).foldl (fun acc i => acc + G row (i * n + j) * A i kk) 0)) := by
  obtain ⟨l, r, h1, h2, h3, h4, h5, h6, h7⟩ := bmmJvp_cells (isMat_of ha has hA) (isMat_of hb hbs hB)
    (isMat_grad hj hjs hG)
  refine ⟨l, r, h1, h2, h4, fun row hrow i hi kk hk => ?_, fun row hrow kk hk j hjn => ?_⟩
  · have := h6 row hrow i hi kk hk
    rw [segPos_small hsl (mul_add_lt hrow (mul_add_lt hi hk))] at this
    rw [Raw.elem?, h2, rowMajor_pair]; exact this
  · have := h7 row hrow kk hk j hjn
    rw [segPos_small hsr (mul_add_lt hrow (mul_add_lt hk hjn))] at this
    rw [Raw.elem?, h4, rowMajor_pair]; exact this

theorem foldl_add_eq_sum [CommRing T] (n : Nat) (f : Nat → T) :
    (List.range n).foldl (fun acc x => acc + f x) 0 = ∑ x ∈ Finset.range n, f x := by
  induction n with
  | zero => simp
  | succ n ih => rw [List.range_succ, List.foldl_append, ih, Finset.sum_range_succ]; rfl

/-- C32 over a commutative ring, in the form of the statement: `dA = g Bᵀ`, `dB = Aᵀ g`. -/
theorem C32_sum_partial [CommRing T] (a b jac : Raw T) (m k n rows : Nat) (A B G : Nat → Nat → T)
    (hsl : rows * (m * k) ≤ 32) (hsr : rows * (k * n) ≤ 32)
    (ha : WF a) (hb : WF b) (hj : WF jac) (has : a.shape = [m, k]) (hbs : b.shape = [k, n])
    (hjs : jac.shape = [rows, m * n])
    (hA : ∀ i < m, ∀ kk < k, Raw.elem? a [i, kk] = some (A i kk))
    (hB : ∀ kk < k, ∀ j < n, Raw.elem? b [kk, j] = some (B kk j))
    (hG : ∀ row < rows, ∀ i < m, ∀ j < n, Raw.elem? jac [row, i * n + j] = some (G row (i * n + j))) :
    ∃ l r, bmmJvp [a, b] [jac] = .ok [l, r] ∧ l.shape = [rows, m * k] ∧ r.shape = [rows, k * n] ∧
      (∀ row < rows, ∀ i < m, ∀ kk < k, Raw.elem? l [row, i * k + kk] =
        some (∑ j ∈ Finset.range n, G row (i * n + j) * B kk j)) ∧
      (∀ row < rows, ∀ kk < k, ∀ j < n, Raw.elem? r [row, kk * n + j] =
        some (∑ i ∈ Finset.range m, A i kk * G row (i * n + j))) := by
  obtain ⟨l, r, h1, h2, h3, h4, h5⟩ := C32_partial a b jac m k n rows A B G hsl hsr ha hb hj has hbs hjs hA hB hG
  refine ⟨l, r, h1, h2, h3, fun row hrow i hi kk hk => ?_, fun row hrow kk hk j hjn => ?_⟩
  · rw [h4 row hrow i hi kk hk, foldl_add_eq_sum]
  · rw [h5 row hrow kk hk j hjn, foldl_add_eq_sum]
    congr 1
    exact Finset.sum_congr rfl (fun i _ => mul_comm _ _)

/-- C32 is false: for a 33 x 1 left operand the gradient of row 0 is found in row 1. -/
theorem C32_false : ¬ C32_statement Int := by
  intro h
  let a : Raw Int := ⟨List.replicate 33 1, [33, 1]⟩
  let b : Raw Int := ⟨[1], [1, 1]⟩
  let jac : Raw Int := ⟨(List.range 33).map Int.ofNat, [1, 33]⟩
  have hA : ∀ i < 33, ∀ kk < 1, Raw.elem? a [i, kk] = some ((fun _ _ => 1 : Nat → Nat → Int) i kk) := by
    intro i hi kk hk
    rw [Raw.elem?, rowMajor_pair]
    simp only [a, List.getElem?_replicate]
    rw [if_pos (by omega)]
  have hB : ∀ kk < 1, ∀ j < 1, Raw.elem? b [kk, j] = some ((fun _ _ => 1 : Nat → Nat → Int) kk j) := by
    intro i hi kk hk
    rw [Raw.elem?, rowMajor_pair]
    rw [show i * 1 + kk = 0 by omega]; rfl
  have hG : ∀ row < 1, ∀ i < 33, ∀ j < 1, Raw.elem? jac [row, i * 1 + j]
      = some ((fun _ x => Int.ofNat x : Nat → Nat → Int) row (i * 1 + j)) := by
    intro row hrow i hi j hj
    rw [Raw.elem?, rowMajor_pair]
    rw [show row * 33 + (i * 1 + j) = i by omega, show i * 1 + j = i by omega]
    simp [jac, hi]
  obtain ⟨l, r, h1, _, _, _, _, h6, _⟩ := C32_actual a b jac 33 1 1 1 _ _ _ rfl rfl rfl rfl rfl rfl hA hB hG
  obtain ⟨l', r', h1', h2', _, h4', _⟩ := h a b jac 33 1 1 1 _ _ _ rfl rfl rfl rfl rfl rfl hA hB hG
  rw [h1] at h1'
  have hll : l = l' := by have := h1'; simp at this; exact this.1
  subst hll
  have e1 := h6 0 (by omega) 0 (by omega) 0 (by omega) _ rfl
  have e2 := h4' 0 (by omega) 1 (by omega) 0 (by omega)
  rw [Raw.elem?, h2', rowMajor_pair] at e2
  have : (1 * (33 * 1) - min (32 * ((0 * (33 * 1) + (0 * 1 + 0)) / 32 + 1)) (1 * (33 * 1)) +
      (0 * (33 * 1) + (0 * 1 + 0)) % 32) = 0 * (33 * 1) + (1 * 1 + 0) := by decide
  rw [this, e2] at e1
  simp at e1

/-- C32, non-vacuity: the hypotheses of the partial theorem hold for a 1x2 by 2x2 product. -/
example : IsMat (⟨[1, 2], [1, 2]⟩ : Raw Int) 1 2 (fun _ j => j + 1) := by
  refine ⟨rfl, rfl, fun i hi j hj => ?_⟩
  have : i = 0 := by omega
  subst this
  match j, hj with
  | 0, _ => rfl
  | 1, _ => rfl

/-! ## unary elementwise operations (C53) -/

/-- C53, law-free form for neg, relu and abs: the gradient at `(row, e)` is `0 + f'(x_e) * upstream(row, e)`. -/
theorem unary_jvp_cells [Zero T] [Add T] [Mul T] (t grad : Raw T) (ht : WF t) (hg : WF grad) (hp : Pos t.shape)
    (rows : Nat) (hs : grad.shape = [rows, t.shape.prod]) (f : T → T) :
    ∃ s, genericUnaryJvp t grad f = .ok [s] ∧ s.shape = [rows, t.shape.prod] ∧ WF s ∧
      ∀ row < rows, ∀ e, InRange t.shape e → ∃ x g, Raw.elem? t e = some x ∧
        Raw.elem? grad [row, rowMajor t.shape e] = some g ∧
        Raw.elem? s [row, rowMajor t.shape e] = some (0 + f x * g) := by
  have hlen : t.array.length = t.shape.prod := ht
  have hgo : GradOk grad rows t.array.length (fun r k => grad.array.getD (r * t.array.length + k) 0) := by
    refine Or.inl ⟨by rw [hs, hlen], hg, fun row hrow k hk => ?_⟩
    have : row * t.array.length + k < grad.array.length := by
      rw [hg, hs, hlen]; simpa using mul_add_lt hrow (hlen ▸ hk)
    simp [this]
  obtain ⟨s, h1, h2, h3, h4⟩ := genericUnaryJvp_ok ht hp hgo f
  refine ⟨s, h1, by rw [h2, hlen], h3, fun row hrow e he => ?_⟩
  have hlt : rowMajor t.shape e < t.array.length := by rw [hlen]; exact rowMajor_lt he
  have hlt2 : row * t.array.length + rowMajor t.shape e < grad.array.length := by
    rw [hg, hs, hlen]; simpa using mul_add_lt hrow (rowMajor_lt he)
  refine ⟨t.array[rowMajor t.shape e], grad.array[row * t.array.length + rowMajor t.shape e], ?_, ?_, ?_⟩
  · simp [Raw.elem?, hlt]
  · rw [Raw.elem?, hs, rowMajor_pair, ← hlen]; simp [hlt2]
  · have := h4 row hrow _ hlt
    rw [Raw.elem?, h2, rowMajor_pair, this]
    simp [hlt2]

/-- C53 for `neg`, over a ring: minus the upstream gradient. -/
theorem C53_neg [CommRing T] (t grad : Raw T) (ht : WF t) (hg : WF grad) (hp : Pos t.shape)
    (rows : Nat) (hs : grad.shape = [rows, t.shape.prod]) :
    ∃ s, negJvp [t] [grad] = .ok [s] ∧ s.shape = [rows, t.shape.prod] ∧
      ∀ row < rows, ∀ e, InRange t.shape e → ∃ g, Raw.elem? grad [row, rowMajor t.shape e] = some g ∧
        Raw.elem? s [row, rowMajor t.shape e] = some (-g) := by
  obtain ⟨s, h1, h2, _, h4⟩ := unary_jvp_cells t grad ht hg hp rows hs (fun _ => -1)
  refine ⟨s, by simpa [negJvp, idxR] using h1, h2, fun row hrow e he => ?_⟩
  obtain ⟨x, g, _, e2, e3⟩ := h4 row hrow e he
  exact ⟨g, e2, by rw [e3]; simp⟩

/-- C53 for `relu`: the upstream gradient where the input is not negative, 0 elsewhere. -/
theorem C53_relu [CommRing T] [LT T] [DecidableLT T] (t grad : Raw T) (ht : WF t) (hg : WF grad) (hp : Pos t.shape)
    (rows : Nat) (hs : grad.shape = [rows, t.shape.prod]) :
    ∃ s, reluJvp [t] [grad] = .ok [s] ∧ s.shape = [rows, t.shape.prod] ∧
      ∀ row < rows, ∀ e, InRange t.shape e → ∃ x g, Raw.elem? t e = some x ∧
        Raw.elem? grad [row, rowMajor t.shape e] = some g ∧
        Raw.elem? s [row, rowMajor t.shape e] = some (if x < 0 then 0 else g) := by
  obtain ⟨s, h1, h2, _, h4⟩ := unary_jvp_cells t grad ht hg hp rows hs reluDeriv
  refine ⟨s, by simpa [reluJvp, idxR] using h1, h2, fun row hrow e he => ?_⟩
  obtain ⟨x, g, e1, e2, e3⟩ := h4 row hrow e he
  refine ⟨x, g, e1, e2, ?_⟩
  rw [e3, reluDeriv]
  split <;> simp

/-- C53 for `abs`: the upstream gradient where the input is not negative, minus it elsewhere. -/
theorem C53_abs [CommRing T] [LE T] [DecidableLE T] (t grad : Raw T) (ht : WF t) (hg : WF grad) (hp : Pos t.shape)
    (rows : Nat) (hs : grad.shape = [rows, t.shape.prod]) :
    ∃ s, absJvp [t] [grad] = .ok [s] ∧ s.shape = [rows, t.shape.prod] ∧
      ∀ row < rows, ∀ e, InRange t.shape e → ∃ x g, Raw.elem? t e = some x ∧
        Raw.elem? grad [row, rowMajor t.shape e] = some g ∧
        Raw.elem? s [row, rowMajor t.shape e] = some (if 0 ≤ x then g else -g) := by
  obtain ⟨s, h1, h2, _, h4⟩ := unary_jvp_cells t grad ht hg hp rows hs absDeriv
  refine ⟨s, by simpa [absJvp, idxR, hs] using h1, h2, fun row hrow e he => ?_⟩
  obtain ⟨x, g, e1, e2, e3⟩ := h4 row hrow e he
  refine ⟨x, g, e1, e2, ?_⟩
  rw [e3, absDeriv]
  by_cases h : 0 ≤ x
  · simp [h]
  · simp [h]

/-- C53 for `tanh`: the upstream gradient times `1 - powi(tanh(x), 2)`. The upstream gradient has one row, as every
gradient that `backward` propagates does. -/
theorem C53_tanh [CommRing T] [RealFn T] (t grad : Raw T) (ht : WF t) (hg : WF grad) (hp : Pos t.shape)
    (hs : grad.shape = [1, t.shape.prod]) :
    ∃ s, tanhJvp [t] [grad] = .ok [s] ∧ s.shape = [1, t.shape.prod] ∧
      ∀ e, InRange t.shape e → ∃ x g, Raw.elem? t e = some x ∧
        Raw.elem? grad [0, rowMajor t.shape e] = some g ∧
        Raw.elem? s [0, rowMajor t.shape e] = some (g * (1 - RealFn.powi2 (RealFn.tanh x))) := by
  have hlen : t.array.length = t.shape.prod := ht
  have hgo : GradOk grad 1 t.array.length (fun r k => grad.array.getD (r * t.array.length + k) 0) := by
    refine Or.inl ⟨by rw [hs, hlen], hg, fun row hrow k hk => ?_⟩
    have : row * t.array.length + k < grad.array.length := by
      rw [hg, hs, hlen]; simpa using mul_add_lt hrow (hlen ▸ hk)
    simp [this]
  obtain ⟨s, h1, h2, h3, h4⟩ := tanhJvp_ok ht hp hgo (Or.inl (by rw [hs, hlen]))
  refine ⟨s, h1, by rw [h2, hlen], fun e he => ?_⟩
  have hlt : rowMajor t.shape e < t.array.length := by rw [hlen]; exact rowMajor_lt he
  have hlt2 : rowMajor t.shape e < grad.array.length := by
    rw [hg, hs]; simpa using rowMajor_lt he
  refine ⟨t.array[rowMajor t.shape e], grad.array[rowMajor t.shape e], ?_, ?_, ?_⟩
  · simp [Raw.elem?, hlt]
  · rw [Raw.elem?, hs, rowMajor_pair]; simp [hlt2]
  · have := h4 _ hlt
    rw [Raw.elem?, h2, rowMajor_pair]
    simp [this, hlt2, tanhDerivFn]

/-- C53, the hypotheses of the four theorems hold for a 2-element tensor and gradient. -/
example : WF (⟨[-1, 2], [2]⟩ : Raw Int) ∧ WF (⟨[5, 6], [1, 2]⟩ : Raw Int) ∧ Pos [2] ∧ [1, 2] = [1, [2].prod] := by
  simp [WF, Pos]

/-- C53, test. -/
example : reluJvp [(⟨[-1, 2], [2]⟩ : Raw Int)] [⟨[5, 6], [1, 2]⟩] = .ok [⟨[0, 6], [1, 2]⟩] := by decide
example : absJvp [(⟨[-1, 2], [2]⟩ : Raw Int)] [⟨[5, 6], [1, 2]⟩] = .ok [⟨[-5, 6], [1, 2]⟩] := by decide

end RL
