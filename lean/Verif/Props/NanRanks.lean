import Verif.Lemmas.NanRanks
import Verif.Props.Nan

/-!
# Property theorems: NaNs in tensors of any number of dimensions (C79)
-/

namespace RL

open Spec

/-- C79 for tensors of any number of dimensions, unless a factor of a matrix product has at least four dimensions and more than one row.
Missing: such products, all of which hide NaNs (`C79_exact`). -/
theorem C79_ranks_partial {T : Type} [Zero T] [One T] [Add T] [Mul T] [Sub T] [Neg T] [LT T] [DecidableLT T] [LE T] [DecidableLE T] [RealFn T]
    (Bad : T → Prop) (h : Heap T) (a l : Nat) (v w : Raw T) (hB : Absorbing Bad) (hr : Reachable h)
    (hp : ∀ i u, Feeds h i l → dataOf h i = some u → WF u ∧ Pos u.shape)
    (hh : ∀ i d p q u, Feeds h i l → historyOf h i = some (some d) → d.kind = .bmm → d.inputs = [p, q] → dataOf h p = some u → ¬ Hides u.shape)
    (ha : Ancestor h a l) (hv : dataOf h a = some v) (hw : dataOf h l = some w) (hb : Poisoned Bad v) : Poisoned Bad w :=
  feeds_poisons hB hr.good hp hh ha hv hw hb

open Test NanInt in
/-- C79, exactly which matrix products hide a NaN: those whose left factor has at least four dimensions and more than one row. -/
theorem C79_exact (s r p : List Nat) (hM : Multiplies s r p) (hs : Pos s) (hr : Pos r) :
    (∀ l w v : Raw NanInt, WF l → WF w → l.shape = s → w.shape = r → bmmRaw (.raw l) (.raw w) = .ok v → Poisoned isNan l → Poisoned isNan v) ↔
      ¬ Hides s := by
  constructor
  · rintro H ⟨a, m, k, hm, rfl⟩
    obtain ⟨n, rfl⟩ : ∃ n, r = [k, n] := by
      have h1 : ∀ {s r p : List Nat}, Multiplies s r p → ∃ k n, s.getLast? = some k ∧ r = [k, n] := by
        intro s r p h
        cases h with
        | matrix m k n => exact ⟨k, n, by simp, rfl⟩
        | batch b m k n => exact ⟨k, n, by simp, rfl⟩
        | row a m k n => exact ⟨k, n, by simp, rfl⟩
      obtain ⟨k', n, h2, rfl⟩ := h1 hM
      exact ⟨n, by simp at h2; rw [h2]⟩
    have pk : 0 < k := hr k (by simp)
    let l : Raw NanInt := ⟨List.replicate k (num 0) ++ List.replicate ((m - 1) * k) nan, List.replicate (a + 2) 1 ++ [m, k]⟩
    let w : Raw NanInt := ⟨List.replicate (k * n) (num 0), [k, n]⟩
    have wl : WF l := by
      obtain ⟨m, rfl⟩ : ∃ m', m = m' + 1 := ⟨m - 1, by omega⟩
      simp [WF, l]
      ring
    have ww : WF w := by simp [WF, w]
    obtain ⟨v, e, hvs, x, y, hx, hy, hv⟩ := C20_leading_ones l (.raw w) wl ww a m k n (by omega) rfl rfl
    have hx0 : ∀ kk < k, x kk = num 0 := by
      intro kk hk
      have h1 := hx kk hk
      have h2 : ∀ q, rowMajor (List.replicate q 1 ++ [m, k]) (List.replicate q 0 ++ [0, kk]) = kk := by
        intro q
        induction q with
        | zero => simp [rowMajor]
        | succ q ih => simpa [List.replicate_succ, rowMajor] using ih
      rw [Raw.elem?, h2, List.getElem?_append_left (by simpa using hk)] at h1
      exact (List.eq_of_mem_replicate (List.mem_of_getElem? h1))
    have hy0 : ∀ kk < k, ∀ j < n, y kk j = num 0 := by
      intro kk hk j hj
      exact List.eq_of_mem_replicate (List.mem_of_getElem? (hy kk j hk hj))
    obtain ⟨z, hz, hz'⟩ := H l w v wl ww rfl rfl e ⟨nan, by
      simp only [l, List.mem_append, List.mem_replicate]
      exact Or.inr ⟨by have := Nat.mul_pos (by omega : 0 < m - 1) pk; omega, trivial⟩, rfl⟩
    have wv : WF v := bmmRaw_post _ _ v e
    obtain ⟨idx, hi, he⟩ := mem_array wv hz
    rw [hvs] at hi
    match idx, hi with
    | [q, i, j], .cons hq (.cons hi (.cons hj .nil)) =>
      obtain rfl : q = 0 := by omega
      obtain rfl : i = 0 := by omega
      have h1 := get_elem (by rw [hvs]; exact .cons hq (.cons hi (.cons hj .nil))) (hv j hj)
      rw [he] at h1
      have h2 : ∀ ks : List Nat, (∀ kk ∈ ks, kk < k) → ks.foldl (fun acc kk => acc + x kk * y kk j) (num 0) = num 0 := by
        intro ks
        induction ks with
        | nil => intro _; rfl
        | cons kk ks ih =>
          intro hks
          rw [List.foldl_cons, hx0 kk (hks kk (by simp)), hy0 kk (hks kk (by simp)) j hj]
          exact ih fun c hc => hks c (by simp [hc])
      cases h1.trans (congrArg some (h2 (List.range k) fun kk h => List.mem_range.1 h))
      cases hz'
  · intro hh l w v wl ww el ew e hb
    subst el ew
    exact bmm_poisons absorbing ⟨wl, hs⟩ ⟨ww, hr⟩ hh e (Or.inl hb)

/-- C79, test: the shape of `C79_false` hides NaNs; with one row, or with three dimensions, it would not. -/
example : Hides [1, 1, 2, 1] ∧ ¬ Hides [1, 1, 1, 2] ∧ ¬ Hides [1, 2, 1] ∧ Multiplies [1, 1, 2, 1] [1, 3] [1, 1, 3] := by
  refine ⟨⟨0, 2, 1, by omega, rfl⟩, ?_, ?_, .row 0 2 1 3⟩
  · rintro ⟨a, m, k, hm, e⟩
    match a with
    | 0 => simp at e; omega
    | a + 1 => have := congrArg List.length e; simp at this
  · rintro ⟨a, m, k, hm, e⟩
    have := congrArg List.length e
    simp at this

open Test NanInt in
/-- C79, test: a NaN in a tensor with four dimensions that goes through a product, an addition and a sum. -/
example : ∃ h : Heap NanInt, runOps [] [.new [num 5, nan] [1, 1, 1, 2], .new [num 1, num 1] [2, 1], .bmm 0 1, .add 2 2, .sum 3] = .ok h ∧
    (dataOf h 5).map (·.array) = some [nan] := ⟨_, rfl, rfl⟩

end RL
