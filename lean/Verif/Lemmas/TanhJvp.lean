import Verif.Lemmas.BmmJvp
import Verif.Lemmas.Arith
import Mathlib.Algebra.Ring.Defs
import Mathlib.Algebra.BigOperators.Group.Finset.Basic
import Mathlib.Algebra.BigOperators.Group.Finset.Piecewise

/-!
# Lemmas about the gradient of `tanh`
-/

namespace RL

open Spec

variable {T : Type}

theorem tanhJacobian_ok [Zero T] [One T] [Sub T] [RealFn T] {t : Raw T} (ht : WF t) :
    ∃ j, tanhJacobian t = .ok j ∧ j.shape = [t.array.length, t.array.length] ∧ WF j ∧
      ∀ a, (ha : a < t.array.length) → ∀ b < t.array.length,
        j.array[a * t.array.length + b]? = some (if a = b then tanhDerivFn t.array[a] else 0) := by
  have hlen : t.shape.prod = t.array.length := ht.symm
  unfold tanhJacobian
  rw [hlen]
  obtain ⟨n, hn⟩ : ∃ n, n = t.array.length := ⟨_, rfl⟩
  simp only [← hn]
  have key : (List.range n).foldlM (init := ([] : List T)) (fun acc i =>
      (List.range n).foldlM (init := acc) (fun acc j =>
        if i = j then do
          let x ← idxR t.array i
          return acc ++ [tanhDerivFn x]
        else return acc ++ [0]))
      = .ok ((List.range n).flatMap fun i => (List.range n).map fun j =>
          if i = j then tanhDerivFn (t.array.getD i 0) else 0) := by
    refine (foldlM_ok _ (fun acc i => acc ++ (List.range n).map fun j =>
          if i = j then tanhDerivFn (t.array.getD i 0) else 0) _ (fun acc i hi => ?_) _).trans
      (by rw [foldl_append_flatMap]; rfl)
    rw [List.mem_range] at hi
    refine (foldlM_ok _ (fun acc j => acc ++ [if i = j then tanhDerivFn (t.array.getD i 0) else 0]) _
      (fun acc j hj => ?_) _).trans ?_
    · by_cases h : i = j
      · rw [if_pos h, idxR_ok (show i < t.array.length by omega)]
        simp [← h, show i < t.array.length by omega]
      · rw [if_neg h]; simp [h]
    · rw [foldl_append_flatMap, List.map_eq_flatMap]
  rw [key]
  simp only [R.bind_ok]
  have hl : ((List.range n).flatMap fun i => (List.range n).map fun j =>
          if i = j then tanhDerivFn (t.array.getD i 0) else 0).length = [n, n].prod := by
    rw [allIndices2]; simp [allIndices_length]
  rw [Raw.new_ok hl]
  refine ⟨_, rfl, rfl, hl, fun a ha b hb => ?_⟩
  have := map_allIndices_get (α := T) (shape := [n, n]) (idx := [a, b])
    (fun idx => (fun i j => if i = j then tanhDerivFn (t.array.getD i 0) else 0) (idx.getD 0 0) (idx.getD 1 0))
    (inRange2.2 ⟨ha, hb⟩)
  have h3 := allIndices2 n n (fun i j => if i = j then tanhDerivFn (t.array.getD i 0) else (0 : T))
  rw [h3.symm] at this
  have h2 : rowMajor [n, n] [a, b] = a * n + b := by simp [rowMajor]
  rw [h2] at this
  simp only [this]
  simp [show a < t.array.length by omega]

theorem tanhJvp_ok [CommRing T] [RealFn T] {t grad : Raw T} (ht : WF t) (hp : Pos t.shape) {g : Nat → Nat → T}
    (hg : GradOk grad 1 t.array.length g) (hsh : grad.shape = [1, t.array.length] ∨ t.array.length = 1) :
    ∃ s, tanhJvp [t] [grad] = .ok [s] ∧ s.shape = [1, t.array.length] ∧ WF s ∧
      ∀ e, (he : e < t.array.length) → s.array[e]? = some (g 0 e * tanhDerivFn t.array[e]) := by
  obtain ⟨j, hj1, hj2, hj3, hj4⟩ := tanhJacobian_ok ht
  have hn : 0 < t.array.length := by rw [ht]; exact prod_pos_of_pos hp
  have hjl : j.array.length = t.array.length * t.array.length := by rw [hj3, hj2]; simp
  suffices ∃ s, jvpFromFullJacobians grad j = .ok s ∧ s.shape = [1, t.array.length] ∧ WF s ∧
      ∀ e, (he : e < t.array.length) → s.array[e]? = some (g 0 e * tanhDerivFn t.array[e]) by
    obtain ⟨s, h1, h2⟩ := this
    refine ⟨s, ?_, h2⟩
    have a1 : assertR ([t].length == 1) = .ok () := rfl
    have a2 : assertR ([grad].length == 1) = .ok () := rfl
    have a3 : idxR [t] 0 = .ok t := rfl
    have a4 : idxR [grad] 0 = .ok grad := rfl
    unfold tanhJvp
    simp only [a1, a2, a3, a4, R.bind_ok, hj1, h1]
    rfl
  by_cases h1 : t.array.length = 1
  · -- one element
    have ht0 : ∃ x, t.array = [x] := List.length_eq_one_iff.1 h1
    obtain ⟨x, hx⟩ := ht0
    have hjd : j = ⟨[tanhDerivFn x], [1, 1]⟩ := by
      have hjl1 : j.array.length = 1 := by rw [hjl, h1]
      obtain ⟨y, hy⟩ := List.length_eq_one_iff.1 hjl1
      have := hj4 0 (by omega) 0 (by omega)
      simp [hy, hx] at this
      obtain ⟨ja, js⟩ := j
      simp only at hy hj2
      rw [hy, hj2, h1, this]
    rw [hjd]
    unfold jvpFromFullJacobians
    rw [if_pos (by simp [Raw.isScalar])]
    have hgc : (grad.shape = [1, 1] ∨ grad.shape = []) ∧ grad.array = [g 0 0] := by
      rcases hg with ⟨hs, hw, hv⟩ | ⟨hs, _, hw, hv⟩
      · rw [h1] at hs hv
        have hl : grad.array.length = 1 := by rw [hw, hs]; rfl
        obtain ⟨y, hy⟩ := List.length_eq_one_iff.1 hl
        have := hv 0 (by omega) 0 (by omega)
        simp [hy] at this
        exact ⟨Or.inl hs, by rw [hy, this]⟩
      · have hl : grad.array.length = 1 := by rw [hw, hs]; rfl
        obtain ⟨y, hy⟩ := List.length_eq_one_iff.1 hl
        have := hv 0
        simp [hy] at this
        exact ⟨Or.inr hs, by rw [hy, this]⟩
    obtain ⟨hs, ha⟩ := hgc
    obtain ⟨ga, gs⟩ := grad
    simp only at hs ha
    subst ha
    rcases hs with rfl | rfl
    · have hmul : mulRaw (⟨[g 0 0], [1, 1]⟩ : Raw T) (.raw ⟨[tanhDerivFn x], [1, 1]⟩) = .ok ⟨[g 0 0 * tanhDerivFn x], [1, 1]⟩ := by
        have := elementWiseMul_eq (l := .raw (⟨[g 0 0], [1, 1]⟩ : Raw T)) (r := .raw ⟨[tanhDerivFn x], [1, 1]⟩)
          (by simp [Ok, WF]) (by simp [Ok, WF]) rfl (by simp [Pos])
        rw [elems_raw (by simp [WF]), elems_raw (by simp [WF])] at this
        simpa [mulRaw] using this
      rw [assertR_of (by simp), R.bind_ok, hmul]
      refine ⟨_, rfl, by rw [h1], by simp [WF], fun e he => ?_⟩
      have : e = 0 := by omega
      subst this
      simp [hx]
    · have hmul : mulRaw (⟨[g 0 0], []⟩ : Raw T) (.raw ⟨[tanhDerivFn x], [1, 1]⟩) = .ok ⟨[g 0 0 * tanhDerivFn x], [1, 1]⟩ := by
        simp [mulRaw, idxR, TL.leftScalarMul, TL.tensor, TL.shape]
      rw [assertR_of (by simp), R.bind_ok, hmul]
      refine ⟨_, rfl, by rw [h1], by simp [WF], fun e he => ?_⟩
      have : e = 0 := by omega
      subst this
      simp [hx]
  · have hs : grad.shape = [1, t.array.length] := hsh.resolve_right h1
    have hgm : IsMat grad 1 t.array.length g := by
      rcases hg with ⟨hs', hw, hv⟩ | ⟨hs', _⟩
      · exact ⟨hs', hw, hv⟩
      · rw [hs] at hs'; simp at hs'
    unfold jvpFromFullJacobians
    have hcond : (j.isScalar || j.shape.prod == 1 || grad.isScalar || grad.shape.prod == 1) = false := by
      have e1 : j.isScalar = false := by simp [Raw.isScalar, hj2]
      have e2 : grad.isScalar = false := by simp [Raw.isScalar, hs]
      rw [e1, e2, hj2, hs]
      simp [h1]
    rw [if_neg (by rw [hcond]; simp)]
    rw [bmmRaw2_eq (l := .raw grad) (r := .raw j) hgm.2.1 hj3 hs hj2]
    refine ⟨_, rfl, rfl, by simp [WF, allIndices_length], fun e he => ?_⟩
    have := map_allIndices_get (α := T) (shape := [1, t.array.length]) (idx := [0, e])
      (fun idx => dotFold t.array.length (fun kk => ent (.raw grad) [idx.getD 0 0, kk]) (fun kk => ent (.raw j) [kk, idx.getD 1 0]))
      (inRange2.2 ⟨by omega, he⟩)
    have h2 : rowMajor [1, t.array.length] [0, e] = e := by simp [rowMajor]
    rw [h2] at this
    simp only [this]
    congr 1
    have e1 : ∀ kk < t.array.length, ent (.raw grad) [0, kk] = g 0 kk := by
      intro kk hk
      have := hgm.2.2 0 (by omega) kk hk
      simp only [ent, elem?, Raw.elem?, hs, rowMajor]
      simp at this
      simp [this]
    have e2 : ∀ kk, (hk : kk < t.array.length) → ent (.raw j) [kk, e] = if kk = e then tanhDerivFn t.array[kk] else 0 := by
      intro kk hk
      have := hj4 kk hk e he
      simp only [ent, elem?, Raw.elem?, hj2, rowMajor]
      simp [this]
    have : ∀ n ≤ t.array.length, (List.range n).foldl (fun acc kk => acc + ent (.raw grad) [0, kk] * ent (.raw j) [kk, e]) 0
        = if e < n then g 0 e * tanhDerivFn t.array[e] else 0 := by
      intro n
      induction n with
      | zero => intro _; simp
      | succ n ih =>
        intro hn
        rw [List.range_succ, List.foldl_append, ih (by omega)]
        simp only [List.foldl_cons, List.foldl_nil]
        rw [e1 n (by omega), e2 n (by omega)]
        by_cases hne : n = e
        · subst hne; simp
        · by_cases hlt : e < n
          · simp [hlt, hne, show e < n + 1 by omega]
          · simp [hlt, hne, show ¬ e < n + 1 by omega]
    have := this t.array.length (Nat.le_refl _)
    rw [if_pos he] at this
    exact this

end RL
