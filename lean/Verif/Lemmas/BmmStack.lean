import Verif.Lemmas.JvpSucc

/-!
# The gradient of a matrix product whose left operand has three or more dimensions
-/

namespace RL

open Spec

variable {T : Type}

theorem globalIndexLoop_ones {len : Nat} : ∀ (l : List (Nat × Nat)) (n g m : Nat), (∀ p ∈ l, p.1 = 1) → globalIndexLoop len none l n g m = .ok g := by
  intro l
  induction l with
  | nil => intros; rfl
  | cons p l ih =>
    intro n g m h
    obtain ⟨d, i⟩ := p
    have hd : d = 1 := h (d, i) (by simp)
    subst hd
    unfold globalIndexLoop
    rw [if_pos rfl]
    exact ih _ _ _ fun q hq => h q (by simp [hq])

/-- in a tensor all of whose dimensions are 1, every index is that of the only element -/
theorem globalIndex_ones {shape idx : List Nat} (h : ∀ d ∈ shape, d = 1) : globalIndex idx shape none = .ok 0 := by
  unfold globalIndex
  rw [if_neg]
  · refine globalIndexLoop_ones _ _ _ _ fun p hp => h p.1 ?_
    have := (List.of_mem_zip hp).1
    simpa using this
  · rintro ⟨_, h2⟩
    rw [List.any_eq_true] at h2
    obtain ⟨d, hd, h1⟩ := h2
    have := h d (List.mem_of_mem_take hd)
    simp at h1
    omega

/-- an index with two components is only accepted if all dimensions before the last two are 1 -/
theorem globalIndex_lead {shape : List Nat} {i k g : Nat} (h : globalIndex [i, k] shape none = .ok g) (hp : Pos shape) :
    ∀ d ∈ shape.take (shape.length - 2), d = 1 := by
  intro d hd
  by_contra hne
  unfold globalIndex at h
  rw [if_pos] at h
  · cases h
  · have hpos := hp d (List.mem_of_mem_take hd)
    refine ⟨?_, List.any_eq_true.2 ⟨d, hd, by simp; omega⟩⟩
    by_contra hc
    simp only [List.length_cons, List.length_nil] at hc
    rw [show shape.length - 2 = 0 by omega] at hd
    simp at hd

theorem foldlM_ok_step {σ α : Type _} {f : σ → α → R σ} {l : List α} {s s' : σ} (h : l.foldlM f s = .ok s') {a : α} (ha : a ∈ l) :
    ∃ t t', f t a = .ok t' := by
  induction l generalizing s with
  | nil => simp at ha
  | cons b l ih =>
    rw [List.foldlM_cons, R.bind_eq_ok] at h
    obtain ⟨t, ht, h⟩ := h
    rcases List.mem_cons.1 ha with rfl | ha
    · exact ⟨s, t, ht⟩
    · exact ih h ha

variable [Zero T] [Add T] [Mul T]

/-- the sizes of a product that was computed -/
theorem bmmRaw_sizes {a b v : Raw T} (h : bmmRaw (.raw a) (.raw b) = .ok v) :
    ∃ k n, b.shape = [k, n] ∧ 2 ≤ a.shape.length ∧ a.shape.getLast? = some k ∧
      (3 ≤ a.shape.length → v.array.length = a.shape.getD 0 0 * a.shape.getD 1 0 * n) := by
  have hw := bmmRaw_post (.raw a) (.raw b) v h
  unfold bmmRaw at h
  simp only [R.bind_eq_ok, bmmChecks] at h
  obtain ⟨_, ⟨_, c1, _, c2, l, hl, r, hr, c3⟩, ns, hns, nb, hnb, nr, hnr, nc, hnc, rows, hrows, arr, harr, h⟩ := h
  rw [assertR_eq_ok] at c1 c2 c3
  rw [decide_eq_true_eq] at c1
  rw [beq_iff_eq] at c2 c3
  change 2 ≤ a.shape.length at c1
  change b.shape.length = 2 at c2
  obtain ⟨k, n, hb⟩ := List.length_eq_two.1 c2
  rw [idxR_eq_ok] at hl hr
  simp only [TL.shape, hb] at hl hr
  simp at hr
  subst hr
  refine ⟨k, n, hb, c1, ?_, fun h3 => ?_⟩
  · rw [List.getLast?_eq_getElem?, hl, c3]
  · have hne : ¬ (TL.raw a).shape.length = 2 := by
      change ¬ a.shape.length = 2
      omega
    rw [if_neg hne, R.pure_eq_ok] at h
    unfold bmmShape at hns
    simp only [R.bind_eq_ok, idxR_eq_ok] at hns
    obtain ⟨n', hn', l0, h0, hns⟩ := hns
    rw [if_neg hne] at hns
    simp only [R.bind_eq_ok, idxR_eq_ok] at hns
    obtain ⟨l1, h1, hns⟩ := hns
    simp only [TL.shape, hb] at hn' h0 h1
    simp at hn'
    subst hn'
    rw [R.pure_eq_ok] at hns
    subst h
    rw [hw]
    subst hns
    simp [h0, h1, Nat.mul_assoc]

theorem bmmJvp_ones {a b g : Raw T} (h2 : 2 ≤ a.shape.length) (h1 : ∀ d ∈ a.shape, d = 1) :
    bmmJvp [a, b] [g] = bmmJvp [⟨a.array, [1, 1]⟩, b] [g] := by
  have e0 : idxR a.shape 0 = .ok 1 := by
    rw [idxR_eq_ok, List.getElem?_eq_some_iff]
    exact ⟨by omega, h1 _ (List.getElem_mem _)⟩
  have e1 : idxR a.shape 1 = .ok 1 := by
    rw [idxR_eq_ok, List.getElem?_eq_some_iff]
    exact ⟨by omega, h1 _ (List.getElem_mem _)⟩
  have o0 : idxR [1, 1] 0 = (.ok 1 : R Nat) := rfl
  have o1 : idxR [1, 1] 1 = (.ok 1 : R Nat) := rfl
  have g1 : ∀ i k, globalIndex [i, k] a.shape none = .ok 0 := fun i k => globalIndex_ones h1
  have g2 : ∀ i k, globalIndex [i, k] [1, 1] none = .ok 0 := fun i k => globalIndex_ones (by simp)
  have hs : bmmJvpShapes a b g = bmmJvpShapes ⟨a.array, [1, 1]⟩ b g := by simp only [bmmJvpShapes, e0, e1, o0, o1]
  have ht : ∀ sh i k j, bmmJvpTask a b g sh i k j = bmmJvpTask ⟨a.array, [1, 1]⟩ b g sh i k j := by
    intro sh i k j
    simp only [bmmJvpTask, g1, g2, Raw.at, Raw.get]
  have hts : ∀ sh, bmmJvpTasks a b g sh = bmmJvpTasks ⟨a.array, [1, 1]⟩ b g sh := by
    intro sh
    simp only [bmmJvpTasks, e0, e1, o0, o1, ht]
  have i1 : ∀ x y : Raw T, idxR [x, y] 0 = .ok x := fun _ _ => rfl
  have i2 : ∀ x y : Raw T, idxR [x, y] 1 = .ok y := fun _ _ => rfl
  have i3 : ∀ x : Raw T, idxR [x] 0 = .ok x := fun _ => rfl
  simp only [bmmJvp, i1, i2, i3, R.bind_ok, hs, hts, List.length_cons, List.length_nil]

/-- The gradient function of a product accepts a row of the right length if the left operand has one element. -/
theorem bmmJvp_ones_succ {a b v g : Raw T} (hf : bmmRaw (.raw a) (.raw b) = .ok v) (wa : WF a) (wb : WF b)
    (h3 : 3 ≤ a.shape.length) (h1 : ∀ d ∈ a.shape, d = 1) (hg : g.shape = [1, v.array.length]) (wg : WF g) :
    ∃ out, bmmJvp [a, b] [g] = .ok out ∧ List.Forall₂ (fun o x => o.shape = [1, x.array.length] ∧ WF o) out [a, b] := by
  obtain ⟨k, n, hb, _, hk, hv⟩ := bmmRaw_sizes hf
  have hk1 : k = 1 := h1 k (List.mem_of_getLast? hk)
  subst hk1
  have g0 : a.shape.getD 0 0 = 1 := by
    rw [List.getD_eq_getElem?_getD, List.getElem?_eq_getElem (show 0 < a.shape.length by omega)]; exact h1 _ (List.getElem_mem _)
  have g1 : a.shape.getD 1 0 = 1 := by
    rw [List.getD_eq_getElem?_getD, List.getElem?_eq_getElem (show 1 < a.shape.length by omega)]; exact h1 _ (List.getElem_mem _)
  have hvn := hv h3
  rw [g0, g1] at hvn
  simp only [Nat.one_mul] at hvn
  have ha : a.array.length = 1 := by
    rw [wa]
    exact List.prod_eq_one h1
  have mat : ∀ (t : Raw T) (m n : Nat), t.shape = [m, n] → WF t → IsMat t m n (fun i j => t.array.getD (i * n + j) 0) := by
    intro t m n hs hw
    refine ⟨hs, hw, fun i hi j hj => ?_⟩
    have : i * n + j < t.array.length := by rw [hw, hs]; simpa using mul_add_lt hi hj
    simp [this]
  rw [bmmJvp_ones (by omega) h1]
  obtain ⟨x, y, e, s1, w1, s2, w2, _⟩ := bmmJvp_cells (mat ⟨a.array, [1, 1]⟩ 1 1 rfl (by simp [WF, ha])) (mat b 1 n hb wb)
    (mat g 1 (1 * n) (by rw [hg, hvn, Nat.one_mul]) wg)
  refine ⟨[x, y], e, .cons ⟨?_, w1⟩ (.cons ⟨?_, w2⟩ .nil)⟩
  · rw [s1, ha]
  · rw [s2, wb, hb]; simp

/-- Otherwise it fails, or makes a gradient for the left operand with the wrong number of elements. -/
theorem bmmJvp_stack {a b v g l : Raw T} {rest : List (Raw T)} (hf : bmmRaw (.raw a) (.raw b) = .ok v) (wa : WF a) (pa : Pos a.shape) (pb : Pos b.shape)
    (h3 : 3 ≤ a.shape.length) (hg : g.shape = [1, v.array.length]) (h : bmmJvp [a, b] [g] = .ok (l :: rest))
    (hl : l.array.length = a.array.length) : ∀ d ∈ a.shape, d = 1 := by
  obtain ⟨k, n, hb, _, hk, -⟩ := bmmRaw_sizes hf
  obtain ⟨pre, y, z, hs⟩ : ∃ pre y z, a.shape = pre ++ [y, z] := by
    refine ⟨a.shape.take (a.shape.length - 2), a.shape[a.shape.length - 2], a.shape[a.shape.length - 1], ?_⟩
    conv_lhs => rw [← List.take_append_drop (a.shape.length - 2) a.shape]
    congr 1
    rw [List.drop_eq_getElem_cons (by omega), List.drop_eq_getElem_cons (by omega), List.drop_eq_nil_of_le (by omega)]
    congr 2
    congr 1
    omega
  simp only [bmmJvp, R.bind_eq_ok] at h
  obtain ⟨_, _, a', ha', b', hb', g', hg', sh, hsh, tasks, ht, ⟨la, ra⟩, hd, l', hl', r', hr', h⟩ := h
  cases ha'
  cases hb'
  cases hg'
  rw [R.pure_eq_ok] at h
  simp only [List.cons.injEq] at h
  obtain ⟨rfl, -⟩ := h
  simp only [bmmJvpShapes, R.bind_eq_ok] at hsh
  obtain ⟨a1, ha1, b0, hb0, _, hass, a0, ha0, b1, hb1, j0, hj0, hsh⟩ := hsh
  rw [assertR_eq_ok] at hass
  rw [idxR_eq_ok] at ha1 hb0 ha0 hb1 hj0
  rw [R.pure_eq_ok] at hsh
  subst hsh
  simp only [hb, hg] at hb0 hb1 hj0
  simp at hb0 hb1 hj0 hass
  subst hb0 hb1 hj0 hass
  -- the first task
  have pos0 : 0 < a0 := pa a0 (List.mem_of_getElem? ha0)
  have pos1 : 0 < a1 := pa a1 (List.mem_of_getElem? ha1)
  have posn : 0 < n := pb n (by simp [hb])
  have ia0 : idxR a.shape 0 = .ok a0 := idxR_eq_ok.2 ha0
  have ia1 : idxR a.shape 1 = .ok a1 := idxR_eq_ok.2 ha1
  have ib1 : idxR b.shape 1 = .ok n := by rw [hb]; rfl
  simp only [bmmJvpTasks, ia0, ia1, ib1, R.bind_ok] at ht
  obtain ⟨_, _, ht⟩ := foldlM_ok_step ht (List.mem_range.2 pos0)
  obtain ⟨_, _, ht⟩ := foldlM_ok_step ht (List.mem_range.2 pos1)
  obtain ⟨_, _, ht⟩ := foldlM_ok_step ht (List.mem_range.2 posn)
  simp only [R.bind_eq_ok, bmmJvpTask] at ht
  obtain ⟨_, ⟨_, _, gi, hgi, _⟩, _⟩ := ht
  have hgi' : globalIndex [0, 0] a.shape none = .ok gi := by
    rcases hx : globalIndex [0, 0] a.shape none with (_ | _) | _
    · rw [hx] at hgi; cases hgi
    · rw [hx] at hgi; cases hgi
    · rw [hx] at hgi; exact hgi
  have hlead := globalIndex_lead hgi' pa
  have hpre : ∀ d ∈ pre, d = 1 := by
    intro d hd
    refine hlead d ?_
    rw [hs]
    simpa using hd
  have hz : z = a1 := by
    rw [hs] at hk
    simpa using hk
  have hprod : a.shape.prod = y * a1 := by
    rw [hs, hz, List.prod_append, List.prod_eq_one hpre]
    simp
  have ha0' : a0 = 1 := by
    refine hpre a0 ?_
    rw [hs] at ha0 h3
    simp only [List.length_append, List.length_cons, List.length_nil] at h3
    rw [List.getElem?_append_left (by omega)] at ha0
    exact List.mem_of_getElem? ha0
  obtain ⟨hlen, rfl⟩ := Raw.new_ok_iff.1 hl'
  simp only [ha0', List.prod_cons, List.prod_nil, Nat.one_mul, Nat.mul_one] at hlen
  simp only at hl
  rw [hlen, wa, hprod] at hl
  have hy : y = 1 := by
    have : y * a1 = 1 * a1 := by omega
    exact Nat.eq_of_mul_eq_mul_right pos1 this
  have h11 : a1 = 1 := by
    rw [hs] at ha1 h3
    simp only [List.length_append, List.length_cons, List.length_nil] at h3
    rcases Nat.lt_or_ge 1 pre.length with h | h
    · rw [List.getElem?_append_left h] at ha1
      exact hpre a1 (List.mem_of_getElem? ha1)
    · have : pre.length = 1 := by omega
      rw [List.getElem?_append_right (by omega), this] at ha1
      simp at ha1
      omega
  intro d hd
  rw [hs] at hd
  simp only [List.mem_append, List.mem_cons, List.not_mem_nil, or_false] at hd
  rcases hd with hd | rfl | rfl
  · exact hpre d hd
  · exact hy
  · rw [hz, h11]

end RL
