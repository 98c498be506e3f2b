import Verif.Lemmas.TrainChain

/-! Helper lemmas: the loss of the training loop -/

namespace RL

open Spec

/-- the tensors made for the loss -/
structure LossTail (H : Heap ℝ) (base m w : Nat) (r y l ny df ab : Nat) (out exp : Nat → Nat → ℝ) : Prop where
  atNy : base ≤ ny ∧ ∃ v, H[ny]? = some ⟨v, none, some ⟨[y], .neg⟩⟩ ∧ v.shape = [m, w] ∧ WF v
  atDf : base ≤ df ∧ ∃ v, H[df]? = some ⟨v, none, some ⟨[r, ny], .add⟩⟩ ∧ Matrix v m w (fun i j => out i j + -exp i j)
  atAb : base ≤ ab ∧ ∃ v, H[ab]? = some ⟨v, none, some ⟨[df], .abs⟩⟩ ∧ v.shape = [m, w] ∧ WF v
  atL : base ≤ l ∧ ∃ v g, H[l]? = some ⟨v, some g, some ⟨[ab], .sum⟩⟩ ∧ v.shape = [] ∧ WF v
  atR : shapeOf H r = [m, w]
  atY : shapeOf H y = [m, w]

theorem tail_run {h : Heap ℝ} {m w r y : Nat} {rv yv : Raw ℝ} {out exp : Nat → Nat → ℝ} (hm : 0 < m) (hw : 0 < w)
    (hr : dataOf h r = some rv) (hrm : Matrix rv m w out) (hy : dataOf h y = some yv) (hym : Matrix yv m w exp) :
    ∃ ns l, (do
        let (h, diff) ← subT h r y
        let (h, dist) ← absT h diff
        sumT h dist) = .ok (h ++ ns, l) ∧ (∃ ops, runOps h ops = .ok (h ++ ns)) ∧
      ∃ ny df ab, ∀ base ≤ h.length, LossTail (h ++ ns) base m w r y l ny df ab out exp := by
  obtain ⟨rn, hrn, rfl⟩ := dataOf_eq.1 hr
  obtain ⟨yn, hyn, rfl⟩ := dataOf_eq.1 hy
  obtain ⟨rs, rw', re⟩ := hrm
  obtain ⟨ys, yw, ye⟩ := hym
  have pos : Pos [m, w] := by simp [Pos]; omega
  set nv : Raw ℝ := ⟨yn.val.array.map (fun v => -v), yn.val.shape⟩ with hnv
  have wn : WF nv := by simpa [WF, hnv] using yw
  set dv : Raw ℝ := ⟨List.zipWith (· + ·) rn.val.array nv.array, rn.val.shape⟩ with hdv
  have wd : WF dv := by
    simp only [WF, hdv, List.length_zipWith]
    rw [show nv.array.length = nv.shape.prod from wn, show rn.val.array.length = rn.val.shape.prod from rw', rs,
      show nv.shape = [m, w] from ys]
    simp
  set av : Raw ℝ := ⟨dv.array.map (fun v => |v|), dv.shape⟩ with hav
  have wa : WF av := by simpa [WF, hav] using wd
  set n1 : Node ℝ := ⟨nv, none, some ⟨[y], .neg⟩⟩ with hn1
  set n2 : Node ℝ := ⟨dv, none, some ⟨[r, h.length], .add⟩⟩ with hn2
  set n3 : Node ℝ := ⟨av, none, some ⟨[h.length + 1], .abs⟩⟩ with hn3
  set n4 : Node ℝ := leafNode (Raw.newWithFiller av.shape 1) with hn4
  set n5 : Node ℝ := ⟨⟨[av.array.foldl (· + ·) 0], []⟩, some (h.length + 3), some ⟨[h.length + 2], .sum⟩⟩ with hn5
  have e1 : subT h r y = .ok (h ++ [n1, n2], h.length + 1) := by
    have g1 : (h ++ [n1])[r]? = some rn := by rw [List.getElem?_append_left (getElem?_lt hrn)]; exact hrn
    have g2 : (h ++ [n1])[h.length]? = some n1 := by simp
    have g3 : addRaw (.raw rn.val) (.raw n1.val) = .ok dv :=
      addRaw_same rw' wn (rs.trans ys.symm) (rs ▸ pos)
    simp only [subT, negT, Heap.node_eq_ok.2 hyn, R.bind_ok, negRaw_raw yw, Heap.alloc, pure_bind, addT]
    rw [← hnv, ← hn1, Heap.node_eq_ok.2 g1, R.bind_ok, Heap.node_eq_ok.2 g2, R.bind_ok, g3]
    simp [hn2]
  have e2 : absT (h ++ [n1, n2]) (h.length + 1) = .ok (h ++ [n1, n2, n3], h.length + 2) := by
    have g1 : (h ++ [n1, n2])[h.length + 1]? = some n2 := by simp
    have g2 : absRaw (.raw n2.val) = .ok av := by
      have := genericUnaryOp_eq (x := .raw dv) wd (Or.inl ⟨_, rfl⟩) (fun v => |v|)
      rw [elems_raw wd] at this
      exact this
    simp [absT, Heap.node_eq_ok.2 g1, g2, Heap.alloc, hn3]
  have e3 : sumT (h ++ [n1, n2, n3]) (h.length + 2) = .ok (h ++ [n1, n2, n3, n4, n5], h.length + 4) := by
    have g1 : (h ++ [n1, n2, n3])[h.length + 2]? = some n3 := by simp
    have g2 : (TL.raw n3.val).sum = .ok ⟨[av.array.foldl (· + ·) 0], []⟩ := by
      have := C16_sum (.raw av) wa (Or.inl ⟨_, rfl⟩)
      rw [elems_raw wa] at this
      exact this
    simp [sumT, Heap.node_eq_ok.2 g1, g2, Heap.alloc, Heap.leaf, hn5, hn4, leafNode]
    rfl
  refine ⟨[n1, n2, n3, n4, n5], h.length + 4, by simp only [e1, R.bind_ok, e2, e3], ⟨[.sub r y, .abs (h.length + 1), .sum (h.length + 2)], ?_⟩,
    h.length, h.length + 1, h.length + 2, fun base hb => ⟨?_, ?_, ?_, ?_, ?_, ?_⟩⟩
  · simp only [runOps, List.foldlM_cons, List.foldlM_nil, Op.run, e1, R.bind_ok, pure_bind, e2, e3]
    rfl
  · exact ⟨hb, nv, by simp [hn1], ys, wn⟩
  · refine ⟨by omega, dv, by simp [hn2], rs, wd, fun i hi j hj => ?_⟩
    have h1 := re i hi j hj
    have h2 := ye i hi j hj
    simp only [Raw.elem?] at h1 h2 ⊢
    rw [ys] at h2
    rw [rs] at h1
    simp [hdv, hnv, List.getElem?_zipWith, rs, h1, h2]
  · exact ⟨by omega, av, by simp [hn3], rs, wa⟩
  · exact ⟨by omega, _, _, (by simp : _ = some n5), rfl, rfl⟩
  · rw [shapeOf_append hr, rs]
  · rw [shapeOf_append hy, ys]

/-- the value of the loss in a re-evaluation -/
theorem LossTail.value {H : Heap ℝ} {base m w r y l ny df ab : Nat} {out exp : Nat → Nat → ℝ} (ht : LossTail H base m w r y l ny df ab out exp)
    {p : Nat} (hp : p < base) {Y : List Nat → ℝ} {V : Nat → List Nat → ℝ} (hV : Reeval H l p Y V) :
    V l [] = ∑ i ∈ Finset.range m, ∑ j ∈ Finset.range w, |V r [i, j] - V y [i, j]| := by
  obtain ⟨b1, nv, e1, s1, _⟩ := ht.atNy
  obtain ⟨b2, dv, e2, m2⟩ := ht.atDf
  obtain ⟨b3, av, e3, s3, _⟩ := ht.atAb
  obtain ⟨b4, lv, g, e4, _⟩ := ht.atL
  have f3 : Feeds H ab l := Or.inr (isInput_of e4 rfl (by simp))
  have f2 : Feeds H df l := Or.inr (f3.input e3 rfl (by simp))
  have f1 : Feeds H ny l := Or.inr (f2.input e2 rfl (by simp))
  rw [hV.sum l ab (Or.inl rfl) (by omega) (historyOf_node e4), shapeOf_eq e3]
  simp only [s3]
  rw [sum_allIndices_mat]
  refine Finset.sum_congr rfl fun i hi => Finset.sum_congr rfl fun j hj => ?_
  rw [Finset.mem_range] at hi hj
  have inr : InRange [m, w] [i, j] := inRange2.2 ⟨hi, hj⟩
  rw [hV.abs ab df f3 (by omega) (historyOf_node e3) [i, j] (by rw [shapeOf_eq e3]; simp only [s3]; exact inr),
    hV.add df r ny f2 (by omega) (historyOf_node e2) [i, j] (by rw [shapeOf_eq e2]; simp only [m2.1]; exact inr), ht.atR, shapeOf_eq e1]
  simp only [s1]
  rw [bproj_of_inRange inr, hV.neg ny y f1 (by omega) (historyOf_node e1) [i, j] (by rw [shapeOf_eq e1]; simp only [s1]; exact inr), sub_eq_add_neg]

/-- the loss has a derivative -/
theorem LossTail.tree {S K : Prop} {π : Nat} {H : Heap ℝ} {base m w r y l ny df ab : Nat} {out exp : Nat → Nat → ℝ} (hm : 0 < m) (hw : 0 < w)
    (ht : LossTail H base m w r y l ny df ab out exp) (hr : CleanTree S K π H r) (hy : CleanTree S K π H y)
    (hne : K → ∀ i < m, ∀ j < w, out i j ≠ exp i j) : CleanTree S K π H ab := by
  obtain ⟨b1, nv, e1, s1, w1⟩ := ht.atNy
  obtain ⟨b2, dv, e2, m2⟩ := ht.atDf
  obtain ⟨b3, av, e3, s3, w3⟩ := ht.atAb
  have pos : Pos [m, w] := by simp [Pos]; omega
  have t1 : CleanTree S K π H ny := by
    refine CleanTree.step e1 rfl (CleanNode.mk' e1 ⟨w1, s1 ▸ pos⟩ (by simp) (by simp) (by simp)) ?_
    intro b hb
    simp only [List.mem_cons, List.not_mem_nil, or_false] at hb
    rw [hb]
    exact hy
  have t2 : CleanTree S K π H df := by
    refine CleanTree.step e2 rfl (CleanNode.mk' e2 ⟨m2.2.1, m2.1 ▸ pos⟩ (by simp) (by simp) (by simp)) ?_
    intro b hb
    simp only [List.mem_cons, List.not_mem_nil, or_false] at hb
    rcases hb with rfl | rfl
    · exact hr
    · exact t1
  refine CleanTree.step e3 rfl (CleanNode.mk' e3 ⟨w3, s3 ▸ pos⟩ (by simp) ?_ (by simp)) ?_
  · intro hK _ a v ha hv
    simp only [List.cons.injEq, and_true] at ha
    subst ha
    rw [dataOf_node e2] at hv
    cases hv
    refine matrix_zero m2 fun i hi j hj h0 => hne hK i hi j hj ?_
    rw [← sub_eq_add_neg] at h0
    exact sub_eq_zero.1 h0
  · intro b hb
    simp only [List.mem_cons, List.not_mem_nil, or_false] at hb
    rw [hb]
    exact t2

end RL
