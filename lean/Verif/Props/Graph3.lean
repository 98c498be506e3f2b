import Verif.Props.Graph2

/-!
# Gradient of `dot`, and one update per path (C41, C43)
-/

namespace RL

open Spec

variable {T : Type}

attribute [local instance] Test.intFn

/-! ## dot (C41) -/

/-- C41, second half of the full statement: the sum of a dot product of leaves is a loss. It is false: see `C41_false`. -/
def C41_statement (T : Type) [Zero T] [One T] [Add T] [Mul T] [Sub T] [Neg T] [LT T] [DecidableLT T] [LE T] [DecidableLE T]
    [RealFn T] : Prop :=
  ∀ (h h' : Heap T) (l r : Nat), Reachable h → historyOf h l = some none → historyOf h r = some none →
    runOps h [.dot l r, .sum h.length] = .ok h' → ∃ h'', backward h' (h.length + 2) = .ok h''

/-- C41 does not hold: already `sum` of a dot product rejects `backward`. -/
theorem C41_false : ¬ C41_statement Int := by
  intro hs
  have hr : Reachable ([⟨⟨[3, 4], [2]⟩, none, none⟩] : Heap Int) := ⟨[.new [3, 4] [2]], by decide⟩
  obtain ⟨h'', e⟩ := hs _ _ 0 0 hr rfl rfl rfl
  have : ∀ h : Heap Int, runOps [⟨⟨[3, 4], [2]⟩, none, none⟩] [.dot 0 0, .sum 1] = .ok h →
      backward h 3 = .error (.panic .assert) := by
    intro h hh
    cases hh
    rfl
  have e' := (this _ rfl).symm.trans e
  cases e'

theorem elementWiseMul_panics [Mul T] {l r : Raw T} (hs : l.shape ≠ r.shape) : Panics (elementWiseMul (.raw l) (.raw r)) := by
  refine ⟨.assert, ?_, by simp⟩
  have : (TL.raw l).sameShape (TL.raw r) = false := by simpa [TL.sameShape] using hs
  simp [elementWiseMul, this, R.panic]

/-- C41, why: below another operation the gradient function of `dot` gets a 1x1 matrix as upstream gradient, and panics on it unless
the operands are 1x1 matrices or scalars. -/
theorem C41_rejects [Zero T] [Add T] [Mul T] (a b g : Raw T) (hs : a.shape = b.shape) (ha : a.shape ≠ [1, 1]) (ha' : a.shape ≠ [])
    (hg : g.shape = [1, 1]) : Panics (dotJvp [a, b] [g]) := by
  obtain ⟨p, hp, hp'⟩ := elementWiseMul_panics (l := g) (r := b) (by rw [hg, ← hs]; exact Ne.symm ha)
  refine ⟨p, ?_, hp'⟩
  have hb : b.shape ≠ [] := hs ▸ ha'
  simp [dotJvp, idxR, jvpFromFullJacobians, hg, mulRaw, hp, hb]

section
variable [Zero T] [Add T] [MulOneClass T] [Sub T] [Neg T] [LT T] [DecidableLT T] [LE T] [DecidableLE T] [RealFn T]

theorem dotJvp_root {a b : Raw T} : dotJvp [a, b] [Raw.scalar 1] = .ok [b, a] := by
  have key : ∀ x : Raw T, jvpFromFullJacobians (Raw.scalar 1) x = .ok x := by
    intro x
    simp [jvpFromFullJacobians, Raw.isScalar, Raw.scalar, mulRaw, idxR, TL.leftScalarMul, TL.tensor, TL.shape]
  simp [dotJvp, idxR, key]

/-- C41, first half: `backward` on the dot product of two leaves adds each operand to the gradient of the other (twice the tensor for
the dot product with itself) and changes no other gradient. Missing: operands with a history of their own, and `dot` inside a larger
loss, for which the full statement is false (`C41_false`). -/
theorem C41_partial (h : Heap T) (hr : Reachable h) (d l r : Nat) (a b : Raw T) (hd : historyOf h d = some (some ⟨[l, r], .dot⟩))
    (ha : dataOf h l = some a) (hb : dataOf h r = some b) (wa : WF a) (wb : WF b) (pos : Pos a.shape)
    (hl : historyOf h l = some none) (hr' : historyOf h r = some none)
    (fl : ∀ g, gradOf h l = some g → g.shape = a.shape ∧ WF g) (fr : ∀ g, gradOf h r = some g → g.shape = b.shape ∧ WF g) :
    ∃ h', backward h d = .ok h' ∧
      (l ≠ r → gradOf h' l = addGrad (gradOf h l) (some b) ∧ gradOf h' r = addGrad (gradOf h r) (some a)) ∧
      (l = r → gradOf h' l = addGrad (addGrad (gradOf h l) (some a)) (some a)) ∧
      ∀ t, t < h.length → t ≠ l → t ≠ r → gradOf h' t = gradOf h t := by
  obtain ⟨n, hn, hgf⟩ := historyOf_eq.1 hd
  obtain ⟨ln, hln, rfl⟩ := dataOf_eq.1 ha
  obtain ⟨rn, hrn, rfl⟩ := dataOf_eq.1 hb
  obtain ⟨ln', hln', hlf⟩ := historyOf_eq.1 hl
  obtain ⟨rn', hrn', hrf⟩ := historyOf_eq.1 hr'
  rw [hln] at hln'
  cases hln'
  rw [hrn] at hrn'
  cases hrn'
  obtain ⟨vs, hvs, hfw⟩ := (hr.good d n hn).explained _ hgf
  have hvs0 : h.vals [l, r] = .ok [ln.val, rn.val] := by
    simp [Heap.vals_cons, Heap.vals_nil, Heap.node_eq_ok.2 hln, Heap.node_eq_ok.2 hrn]
  rw [hvs0] at hvs
  cases hvs
  have hf' : dotRaw (.raw ln.val) (.raw rn.val) = .ok n.val := hfw
  have hss : ln.val.shape = rn.val.shape := by
    by_contra hne
    have : (TL.raw ln.val).sameShape (TL.raw rn.val) = false := by simpa [TL.sameShape] using hne
    simp [dotRaw, this, R.panic] at hf'
  have hone : n.val.array.length = 1 := by
    rw [dotRaw_raw wa wb hss] at hf'
    rw [← Except.ok.inj hf']
    rfl
  have hlenlr : ln.val.array.length = rn.val.array.length := by rw [wa, wb, hss]
  have eL : (⟨ln.val.array, rn.val.shape⟩ : Raw T) = ln.val := by rw [← hss]
  have eR : (⟨rn.val.array, ln.val.shape⟩ : Raw T) = rn.val := by rw [hss]
  have hus : jvpUpdates (h.length + 1) h ⟨[l, r], .dot⟩ [Raw.scalar 1] = .ok [(l, rn.val), (r, ln.val)] := by
    unfold jvpUpdates
    simp only [hvs0, R.bind_ok, applyJvp, dotJvp_root, List.zip_cons_cons, List.zip_nil_right, List.mapM_cons, List.mapM_nil,
      Heap.node_eq_ok.2 hln, Heap.node_eq_ok.2 hrn, hlenlr, beq_self_eq_true, assertR_true, hlf, hrf,
      Raw.new_ok (show rn.val.array.length = ln.val.shape.prod by rw [hss]; exact wb),
      Raw.new_ok (show ln.val.array.length = rn.val.shape.prod by rw [← hss]; exact wa), eL, eR]
    rfl
  have hwa' : rn.val.shape = ln.val.shape := hss.symm
  obtain ⟨h', e'⟩ := applyUpdates_ok (us := [(l, rn.val), (r, ln.val)]) hr.good (by
    intro u hu
    simp at hu
    rcases hu with rfl | rfl
    · exact ⟨ln, hln, hwa', wb, pos⟩
    · exact ⟨rn, hrn, hss, wa, hss ▸ pos⟩) (by
    intro u hu
    refine GradFits.takes fun m p hm hp => ?_
    simp at hu
    rcases hu with rfl | rfl
    · simp only at hm
      rw [hln] at hm
      cases hm
      exact fl p hp
    · simp only at hm
      rw [hrn] at hm
      cases hm
      exact fr p hp)
  have hb' : backward h d = .ok h' := by
    simp only [backward, Heap.node_eq_ok.2 hn, R.bind_ok, hgf, unwrapO, hone]
    exact (computeJvp_ok (Frame.refl h) (fun i hi => ((hr.good d n hn).older _ hgf i hi).trans (getElem?_lt hn)) hr.good).2
      ⟨_, hus, e'⟩
  -- one step of accumulation
  have step : ∀ (o : Option (Raw T)) (c : Raw T), WF c → Pos c.shape → (∀ g, o = some g → g.shape = c.shape ∧ WF g) →
      gradAccumStep o c = .ok (addGrad o (some c)) ∧ ∀ g, addGrad o (some c) = some g → g.shape = c.shape ∧ WF g := by
    intro o c wc pc ho
    cases o with
    | none =>
      refine ⟨rfl, ?_⟩
      rintro g ⟨⟩
      exact ⟨rfl, wc⟩
    | some p =>
      obtain ⟨h1, h2⟩ := ho p rfl
      constructor
      · simp only [gradAccumStep]
        rw [addRaw_same h2 wc h1 (h1 ▸ pc)]
        rfl
      · rintro g ⟨⟩
        exact ⟨h1, zipWith_wf h2 (by rw [h1]; exact wc)⟩
  have acc := fun t (ht : t < h.length) => applyUpdates_grad hr.good ht e'
  refine ⟨h', hb', ?_, ?_, ?_⟩
  · intro hne
    constructor
    · have := acc l (getElem?_lt hln)
      have hc : gradContribs [(l, rn.val), (r, ln.val)] l = [rn.val] := by simp [gradContribs, Ne.symm hne]
      rw [hc, gradAccum_cons, (step _ _ wb (hss ▸ pos) (by rw [← hss]; exact fl)).1] at this
      exact (Except.ok.inj this).symm
    · have := acc r (getElem?_lt hrn)
      have hc : gradContribs [(l, rn.val), (r, ln.val)] r = [ln.val] := by simp [gradContribs, hne]
      rw [hc, gradAccum_cons, (step _ _ wa pos (by rw [hss]; exact fr)).1] at this
      exact (Except.ok.inj this).symm
  · rintro rfl
    rw [hln] at hrn
    cases hrn
    have := acc l (getElem?_lt hln)
    have hc : gradContribs [(l, ln.val), (l, ln.val)] l = [ln.val, ln.val] := by simp [gradContribs]
    obtain ⟨s1, s2⟩ := step (gradOf h l) ln.val wa pos fl
    rw [hc, gradAccum_cons, s1, R.bind_ok, gradAccum_cons, (step _ _ wa pos s2).1] at this
    exact (Except.ok.inj this).symm
  · intro t ht htl htr
    have := acc t ht
    have hc : gradContribs [(l, rn.val), (r, ln.val)] t = [] := by simp [gradContribs, Ne.symm htl, Ne.symm htr]
    rw [hc] at this
    exact (Except.ok.inj this).symm

end

/-- C41, test: with a gradient from before on one operand. -/
example : ∃ h h' : Heap Int, runOps [] [.new [3, 4] [2], .new [5, 6] [2], .new [10, 20] [2], .updateGrad 0 2, .dot 0 1] = .ok h ∧
    historyOf h 3 = some (some ⟨[0, 1], .dot⟩) ∧ backward h 3 = .ok h' ∧
    gradOf h' 0 = some ⟨[15, 26], [2]⟩ ∧ gradOf h' 1 = some ⟨[3, 4], [2]⟩ := ⟨_, _, rfl, rfl, rfl, rfl, rfl⟩

/-! ## one update per path (C43) -/

section
variable [Zero T] [One T] [Add T] [Mul T] [Sub T] [Neg T] [LT T] [DecidableLT T] [LE T] [DecidableLE T] [RealFn T]

/-- C43: `backward` performs exactly one update of `t` for every path from the loss to `t`, and nothing else; every update creates at
least one tensor. -/
theorem C43_paths (h h' : Heap T) (l : Nat) (hr : Reachable h) (e : backward h l = .ok h') :
    ∃ (us : List (Nat × Raw T)) (ps : List (Nat × List Nat)), performUpdates h us = .ok h' ∧ us.map Prod.fst = ps.map Prod.fst ∧
      ps.Nodup ∧ (∀ t p, (t, p) ∈ ps ↔ Path h l t p) ∧ h.length + us.length ≤ h'.length := by
  obtain ⟨us, ps, h1, h2, h3, h4⟩ := backward_updates hr.good e
  exact ⟨us, ps, h1, h2, h3, h4, applyUpdates_length h1⟩

/-- `x`, `x + x`, `(x + x) + (x + x)`, ... -/
def Spec.doublings (x : T) (n : Nat) : List (Op T) := .scalar x :: (List.range n).map fun i => .add i i

/-- the heap they build -/
def doublingsHeap (x : T) : Nat → Heap T × T
  | 0 => ([leafNode (Raw.scalar x)], x)
  | n + 1 => let p := doublingsHeap x n
    (p.1 ++ [⟨Raw.scalar (p.2 + p.2), none, some ⟨[n, n], .add⟩⟩], p.2 + p.2)

theorem doublingsHeap_length (x : T) (n : Nat) : (doublingsHeap x n).1.length = n + 1 := by
  induction n with
  | zero => rfl
  | succ n ih => simp [doublingsHeap, ih]

theorem doublingsHeap_last (x : T) (n : Nat) : ∃ nd, (doublingsHeap x n).1[n]? = some nd ∧ nd.val = Raw.scalar (doublingsHeap x n).2 := by
  cases n with
  | zero => exact ⟨_, rfl, rfl⟩
  | succ n => exact ⟨_, by simp only [doublingsHeap]; rw [List.getElem?_append_right (by rw [doublingsHeap_length]),
      doublingsHeap_length, Nat.sub_self]; rfl, rfl⟩

theorem addRaw_scalar (a b : T) : addRaw (.raw (Raw.scalar a)) (.raw (Raw.scalar b)) = .ok (Raw.scalar (a + b)) :=
  addRaw_same (l := Raw.scalar a) (r := Raw.scalar b) rfl rfl rfl (by simp [Pos, Raw.scalar])

theorem runOps_doublings (x : T) (n : Nat) : runOps [] (doublings x n) = .ok (doublingsHeap x n).1 := by
  induction n with
  | zero => rfl
  | succ n ih =>
    have hs : doublings x (n + 1) = doublings x n ++ [.add n n] := by simp [doublings, List.range_succ]
    have hap : ∀ (a b : List (Op T)) (h : Heap T), runOps h (a ++ b) = runOps h a >>= fun h => runOps h b := by
      intro a b h
      simp [runOps]
    obtain ⟨nd, h1, h2⟩ := doublingsHeap_last x n
    rw [hs, hap, ih, R.bind_ok]
    simp [runOps, Op.run, addT, Heap.node_eq_ok.2 h1, h2, addRaw_scalar, Heap.alloc, doublingsHeap]

theorem doublingsHeap_get (x : T) {n i : Nat} (hi : i ≤ n) : ∃ v, (doublingsHeap x n).1[i]? =
    some ⟨Raw.scalar v, none, if i = 0 then none else some ⟨[i - 1, i - 1], .add⟩⟩ := by
  induction n with
  | zero =>
    have : i = 0 := by omega
    subst this
    exact ⟨x, rfl⟩
  | succ n ih =>
    simp only [doublingsHeap]
    rcases Nat.lt_or_ge i (n + 1) with h | h
    · obtain ⟨v, hv⟩ := ih (by omega)
      exact ⟨v, by rw [List.getElem?_append_left (by rw [doublingsHeap_length]; exact h)]; exact hv⟩
    · have : i = n + 1 := by omega
      subst this
      exact ⟨_, by rw [List.getElem?_append_right (by rw [doublingsHeap_length]), doublingsHeap_length, Nat.sub_self]; rfl⟩

theorem doublings_paths (x : T) (n : Nat) : ∀ fuel i, 0 < i → i ≤ n → i ≤ fuel →
    (pathsOf fuel (doublingsHeap x n).1 ⟨[i - 1, i - 1], .add⟩).length + 2 = 2 ^ (i + 1) ∧
    ((pathsOf fuel (doublingsHeap x n).1 ⟨[i - 1, i - 1], .add⟩).map Prod.fst).count 0 = 2 ^ i := by
  intro fuel
  induction fuel with
  | zero => intro i h0 _ h1; omega
  | succ fuel ih =>
    intro i h0 hn hf
    obtain ⟨v, hv⟩ := doublingsHeap_get x (show i - 1 ≤ n by omega)
    have hb : (doublingsHeap x n).1[i - 1]?.bind (·.gradFn) = if i - 1 = 0 then none else some ⟨[i - 1 - 1, i - 1 - 1], .add⟩ := by
      rw [hv]; rfl
    rcases Nat.eq_or_lt_of_le (show 1 ≤ i from h0) with h1 | h1
    · subst h1
      simp only [pathsOf, List.zipIdx_cons, List.zipIdx_nil, List.flatMap_cons, List.flatMap_nil, hb, if_true]
      simp
    · have hne : ¬ i - 1 = 0 := by omega
      obtain ⟨l1, l2⟩ := ih (i - 1) (by omega) (by omega) (by omega)
      simp only [pathsOf, List.zipIdx_cons, List.zipIdx_nil, List.flatMap_cons, List.flatMap_nil, hb, if_neg hne]
      have hm : ∀ k, ((pathsOf fuel (doublingsHeap x n).1 ⟨[i - 1 - 1, i - 1 - 1], .add⟩).map (fun (t, p) => (t, k :: p))).map Prod.fst =
          (pathsOf fuel (doublingsHeap x n).1 ⟨[i - 1 - 1, i - 1 - 1], .add⟩).map Prod.fst := by
        intro k
        rw [List.map_map]
        rfl
      simp only [List.length_append, List.length_cons, List.length_map, List.length_nil, List.map_append, List.map_cons, List.map_nil,
        List.count_append, List.count_cons, List.count_nil, hm]
      have e1 : i - 1 + 1 = i := by omega
      rw [e1] at l1
      have e2 : 2 ^ i = 2 * 2 ^ (i - 1) := by rw [← pow_succ', e1]
      have e3 : 2 ^ (i + 1) = 2 * 2 ^ i := pow_succ' ..
      have e4 : (i - 1 == 0) = false := by simpa using hne
      rw [l2, e4]
      simp
      omega

/-- C43: on the `n`-fold repeated doubling of a scalar - a graph of `n + 1` tensors - `backward` succeeds and performs
`2^(n+1) - 2` updates, `2^n` of them on `x`, and creates at least as many tensors. -/
theorem C43_doubling (x : T) (n : Nat) (hn : 0 < n) : ∃ (h h' : Heap T) (us : List (Nat × Raw T)), runOps [] (doublings x n) = .ok h ∧
    h.length = n + 1 ∧ backward h n = .ok h' ∧ performUpdates h us = .ok h' ∧ us.length + 2 = 2 ^ (n + 1) ∧
    (us.map Prod.fst).count 0 = 2 ^ n ∧ h.length + us.length ≤ h'.length := by
  set h := (doublingsHeap x n).1 with hh
  have hr : Reachable h := ⟨_, runOps_doublings x n⟩
  have hlen : h.length = n + 1 := doublingsHeap_length x n
  obtain ⟨v, hv⟩ := doublingsHeap_get x (Nat.le_refl n)
  rw [← hh, if_neg (show ¬ n = 0 by omega)] at hv
  have hget : ∀ (i : Nat) (m : Node T), h[i]? = some m → ∃ v : T, m = ⟨Raw.scalar v, none, if i = 0 then none else some ⟨[i - 1, i - 1], .add⟩⟩ := by
    intro i m hm
    have := getElem?_lt hm
    obtain ⟨w, hw⟩ := doublingsHeap_get x (show i ≤ n by omega)
    rw [← hh, hm] at hw
    exact ⟨w, Option.some.inj hw⟩
  have hkind : ∀ i e, historyOf h i = some (some e) → e.kind = .add := by
    intro i e he
    obtain ⟨m, hm, hm'⟩ := historyOf_eq.1 he
    obtain ⟨w, rfl⟩ := hget i m hm
    simp only at hm'
    split at hm'
    · cases hm'
    · cases hm'; rfl
  obtain ⟨h', e⟩ := C39_partial h hr n (Raw.scalar v) ⟨[n - 1, n - 1], .add⟩ (dataOf_eq.2 ⟨_, hv, rfl⟩) rfl
    (historyOf_eq.2 ⟨_, hv, rfl⟩) (by simp) (fun m e _ he => by rw [hkind m e he]; simp) (by
    intro a w _ hw
    obtain ⟨m, hm, rfl⟩ := dataOf_eq.1 hw
    obtain ⟨w, rfl⟩ := hget a m hm
    refine ⟨rfl, by simp [Pos, Raw.scalar], fun g hg => ?_⟩
    rw [gradOf_none hm rfl] at hg
    cases hg)
  obtain ⟨n', d, us, hn', _, hd, u1, u2⟩ := backward_inv hr.good e
  rw [hv] at hn'
  cases hn'
  cases hd
  have hp := jvpUpdates_paths hr.good hv rfl u1
  obtain ⟨c1, c2⟩ := doublings_paths x n (h.length + 1) n hn (Nat.le_refl n) (by omega)
  refine ⟨h, h', us, runOps_doublings x n, hlen, e, u2, ?_, ?_, applyUpdates_length u2⟩
  · rw [← c1]
    have := congrArg List.length hp
    simp only [List.length_map] at this
    rw [this]
  · rw [hp, c2]

end

/-- C43, test: three doublings, `8` is the number of paths and the derivative. -/
example : ∃ h h' : Heap Int, runOps [] (doublings 5 3) = .ok h ∧ backward h 3 = .ok h' ∧ gradOf h' 0 = some ⟨[8], []⟩ := ⟨_, _, rfl, rfl, rfl⟩

end RL
