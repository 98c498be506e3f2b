import Verif.Props.Graph2
import Verif.Model.Nn

/-!
# One SGD step
-/

namespace RL

open Spec

variable {T : Type}

/-! ### inversion -/

section
variable [Zero T] [Add T] [Mul T] [Neg T]

theorem sgdParam_inv {h h' : Heap T} {s p q : Nat} (e : sgdParam h s p = .ok (h', q)) :
    ∃ (pn gn sn : Node T) (g : Nat) (delta neg val : Raw T), h[p]? = some pn ∧ pn.grad = some g ∧ h[g]? = some gn ∧ h[s]? = some sn ∧
      mulRaw sn.val (.raw gn.val) = .ok delta ∧ negRaw (.raw delta) = .ok neg ∧ addRaw (.raw pn.val) (.raw neg) = .ok val ∧
      q = h.length + 2 ∧ h' = h ++ [leafNode delta, ⟨neg, none, some ⟨[h.length], .neg⟩⟩, ⟨val, none, some ⟨[p, h.length + 1], .add⟩⟩] := by
  simp only [sgdParam, gradT, R.bind_eq_ok, Heap.node_eq_ok, unwrapO_eq_ok, R.pure_eq_ok, Heap.leaf, Heap.alloc] at e
  obtain ⟨g, ⟨pn, hpn, hg⟩, gn, hgn, sn, hsn, delta, hd, ⟨h1, q1⟩, e1, h2, e2, e3⟩ := e
  simp only [Prod.mk.injEq] at e3
  obtain ⟨rfl, rfl⟩ := e3
  simp only [subT, R.bind_eq_ok] at e1
  obtain ⟨⟨h3, m⟩, e3, e4⟩ := e1
  have hpl := getElem?_lt hpn
  simp only [negT, R.bind_eq_ok, Heap.node_eq_ok, R.pure_eq_ok, Heap.alloc] at e3
  obtain ⟨dn, hdn, neg, hneg, e3⟩ := e3
  simp only [Prod.mk.injEq] at e3
  obtain ⟨rfl, rfl⟩ := e3
  simp at hdn
  subst hdn
  simp only [addT, R.bind_eq_ok, Heap.node_eq_ok, R.pure_eq_ok, Heap.alloc] at e4
  obtain ⟨pn', hpn', nn, hnn, val, hval, e4⟩ := e4
  simp only [Prod.mk.injEq] at e4
  obtain ⟨rfl, rfl⟩ := e4
  rw [List.getElem?_append_left (by simp; omega), List.getElem?_append_left hpl, hpn] at hpn'
  cases hpn'
  simp at hnn
  subst hnn
  refine ⟨pn, gn, sn, g, delta, neg, val, hpn, hg, hgn, hsn, hd, hneg, hval, by simp, ?_⟩
  simp only [zeroGrad, R.bind_eq_ok, Heap.node_eq_ok, R.pure_eq_ok] at e2
  obtain ⟨zn, hzn, e2⟩ := e2
  have hz : zn = ⟨val, none, some ⟨[p, h.length + 1], .add⟩⟩ := by
    simp at hzn
    rw [← hzn]
  subst hz
  rw [← e2]
  simp

theorem sgdParam_mk {h : Heap T} {s p g : Nat} {pn gn sn : Node T} {delta neg val : Raw T} (hpn : h[p]? = some pn)
    (hg : pn.grad = some g) (hgn : h[g]? = some gn) (hsn : h[s]? = some sn) (hd : mulRaw sn.val (.raw gn.val) = .ok delta)
    (hneg : negRaw (.raw delta) = .ok neg) (hval : addRaw (.raw pn.val) (.raw neg) = .ok val) :
    sgdParam h s p = .ok (h ++ [leafNode delta, ⟨neg, none, some ⟨[h.length], .neg⟩⟩, ⟨val, none, some ⟨[p, h.length + 1], .add⟩⟩],
      h.length + 2) := by
  have hpl := getElem?_lt hpn
  have e1 : subT (h ++ [leafNode delta]) p h.length = .ok
      (h ++ [leafNode delta, ⟨neg, none, some ⟨[h.length], .neg⟩⟩, ⟨val, none, some ⟨[p, h.length + 1], .add⟩⟩], h.length + 2) := by
    have n1 : (h ++ [leafNode delta])[h.length]? = some (leafNode delta) := by simp
    have n2 : (h ++ [leafNode delta, ⟨neg, none, some ⟨[h.length], .neg⟩⟩])[p]? = some pn := by
      rw [List.getElem?_append_left hpl]; exact hpn
    have n3 : (h ++ [leafNode delta, ⟨neg, none, some ⟨[h.length], .neg⟩⟩])[h.length + 1]? =
        some ⟨neg, none, some ⟨[h.length], .neg⟩⟩ := by simp
    have hneg' : negRaw (.raw (leafNode delta).val) = .ok neg := hneg
    simp only [subT, negT, Heap.node_eq_ok.2 n1, R.bind_ok, hneg', Heap.alloc, List.append_assoc, List.cons_append, List.nil_append,
      addT, pure_bind, Heap.node_eq_ok.2 n2, List.length_append, List.length_cons, List.length_nil, Nat.zero_add,
      Heap.node_eq_ok.2 n3, hval]
    rfl
  have n4 : (h ++ [leafNode delta, ⟨neg, none, some ⟨[h.length], .neg⟩⟩, ⟨val, none, some ⟨[p, h.length + 1], .add⟩⟩])[h.length + 2]? =
      some ⟨val, none, some ⟨[p, h.length + 1], .add⟩⟩ := by simp
  simp only [sgdParam, gradT, Heap.node_eq_ok.2 hpn, R.bind_ok, hg, unwrapO, Heap.node_eq_ok.2 hgn, Heap.node_eq_ok.2 hsn, hd, Heap.leaf,
    Heap.alloc, e1, zeroGrad, Heap.node_eq_ok.2 n4]
  simp

theorem sgdParams_cons (h : Heap T) (s p : Nat) (ps : List Nat) : sgdParams h s (p :: ps) = (do
    let (h, q) ← sgdParam h s p
    let (h, qs) ← sgdParams h s ps
    return (h, q :: qs)) := by
  have key : ∀ (ps : List Nat) (h : Heap T) (acc : List Nat),
      ps.foldlM (init := (h, acc)) (fun (h, new) p => do
        let (h, q) ← sgdParam h s p
        return (h, new ++ [q])) = (do
        let (h, qs) ← sgdParams h s ps
        return (h, acc ++ qs) : R (Heap T × List Nat)) := by
    intro ps
    induction ps with
    | nil => intro h acc; simp [sgdParams]
    | cons p ps ih =>
      intro h acc
      simp only [sgdParams, List.foldlM_cons, bind_assoc, pure_bind]
      cases hq : sgdParam h s p with
      | error e => simp
      | ok r =>
        obtain ⟨h1, q⟩ := r
        simp only [R.bind_ok]
        rw [ih, ih]
        cases hr : sgdParams h1 s ps with
        | error e => simp
        | ok r => simp
  conv_lhs => unfold sgdParams
  simp only [List.foldlM_cons, bind_assoc, pure_bind]
  cases hq : sgdParam h s p with
  | error e => simp
  | ok r =>
    obtain ⟨h1, q⟩ := r
    simp only [R.bind_ok]
    rw [key]
    simp

/-- Every new parameter has the old one as its first input. -/
theorem sgdParams_inv {s : Nat} : ∀ {ps : List Nat} {h h' : Heap T} {qs : List Nat}, sgdParams h s ps = .ok (h', qs) →
    (∃ ns, h' = h ++ ns) ∧ List.Forall₂ (fun p q => h.length ≤ q ∧ ∃ v m, h'[q]? = some ⟨v, none, some ⟨[p, m], .add⟩⟩) ps qs := by
  intro ps
  induction ps with
  | nil =>
    intro h h' qs e
    cases e
    exact ⟨⟨[], by simp⟩, .nil⟩
  | cons p ps ih =>
    intro h h' qs e
    rw [sgdParams_cons, R.bind_eq_ok] at e
    obtain ⟨⟨h1, q⟩, e1, e⟩ := e
    simp only [R.bind_eq_ok] at e
    obtain ⟨⟨h2, qs'⟩, e2, e3⟩ := e
    rw [R.pure_eq_ok] at e3
    cases e3
    obtain ⟨pn, gn, sn, g, delta, neg, val, -, -, -, -, -, -, -, rfl, rfl⟩ := sgdParam_inv e1
    obtain ⟨⟨ns, rfl⟩, h4⟩ := ih e2
    refine ⟨⟨_, List.append_assoc _ _ _⟩, .cons ⟨by omega, val, h.length + 1, ?_⟩ (h4.imp ?_)⟩
    · rw [List.getElem?_append_left (by simp)]
      simp
    · rintro a b ⟨h5, h6⟩
      exact ⟨by simp at h5; omega, h6⟩

end

/-! ### it is a history of public operations -/

section
variable [Zero T] [One T] [Add T] [Mul T] [Sub T] [Neg T] [LT T] [DecidableLT T] [LE T] [DecidableLE T] [RealFn T]

theorem sgdParam_runOps {h h' : Heap T} {s p q : Nat} (e : sgdParam h s p = .ok (h', q)) : ∃ ops, runOps h ops = .ok h' := by
  have e0 := e
  simp only [sgdParam, gradT, R.bind_eq_ok, Heap.node_eq_ok, unwrapO_eq_ok, R.pure_eq_ok] at e
  obtain ⟨g, ⟨pn, hpn, hg⟩, gn, hgn, sn, hsn, delta, hd, ⟨h1, q1⟩, e1, h2, e2, e3⟩ := e
  simp only [Prod.mk.injEq] at e3
  obtain ⟨rfl, rfl⟩ := e3
  refine ⟨[.mul s g, .sub p h.length, .zeroGrad q1], ?_⟩
  have m1 : mulT h s g = .ok (h.leaf delta) := by
    simp only [mulT, Heap.node_eq_ok.2 hsn, Heap.node_eq_ok.2 hgn, R.bind_ok, hd]
    rfl
  have e1' : subT (h.leaf delta).1 p h.length = .ok (h1, q1) := e1
  simp only [runOps, List.foldlM_cons, List.foldlM_nil, Op.run, m1, R.bind_ok, pure_bind, e1', e2]
  rfl

theorem sgdParams_runOps {s : Nat} : ∀ {ps : List Nat} {h h' : Heap T} {qs : List Nat}, sgdParams h s ps = .ok (h', qs) →
    ∃ ops, runOps h ops = .ok h' := by
  intro ps
  induction ps with
  | nil => intro h h' qs e; cases e; exact ⟨[], rfl⟩
  | cons p ps ih =>
    intro h h' qs e
    rw [sgdParams_cons, R.bind_eq_ok] at e
    obtain ⟨⟨h1, q⟩, e1, e⟩ := e
    simp only [R.bind_eq_ok] at e
    obtain ⟨⟨h2, qs'⟩, e2, e3⟩ := e
    rw [R.pure_eq_ok] at e3
    cases e3
    obtain ⟨o1, f1⟩ := sgdParam_runOps e1
    obtain ⟨o2, f2⟩ := ih e2
    exact ⟨o1 ++ o2, by rw [runOps_append, f1]; exact f2⟩

end

end RL
