import Verif.Model.Memory
import Verif.Lemmas.WfOps

/-!
# Operations that only mention newer tensors leave older ones alone
-/

namespace RL

open Spec

variable {T : Type}

/-- Tensors from `c` on refer only to tensors from `c` on. -/
def Closed (c : Nat) (h : Heap T) : Prop := c ≤ h.length ∧ ∀ (i : Nat) (n : Node T), h[i]? = some n → c ≤ i →
  (∀ g, n.grad = some g → c ≤ g) ∧ ∀ d, n.gradFn = some d → ∀ j ∈ d.inputs, c ≤ j

theorem Closed.append {c : Nat} {h : Heap T} (hc : Closed c h) {n : Node T} (h1 : ∀ g, n.grad = some g → c ≤ g)
    (h2 : ∀ d, n.gradFn = some d → ∀ j ∈ d.inputs, c ≤ j) : Closed c (h ++ [n]) := by
  refine ⟨by simp; have := hc.1; omega, fun i m hm hi => ?_⟩
  rcases Nat.lt_trichotomy i h.length with h' | h' | h'
  · rw [List.getElem?_append_left h'] at hm
    exact hc.2 i m hm hi
  · subst h'
    simp at hm
    subst hm
    exact ⟨h1, h2⟩
  · have : (h ++ [n])[i]? = none := List.getElem?_eq_none (by simp; omega)
    rw [this] at hm
    cases hm

theorem Closed.leaf {c : Nat} {h : Heap T} (hc : Closed c h) (v : Raw T) : Closed c (h ++ [leafNode v]) :=
  hc.append (by simp [leafNode]) (by simp [leafNode])

theorem Closed.set {c : Nat} {h : Heap T} (hc : Closed c h) {t : Nat} {n : Node T} (hn : h[t]? = some n) {g : Option Nat}
    (hg : ∀ g', g = some g' → c ≤ g') : Closed c (h.set t { n with grad := g }) := by
  refine ⟨by simpa using hc.1, fun i m hm hi => ?_⟩
  by_cases ht : t = i
  · subst ht
    rw [List.getElem?_set_self (getElem?_lt hn)] at hm
    cases hm
    exact ⟨hg, (hc.2 t n hn hi).2⟩
  · rw [List.getElem?_set_ne ht] at hm
    exact hc.2 i m hm hi

theorem getElem?_append_lt {h : Heap T} {c i : Nat} (hc : c ≤ h.length) (hi : i < c) (n : Node T) : (h ++ [n])[i]? = h[i]? :=
  List.getElem?_append_left (by omega)

section
variable [Zero T] [One T] [Add T] [Mul T] [Sub T] [Neg T] [LT T] [DecidableLT T] [LE T] [DecidableLE T] [RealFn T]

/-- closedness is kept and nothing older than `c` changed -/
def Keeps (c : Nat) (h h' : Heap T) : Prop := Closed c h' ∧ ∀ i, i < c → h'[i]? = h[i]?

theorem Keeps.refl {c : Nat} {h : Heap T} (hc : Closed c h) : Keeps c h h := ⟨hc, fun _ _ => rfl⟩

theorem Keeps.trans {c : Nat} {h h1 h2 : Heap T} (a : Keeps c h h1) (b : Keeps c h1 h2) : Keeps c h h2 :=
  ⟨b.1, fun i hi => (b.2 i hi).trans (a.2 i hi)⟩

theorem Keeps.node {c : Nat} {h : Heap T} (hc : Closed c h) {n : Node T} (h1 : ∀ g, n.grad = some g → c ≤ g)
    (h2 : ∀ d, n.gradFn = some d → ∀ j ∈ d.inputs, c ≤ j) : Keeps c h (h ++ [n]) :=
  ⟨hc.append h1 h2, fun _ hi => getElem?_append_lt hc.1 hi n⟩

theorem Keeps.leaf {c : Nat} {h : Heap T} (hc : Closed c h) (v : Raw T) : Keeps c h (h.leaf v).1 :=
  Keeps.node hc (by simp [leafNode]) (by simp [leafNode])

theorem addT_keeps {c : Nat} {h h' : Heap T} {l r id : Nat} (hc : Closed c h) (hl : c ≤ l) (hr : c ≤ r)
    (e : addT h l r = .ok (h', id)) : Keeps c h h' ∧ id = h.length := by
  obtain ⟨ln, rn, v, _, _, hv, rfl, hid⟩ := addT_inv e
  refine ⟨Keeps.node hc (by simp) ?_, hid⟩
  rintro d ⟨⟩ j hj
  simp at hj
  omega

theorem updateGrad_keeps {c : Nat} {h h' : Heap T} {t g : Nat} (hc : Closed c h) (ht : c ≤ t) (hg : c ≤ g)
    (e : updateGrad h t g = .ok h') : Keeps c h h' := by
  obtain ⟨n, hn, ⟨_, rfl⟩ | ⟨o, on, gn, v, hgr, ho, hgn, hv, rfl⟩⟩ := updateGrad_inv e
  · exact ⟨hc.set hn (by rintro g' ⟨⟩; exact hg), fun i hi => List.getElem?_set_ne (by omega)⟩
  · have hn' : (h ++ [(⟨v, none, some ⟨[o, g], .add⟩⟩ : Node T)])[t]? = some n := by
      rw [List.getElem?_append_left (getElem?_lt hn), hn]
    have hoc := (hc.2 t n hn ht).1 o hgr
    have k1 : Keeps c h (h ++ [(⟨v, none, some ⟨[o, g], .add⟩⟩ : Node T)]) := by
      refine Keeps.node hc (by simp) ?_
      rintro d ⟨⟩ j hj
      simp at hj
      omega
    refine k1.trans ⟨k1.1.set hn' ?_, fun i hi => List.getElem?_set_ne (by omega)⟩
    rintro g' ⟨⟩
    exact hc.1

theorem applyUpdates_keeps {c : Nat} {us : List (Nat × Raw T)} : ∀ {h h' : Heap T}, Closed c h → (∀ u ∈ us, c ≤ u.1) →
    applyUpdates h us = .ok h' → Keeps c h h' := by
  induction us with
  | nil => intro h h' hc _ e; cases e; exact Keeps.refl hc
  | cons u us ih =>
    intro h h' hc hu e
    rw [applyUpdates_cons, R.bind_eq_ok] at e
    obtain ⟨h1, e1, e2⟩ := e
    have k1 := Keeps.leaf hc u.2
    have k2 := k1.trans (updateGrad_keeps k1.1 (hu u (by simp)) hc.1 e1)
    exact k2.trans (ih k2.1 (fun v hv => hu v (by simp [hv])) e2)

theorem Closed.ancestor {c : Nat} {h : Heap T} (hc : Closed c h) {a b : Nat} (hab : Ancestor h a b) (hb : c ≤ b) : c ≤ a := by
  induction hab using Relation.TransGen.head_induction_on with
  | single hi => obtain ⟨n, d, h1, h2, h3⟩ := hi; exact (hc.2 _ n h1 hb).2 d h2 _ h3
  | head hi _ ih => obtain ⟨n, d, h1, h2, h3⟩ := hi; exact (hc.2 _ n h1 ih).2 d h2 _ h3

theorem Op.run_keeps {c : Nat} {h h' : Heap T} {op : Op T} (hg : h.Good) (hc : Closed c h) (hop : ∀ i ∈ op.ids, c ≤ i)
    (e : op.run h = .ok h') : Keeps c h h' := by
  have hu : ∀ (k : Node T → R (Raw T)) (kd : JvpKind) (t : Nat), c ≤ t → (do
      let x ← (do
        let n ← h.node t
        let val ← k n
        return h.alloc { val, grad := none, gradFn := some { inputs := [t], kind := kd } } : R (Heap T × Nat))
      return x.1 : R (Heap T)) = .ok h' → Keeps c h h' := by
    intro k kd t ht e
    simp only [R.bind_eq_ok, R.pure_eq_ok, Heap.alloc] at e
    obtain ⟨p, ⟨n, _, v, hv, rfl⟩, rfl⟩ := e
    refine Keeps.node hc (by simp) ?_
    rintro d ⟨⟩ j hj
    simp at hj
    omega
  have hb : ∀ (k : Node T → Node T → R (Raw T)) (kd : JvpKind) (l r : Nat), c ≤ l → c ≤ r → (do
      let x ← (do
        let ln ← h.node l
        let rn ← h.node r
        let val ← k ln rn
        return h.alloc { val, grad := none, gradFn := some { inputs := [l, r], kind := kd } } : R (Heap T × Nat))
      return x.1 : R (Heap T)) = .ok h' → Keeps c h h' := by
    intro k kd l r hl hr e
    simp only [R.bind_eq_ok, R.pure_eq_ok, Heap.alloc] at e
    obtain ⟨p, ⟨n, _, n', _, v, hv, rfl⟩, rfl⟩ := e
    refine Keeps.node hc (by simp) ?_
    rintro d ⟨⟩ j hj
    simp at hj
    omega
  cases op with
  | new a s =>
    simp only [Op.run, R.bind_eq_ok, R.pure_eq_ok] at e
    obtain ⟨v, _, rfl⟩ := e
    exact Keeps.leaf hc _
  | filler s v => simp only [Op.run, R.pure_eq_ok] at e; subst e; exact Keeps.leaf hc _
  | scalar v => simp only [Op.run, R.pure_eq_ok] at e; subst e; exact Keeps.leaf hc _
  | default => simp only [Op.run, R.pure_eq_ok] at e; subst e; exact Keeps.leaf hc _
  | add l r => exact hb _ _ l r (hop l (by simp [Op.ids])) (hop r (by simp [Op.ids])) e
  | bmm l r => exact hb _ _ l r (hop l (by simp [Op.ids])) (hop r (by simp [Op.ids])) e
  | dot l r => exact hb _ _ l r (hop l (by simp [Op.ids])) (hop r (by simp [Op.ids])) e
  | sub l r =>
    obtain ⟨_, e⟩ := map_fst_eq_ok e
    simp only [subT, R.bind_eq_ok] at e
    obtain ⟨⟨h1, m⟩, e1, e2⟩ := e
    obtain ⟨n, v, _, hv, rfl, rfl⟩ := negT_inv e1
    have k1 : Keeps c h (h ++ [⟨v, none, some ⟨[r], .neg⟩⟩]) := by
      refine Keeps.node hc (by simp) ?_
      rintro d ⟨⟩ j hj
      simp at hj
      have := hop r (by simp [Op.ids])
      omega
    exact k1.trans (addT_keeps k1.1 (hop l (by simp [Op.ids])) hc.1 e2).1
  | neg t => exact hu _ _ t (hop t (by simp [Op.ids])) e
  | relu t => exact hu _ _ t (hop t (by simp [Op.ids])) e
  | tanh t => exact hu _ _ t (hop t (by simp [Op.ids])) e
  | abs t => exact hu _ _ t (hop t (by simp [Op.ids])) e
  | sum t =>
    obtain ⟨_, e⟩ := map_fst_eq_ok e
    simp only [sumT, R.bind_eq_ok, R.pure_eq_ok, Heap.alloc, Heap.leaf] at e
    obtain ⟨n, _, v, hv, e⟩ := e
    cases e
    have k1 := Keeps.leaf hc (Raw.newWithFiller n.val.shape (1 : T))
    refine k1.trans (Keeps.node k1.1 ?_ ?_)
    · rintro g ⟨⟩; exact hc.1
    · rintro d ⟨⟩ j hj
      simp at hj
      have := hop t (by simp [Op.ids])
      omega
  | mul l r =>
    obtain ⟨_, e⟩ := map_fst_eq_ok e
    simp only [mulT, R.bind_eq_ok, R.pure_eq_ok] at e
    obtain ⟨ln, hl, rn, hr, v, hv, e⟩ := e
    have e := congrArg Prod.fst e
    simp only at e
    subst e
    exact Keeps.leaf hc v
  | viewToTensor v =>
    obtain ⟨_, e⟩ := map_fst_eq_ok e
    simp only [viewToTensorT, R.bind_eq_ok, R.pure_eq_ok] at e
    obtain ⟨w, hvw, v, hv, e⟩ := e
    have e := congrArg Prod.fst e
    simp only at e
    subst e
    exact Keeps.leaf hc v
  | viewSum v =>
    obtain ⟨_, e⟩ := map_fst_eq_ok e
    simp only [viewSumT, R.bind_eq_ok, R.pure_eq_ok] at e
    obtain ⟨w, hvw, v, hv, e⟩ := e
    have e := congrArg Prod.fst e
    simp only at e
    subst e
    exact Keeps.leaf hc v
  | bmmView l v =>
    obtain ⟨_, e⟩ := map_fst_eq_ok e
    simp only [bmmViewT, R.bind_eq_ok, R.pure_eq_ok, Heap.alloc, Heap.leaf] at e
    obtain ⟨ln, _, w, _, v, hv, rv, hr, e⟩ := e
    cases e
    have k1 := Keeps.leaf hc rv
    refine k1.trans (Keeps.node k1.1 (by simp) ?_)
    rintro d ⟨⟩ j hj
    have := hop l (by simp [Op.ids])
    have := hc.1
    simp at hj
    omega
  | viewBmm v r =>
    obtain ⟨_, e⟩ := map_fst_eq_ok e
    simp only [viewBmmT, R.bind_eq_ok, R.pure_eq_ok] at e
    obtain ⟨ln, _, w, _, v, hv, e⟩ := e
    have e := congrArg Prod.fst e
    simp only at e
    subst e
    exact Keeps.leaf hc v
  | viewBmmView v w =>
    obtain ⟨_, e⟩ := map_fst_eq_ok e
    simp only [viewBmmViewT, R.bind_eq_ok, R.pure_eq_ok] at e
    obtain ⟨ln, _, w, _, v, hv, e⟩ := e
    have e := congrArg Prod.fst e
    simp only at e
    subst e
    exact Keeps.leaf hc v
  | mulView l v =>
    obtain ⟨_, e⟩ := map_fst_eq_ok e
    simp only [mulViewT, R.bind_eq_ok, R.pure_eq_ok] at e
    obtain ⟨ln, hl, w, _, val, hv, e⟩ := e
    have e := congrArg Prod.fst e
    simp only at e
    subst e
    exact Keeps.leaf hc val
  | rawBin k l r =>
    obtain ⟨_, e⟩ := map_fst_eq_ok e
    simp only [rawBinT, R.bind_eq_ok, R.pure_eq_ok] at e
    obtain ⟨_, _, _, _, val, hv, e⟩ := e
    have e := congrArg Prod.fst e
    simp only at e
    subst e
    exact Keeps.leaf hc val
  | rawSub l r =>
    obtain ⟨_, e⟩ := map_fst_eq_ok e
    simp only [rawSubT, R.bind_eq_ok, R.pure_eq_ok] at e
    obtain ⟨_, _, _, _, val, hv, e⟩ := e
    have e := congrArg Prod.fst e
    simp only at e
    subst e
    exact Keeps.leaf hc val
  | rawUnary f x =>
    obtain ⟨_, e⟩ := map_fst_eq_ok e
    simp only [rawUnaryT, R.bind_eq_ok, R.pure_eq_ok] at e
    obtain ⟨_, _, val, hv, e⟩ := e
    have e := congrArg Prod.fst e
    simp only at e
    subst e
    exact Keeps.leaf hc val
  | leftMul s x =>
    obtain ⟨_, e⟩ := map_fst_eq_ok e
    simp only [leftMulT, R.bind_eq_ok, R.pure_eq_ok] at e
    obtain ⟨_, _, e⟩ := e
    have e := congrArg Prod.fst e
    simp only at e
    subst e
    exact Keeps.leaf hc _
  | rightMul x s =>
    obtain ⟨_, e⟩ := map_fst_eq_ok e
    simp only [rightMulT, R.bind_eq_ok, R.pure_eq_ok] at e
    obtain ⟨_, _, e⟩ := e
    have e := congrArg Prod.fst e
    simp only at e
    subst e
    exact Keeps.leaf hc _
  | rawSum t =>
    obtain ⟨_, e⟩ := map_fst_eq_ok e
    obtain ⟨n, v, _, hv, rfl, -⟩ := rawSumT_inv e
    have k1 := Keeps.leaf hc (Raw.newWithFiller n.val.shape (1 : T))
    refine k1.trans (Keeps.node k1.1 ?_ (by simp))
    rintro g ⟨⟩
    exact hc.1
  | deepClone t =>
    obtain ⟨_, e⟩ := map_fst_eq_ok e
    simp only [deepCloneT, R.bind_eq_ok, R.pure_eq_ok, Heap.node_eq_ok, Heap.alloc] at e
    obtain ⟨n, hn, e⟩ := e
    cases e
    exact Keeps.node hc (by simp) (by simp)
  | rawClone t =>
    obtain ⟨_, e⟩ := map_fst_eq_ok e
    obtain ⟨n, hn, rfl, -⟩ := rawCloneT_inv e
    have := hc.2 t n hn (hop t (by simp [Op.ids]))
    exact Keeps.node hc this.1 this.2
  | updateGrad t g =>
    simp only [Op.run, R.bind_eq_ok] at e
    obtain ⟨gn, _, e⟩ := e
    exact updateGrad_keeps hc (hop t (by simp [Op.ids])) (hop g (by simp [Op.ids])) e
  | zeroGrad t =>
    obtain ⟨n, hn, rfl⟩ := zeroGrad_inv e
    have := hop t (by simp [Op.ids])
    exact ⟨hc.set hn (by simp), fun i hi => List.getElem?_set_ne (by omega)⟩
  | backward l =>
    obtain ⟨us, ps, h1, h2, _, h4⟩ := backward_updates hg e
    refine applyUpdates_keeps hc (fun u hu => ?_) h1
    have : u.1 ∈ ps.map Prod.fst := by rw [← h2]; exact List.mem_map_of_mem hu
    obtain ⟨⟨t, p⟩, hx, hx'⟩ := List.mem_map.1 this
    have hp := (h4 t p).1 hx
    simp at hx'
    rw [← hx']
    exact hc.ancestor hp.ancestor (hop l (by simp [Op.ids]))

theorem runOps_keeps {c : Nat} {ops : List (Op T)} : ∀ {h h' : Heap T}, h.Good → Closed c h → (∀ op ∈ ops, ∀ i ∈ op.ids, c ≤ i) →
    runOps h ops = .ok h' → Keeps c h h' := by
  induction ops with
  | nil => intro h h' _ hc _ e; cases e; exact Keeps.refl hc
  | cons op ops ih =>
    intro h h' hg hc hops e
    rw [runOps_cons, R.bind_eq_ok] at e
    obtain ⟨h1, e1, e2⟩ := e
    have k1 := op.run_keeps hg hc (hops op (by simp)) e1
    exact k1.trans (ih (op.run_frame hg e1).2 k1.1 (fun o ho => hops o (by simp [ho])) e2)

end

end RL
