import Verif.Lemmas.Cost
import Verif.Lemmas.Accum
import Verif.Lemmas.MachineFits
import Verif.SpecMain

/-!
# The shapes of the tensors that training makes
-/

namespace RL

open Spec

variable {T : Type}

/-- All tensors have shapes in `P`; gradients have the shape of their tensor, except those of tensors of shape `[]`. -/
structure Sized (P : List Nat → Prop) (h : Heap T) : Prop where
  shapes : ∀ {t : Nat} {n : Node T}, h[t]? = some n → P n.val.shape
  grads : ∀ {t o : Nat} {n m : Node T}, h[t]? = some n → n.grad = some o → h[o]? = some m → m.val.shape = n.val.shape ∨ n.val.shape = []

/-- Tensor `t` has the shape `s`. -/
def ShapeAt (h : Heap T) (t : Nat) (s : List Nat) : Prop := ∃ n, h[t]? = some n ∧ n.val.shape = s

theorem ShapeAt.frame {h h' : Heap T} {t : Nat} {s : List Nat} (hs : ShapeAt h t s) (hf : Frame h h') : ShapeAt h' t s := by
  obtain ⟨n, hn, e⟩ := hs
  obtain ⟨g, hg⟩ := hf.get hn
  exact ⟨_, hg, e⟩

theorem ShapeAt.get {h : Heap T} {t : Nat} {s : List Nat} {n : Node T} (hs : ShapeAt h t s) (hn : h[t]? = some n) : n.val.shape = s := by
  obtain ⟨m, hm, e⟩ := hs
  rw [hn] at hm
  cases hm
  exact e

variable {P : List Nat → Prop}

theorem maxShape_nil (s : List Nat) : maxShape s [] = s := by
  have : ∀ l : List Nat, zipLongestMax l [] = l := by intro l; cases l <;> simp [zipLongestMax]
  simp [maxShape, this]

section

variable [Zero T] [One T] [Add T] [Mul T] [Sub T] [Neg T] [LT T] [DecidableLT T] [LE T] [DecidableLE T] [RealFn T]

theorem Sized.append {h : Heap T} {n : Node T} (hg : h.Good) (hs : Sized P h) (hn : P n.val.shape)
    (hgr : ∀ o m, n.grad = some o → h[o]? = some m → m.val.shape = n.val.shape ∨ n.val.shape = []) (hlt : ∀ o, n.grad = some o → o < h.length) :
    Sized P (h ++ [n]) := by
  have hcase : ∀ {t : Nat} {m : Node T}, (h ++ [n])[t]? = some m → h[t]? = some m ∨ m = n := by
    intro t m hm
    rcases Nat.lt_or_ge t h.length with hl | hl
    · rw [List.getElem?_append_left hl] at hm
      exact .inl hm
    · rw [List.getElem?_append_right hl] at hm
      have := List.mem_of_getElem? hm
      exact .inr (by simpa using this)
  constructor
  · intro t m hm
    rcases hcase hm with h1 | rfl
    · exact hs.shapes h1
    · exact hn
  · intro t o m k hm ho hk
    rcases hcase hm with h1 | rfl
    · have := (hg t m h1).grad o ho
      rw [List.getElem?_append_left this] at hk
      exact hs.grads h1 ho hk
    · rw [List.getElem?_append_left (hlt o ho)] at hk
      exact hgr o k ho hk

theorem Sized.leaf {h : Heap T} {n : Node T} (hg : h.Good) (hs : Sized P h) (hn : P n.val.shape) (h0 : n.grad = none) : Sized P (h ++ [n]) :=
  hs.append hg hn (by simp [h0]) (by simp [h0])

theorem Sized.set {h : Heap T} {t : Nat} {n : Node T} (hs : Sized P h) (hn : h[t]? = some n) (g : Option Nat)
    (hgr : ∀ o m, g = some o → h[o]? = some m → m.val.shape = n.val.shape ∨ n.val.shape = []) : Sized P (h.set t { n with grad := g }) := by
  have hcase : ∀ {s : Nat} {m : Node T}, (h.set t { n with grad := g })[s]? = some m →
      ∃ m', h[s]? = some m' ∧ m.val = m'.val ∧ (m = m' ∨ s = t ∧ m.grad = g) := by
    intro s m hm
    by_cases hst : s = t
    · subst hst
      rw [List.getElem?_set_self (getElem?_lt hn)] at hm
      cases hm
      exact ⟨n, hn, rfl, .inr ⟨rfl, rfl⟩⟩
    · rw [List.getElem?_set_ne (Ne.symm hst)] at hm
      exact ⟨m, hm, rfl, .inl rfl⟩
  constructor
  · intro s m hm
    obtain ⟨m', h1, h2, _⟩ := hcase hm
    rw [h2]; exact hs.shapes h1
  · intro s o m k hm ho hk
    obtain ⟨m', h1, h2, h3⟩ := hcase hm
    obtain ⟨k', h4, h5, _⟩ := hcase hk
    rw [h2, h5]
    rcases h3 with rfl | ⟨rfl, h3⟩
    · exact hs.grads h1 ho h4
    · rw [hn] at h1
      cases h1
      exact hgr o k' (by rw [← h3, ho]) h4

theorem updateGrad_sized {h h' : Heap T} {t g : Nat} {n gn : Node T} (hg : h.Good) (hs : Sized P h) (e : updateGrad h t g = .ok h')
    (hn : h[t]? = some n) (hgn : h[g]? = some gn) (hsh : gn.val.shape = n.val.shape) : Sized P h' := by
  obtain ⟨n', hn', ⟨_, rfl⟩ | ⟨o, on, gn', v, ho, hon, hgn', hv, rfl⟩⟩ := updateGrad_inv e
  · rw [hn] at hn'
    cases hn'
    refine hs.set hn _ fun o m ho hm => .inl ?_
    cases ho
    rw [hgn] at hm
    cases hm
    exact hsh
  · rw [hn] at hn'
    cases hn'
    rw [hgn] at hgn'
    cases hgn'
    have hvs : v.shape = maxShape on.val.shape gn.val.shape := (genericBinopRaw_post _ _ _ v hv).1
    have h1 : v.shape = on.val.shape := by
      rcases hs.grads hn ho hon with h2 | h2
      · rw [hvs, hsh, h2, maxShape_self]
      · rw [hvs, hsh, h2, maxShape_nil]
    have h2 : Sized P (h ++ [(⟨v, none, some ⟨[o, g], .add⟩⟩ : Node T)]) := hs.leaf hg (by rw [h1]; exact hs.shapes hon) rfl
    refine h2.set (by rw [List.getElem?_append_left (getElem?_lt hn)]; exact hn) _ fun o' m ho' hm => ?_
    cases ho'
    simp only [List.getElem?_concat_length, Option.some.injEq] at hm
    subst hm
    rw [h1]
    exact hs.grads hn ho hon

theorem applyUpdates_sized {h0 : Heap T} : ∀ {us : List (Nat × Raw T)} {h h' : Heap T}, Frame h0 h → h.Good → Sized P h →
    (∀ u ∈ us, ∃ n, h0[u.1]? = some n ∧ u.2.shape = n.val.shape ∧ WF u.2) → applyUpdates h us = .ok h' → Sized P h' := by
  intro us
  induction us with
  | nil => intro h h' _ _ hs _ e; cases e; exact hs
  | cons u us ih =>
    intro h h' hf hg hs hu e
    rw [applyUpdates_cons, R.bind_eq_ok] at e
    obtain ⟨h1, e1, e2⟩ := e
    obtain ⟨n, hn, hsh, _⟩ := hu u (by simp)
    obtain ⟨gr, hn'⟩ := hf.get hn
    refine ih (hf.trans (applyUpdate_frame e1)) (applyUpdate_good e1 hg) ?_ (fun v hv => hu v (by simp [hv])) e2
    have hl : Sized P (h.leaf u.2).1 := hs.leaf hg (n := leafNode u.2) (by show P u.2.shape; rw [hsh]; exact hs.shapes (n := { n with grad := gr }) hn') rfl
    refine updateGrad_sized ((Allocs.leaf h u.2).2 hg) hl e1 (n := { n with grad := gr }) (gn := leafNode u.2) ?_ ?_ hsh
    · show (h ++ _)[u.1]? = _
      rw [List.getElem?_append_left (getElem?_lt hn')]; exact hn'
    · show (h ++ [leafNode u.2])[h.length]? = _
      simp

/-- `backward` makes tensors of the shapes that are already there only. -/
theorem backward_sized {h h' : Heap T} {l : Nat} (hg : h.Good) (hs : Sized P h) (e : backward h l = .ok h') : Sized P h' := by
  obtain ⟨n, d, us, _, _, _, u1, a1⟩ := backward_inv hg e
  exact applyUpdates_sized (Frame.refl h) hg hs (jvpUpdates_shape u1) a1

/-! ## Networks -/

theorem bmm_shape2 {l r : TL T} {v : Raw T} {m k n : Nat} (e : bmmRaw l r = .ok v) (hl : l.shape = [m, k]) (hr : r.shape = [k, n]) :
    v.shape = [m, n] := by
  obtain ⟨_, _, _, ⟨a, b, h1, h2, _, _, h3⟩ | ⟨_, _, _, _, _, _, h, _⟩⟩ := bmmRaw_shape e
  · rw [hl] at h1
    rw [hr] at h2
    simp at h1 h2
    rw [h3, ← h1, ← h2]
  · rw [hl] at h; simp at h

theorem maxShape_row {m n : Nat} (hm : 0 < m) : maxShape [m, n] [1, n] = [m, n] := by
  simp [maxShape, zipLongestMax]; omega

/-- The parameters of the layers have the shapes of a network with input width `k` and the widths and activations `ds`. -/
def LayersSized (h : Heap T) : Nat → List (Linear T) → List (Nat × Act) → Prop
  | _, [], [] => True
  | k, l :: ls, (n, f) :: ds => ShapeAt h l.weights [k, n] ∧ ShapeAt h l.bias [1, n] ∧ l.activation = f.run ∧ LayersSized h n ls ds
  | _, _, _ => False

theorem LayersSized.frame {h h' : Heap T} (hf : Frame h h') : ∀ {k : Nat} {ls : List (Linear T)} {ds : List (Nat × Act)},
    LayersSized h k ls ds → LayersSized h' k ls ds := by
  intro k ls
  induction ls generalizing k with
  | nil => intro ds; cases ds <;> exact id
  | cons l ls ih =>
    intro ds
    cases ds with
    | nil => exact id
    | cons d ds => exact fun ⟨h1, h2, h3, h4⟩ => ⟨h1.frame hf, h2.frame hf, h3, ih h4⟩

/-- `h'` is `h` with further tensors, with shapes in `P`. -/
structure Grown (P : List Nat → Prop) (h h' : Heap T) : Prop where
  frame : Frame h h'
  good : h'.Good
  sized : Sized P h'

theorem Grown.refl {h : Heap T} (hg : h.Good) (hs : Sized P h) : Grown P h h := ⟨Frame.refl h, hg, hs⟩

theorem Grown.trans {h h' h'' : Heap T} (h1 : Grown P h h') (h2 : Grown P h' h'') : Grown P h h'' :=
  ⟨h1.frame.trans h2.frame, h2.good, h2.sized⟩

/-- An operation that appends one tensor without gradient. -/
theorem Grown.op {h h' : Heap T} {op : Op T} {n : Node T} (hg : h.Good) (hs : Sized P h) (e : op.run h = .ok h') (e' : h' = h ++ [n])
    (hn : P n.val.shape) (h0 : n.grad = none) : Grown P h h' :=
  ⟨(op.run_frame hg e).1, (op.run_frame hg e).2, e' ▸ hs.leaf hg hn h0⟩

theorem run_of_fst {h' : Heap T} {id : Nat} {x : R (Heap T × Nat)} (e : x = .ok (h', id)) : (do return (← x).1) = .ok h' := by
  rw [e]; rfl

theorem shapeAt_last (h : Heap T) (n : Node T) : ShapeAt (h ++ [n]) h.length n.val.shape := ⟨n, by simp, rfl⟩

theorem addT_grown {h h' : Heap T} {l r id : Nat} {s s' : List Nat} (hg : h.Good) (hs : Sized P h) (e : addT h l r = .ok (h', id))
    (hl : ShapeAt h l s) (hr : ShapeAt h r s') (hP : P (maxShape s s')) : Grown P h h' ∧ ShapeAt h' id (maxShape s s') := by
  obtain ⟨ln, rn, v, h1, h2, hv, rfl, rfl⟩ := addT_inv e
  have h3 : v.shape = maxShape s s' := by
    rw [(genericBinopRaw_post _ _ _ v hv).1]
    show maxShape ln.val.shape rn.val.shape = _
    rw [hl.get h1, hr.get h2]
  exact ⟨.op (op := .add l r) hg hs (run_of_fst e) rfl (h3 ▸ hP) rfl, h3 ▸ shapeAt_last _ _⟩

theorem unaryT_grown {h h' : Heap T} {t id : Nat} {op : Op T} {s : List Nat} {v : Raw T} {n : Node T} {d : Option Deriv} {f : T → T}
    (hg : h.Good) (hs : Sized P h) (e : op.run h = .ok h') (hv : genericUnaryOp (.raw n.val) f = .ok v) (hn : h[t]? = some n)
    (e' : h' = h ++ [⟨v, none, d⟩]) (hid : id = h.length) (ht : ShapeAt h t s) : Grown P h h' ∧ ShapeAt h' id s := by
  have h3 : v.shape = s := (genericUnaryOp_shape hv).trans (ht.get hn)
  have hP : P s := ht.get hn ▸ hs.shapes hn
  subst hid
  refine ⟨.op hg hs e e' (h3 ▸ hP) rfl, ?_⟩
  rw [e', ← h3]
  exact shapeAt_last h ⟨v, none, d⟩

theorem act_grown {h h' : Heap T} {t id : Nat} {s : List Nat} {f : Act} (hg : h.Good) (hs : Sized P h) (e : f.run h t = .ok (h', id))
    (ht : ShapeAt h t s) : Grown P h h' ∧ ShapeAt h' id s := by
  cases f with
  | identity => cases e; exact ⟨.refl hg hs, ht⟩
  | relu =>
    have e0 := e
    simp only [Act.run, reluT, R.bind_eq_ok, Heap.node_eq_ok, R.pure_eq_ok, Heap.alloc] at e0
    obtain ⟨n, hn, v, hv, e0⟩ := e0
    cases e0
    exact unaryT_grown hg hs (op := .relu t) (run_of_fst e) hv hn rfl rfl ht
  | tanh =>
    have e0 := e
    simp only [Act.run, tanhT, R.bind_eq_ok, Heap.node_eq_ok, R.pure_eq_ok, Heap.alloc] at e0
    obtain ⟨n, hn, v, hv, e0⟩ := e0
    cases e0
    exact unaryT_grown hg hs (op := .tanh t) (run_of_fst e) hv hn rfl rfl ht

/-- The outputs of the layers for `m` rows have shapes in `P`. -/
def WidthsIn (P : List Nat → Prop) (m : Nat) (ds : List (Nat × Act)) : Prop := ∀ d ∈ ds, P [m, d.1]

theorem forward_grown {m : Nat} (hm : 0 < m) : ∀ {ls : List (Linear T)} {ds : List (Nat × Act)} {k : Nat} {h h' : Heap T} {x r : Nat}, h.Good → Sized P h →
    LayersSized h k ls ds → WidthsIn P m ds → ShapeAt h x [m, k] → (⟨ls⟩ : Mlp T).forward h x = .ok (h', r) →
    Grown P h h' ∧ ShapeAt h' r [m, lastWidth k ds] := by
  intro ls
  induction ls with
  | nil =>
    intro ds k h h' x r hg hs hl _ hx e
    cases ds with
    | nil => cases e; exact ⟨.refl hg hs, hx⟩
    | cons => exact hl.elim
  | cons l ls ih =>
    intro ds k h h' x r hg hs hl hw hx e
    cases ds with
    | nil => exact hl.elim
    | cons d ds =>
      obtain ⟨n, f⟩ := d
      obtain ⟨h1, h2, h3, h4⟩ := hl
      have hP : P [m, n] := hw (n, f) (by simp)
      simp only [Mlp.forward, List.foldlM_cons] at e
      rw [R.bind_eq_ok] at e
      obtain ⟨⟨hc, z⟩, e1, e2⟩ := e
      simp only [Linear.forward, R.bind_eq_ok, Prod.exists] at e1
      obtain ⟨ha, a, e3, hb, b, e4, e5⟩ := e1
      have e3' := e3
      simp only [bmmT, R.bind_eq_ok, Heap.node_eq_ok, R.pure_eq_ok, Heap.alloc] at e3'
      obtain ⟨ln, hln, rn, hrn, v, hv, e3'⟩ := e3'
      cases e3'
      have hvs : v.shape = [m, n] := bmm_shape2 hv (hx.get hln) (h1.get hrn)
      have g1 : Grown P h _ := .op (op := .bmm x l.weights) hg hs (run_of_fst e3) rfl (hvs ▸ hP) rfl
      have s1 := shapeAt_last h ⟨v, none, some ⟨[x, l.weights], .bmm⟩⟩
      rw [hvs] at s1
      obtain ⟨g2, s2⟩ := addT_grown g1.good g1.sized e4 s1 (h2.frame g1.frame) (by rw [maxShape_row hm]; exact hP)
      rw [maxShape_row hm] at s2
      rw [h3] at e5
      obtain ⟨g3, s3⟩ := act_grown g2.good g2.sized e5 s2
      have g := (g1.trans g2).trans g3
      obtain ⟨g4, s4⟩ := ih (ds := ds) (k := n) g3.good g3.sized (h4.frame g.frame) (fun d hd => hw d (by simp [hd])) s3 e2
      exact ⟨g.trans g4, s4⟩

theorem sum_shape {t v : Raw T} (e : (TL.raw t).sum = .ok v) : v.shape = [] := by
  simp only [TL.sum, R.bind_eq_ok, R.pure_eq_ok] at e
  obtain ⟨_, _, rfl⟩ := e
  rfl

theorem subT_grown {h h' : Heap T} {l r id : Nat} {s : List Nat} (hg : h.Good) (hs : Sized P h) (e : subT h l r = .ok (h', id))
    (hl : ShapeAt h l s) (hr : ShapeAt h r s) : Grown P h h' ∧ ShapeAt h' id s := by
  simp only [subT, R.bind_eq_ok, Prod.exists] at e
  obtain ⟨ha, a, e1, e2⟩ := e
  obtain ⟨n, v, hn, hv, e3, rfl⟩ := negT_inv e1
  obtain ⟨g1, s1⟩ := unaryT_grown hg hs (op := .neg r) (run_of_fst e1) hv hn e3 rfl hr
  have hP : P s := hr.get hn ▸ hs.shapes hn
  obtain ⟨g2, s2⟩ := addT_grown g1.good g1.sized e2 (hl.frame g1.frame) s1 (by rw [maxShape_self]; exact hP)
  rw [maxShape_self] at s2
  exact ⟨g1.trans g2, s2⟩

theorem loss_grown {m k : Nat} (hm : 0 < m) {mlp : Mlp T} {ds : List (Nat × Act)} {h h' : Heap T} {x y l : Nat} (hg : h.Good) (hs : Sized P h)
    (hP : P []) (hl : LayersSized h k mlp.layers ds) (hw : WidthsIn P m ds) (hx : ShapeAt h x [m, k]) (hy : ShapeAt h y [m, lastWidth k ds])
    (e : trainLoss mlp h x y = .ok (h', l)) : Grown P h h' := by
  simp only [trainLoss, R.bind_eq_ok, Prod.exists] at e
  obtain ⟨ha, a, e1, hb, b, e2, hc, c, e3, e4⟩ := e
  obtain ⟨g1, s1⟩ := forward_grown hm hg hs hl hw hx e1
  obtain ⟨g2, s2⟩ := subT_grown g1.good g1.sized e2 s1 (hy.frame g1.frame)
  have e3' := e3
  simp only [absT, R.bind_eq_ok, Heap.node_eq_ok, R.pure_eq_ok, Heap.alloc] at e3'
  obtain ⟨n, hn, v, hv, e3'⟩ := e3'
  cases e3'
  obtain ⟨g3, s3⟩ := unaryT_grown g2.good g2.sized (op := .abs b) (run_of_fst e3) hv hn rfl rfl s2
  refine (g1.trans g2).trans (g3.trans ?_)
  have hf := Op.run_frame (op := .sum hb.length) g3.good (run_of_fst e4)
  obtain ⟨n, v, hn, hv, e5, _⟩ := sumT_inv e4
  refine ⟨hf.1, hf.2, ?_⟩
  rw [e5]
  have h1 : Sized P ((hb ++ [⟨_, none, some ⟨[b], .abs⟩⟩]) ++ [leafNode (Raw.newWithFiller n.val.shape 1)]) :=
    g3.sized.leaf (n := leafNode (Raw.newWithFiller n.val.shape 1)) g3.good
      (by show P (Raw.newWithFiller n.val.shape (1 : T)).shape; rw [Raw.newWithFiller_eq]; exact g3.sized.shapes hn) rfl
  exact h1.append ((Allocs.leaf _ _).2 g3.good) (by rw [sum_shape hv]; exact hP) (fun _ _ _ _ => .inr (sum_shape hv)) (by simp)

/-! ## Training -/

theorem layersSized_iff {h : Heap T} : ∀ {k : Nat} {ls : List (Linear T)} {ds : List (Nat × Act)}, LayersSized h k ls ds ↔
    List.Forall₂ (ShapeAt h) (⟨ls⟩ : Mlp T).params (paramShapes k ds) ∧ ls.map (·.activation) = ds.map fun d => d.2.run := by
  intro k ls
  induction ls generalizing k with
  | nil =>
    intro ds
    cases ds with
    | nil => simp [LayersSized, Mlp.params, paramShapes]
    | cons d ds => simp [LayersSized, Mlp.params]
  | cons l ls ih =>
    intro ds
    cases ds with
    | nil => simp [LayersSized, Mlp.params]
    | cons d ds =>
      obtain ⟨n, f⟩ := d
      have h1 : (⟨l :: ls⟩ : Mlp T).params = l.weights :: l.bias :: (⟨ls⟩ : Mlp T).params := by simp [Mlp.params, Linear.params]
      simp only [LayersSized, ih, h1, paramShapes, List.forall₂_cons, List.map_cons, List.cons.injEq]
      tauto

theorem Sized.leafs {h : Heap T} {ns : List (Node T)} (hg : h.Good) (hs : Sized P h) (hn : ∀ n ∈ ns, P n.val.shape ∧ n.grad = none) :
    Sized P (h ++ ns) := by
  have hcase : ∀ {t : Nat} {m : Node T}, (h ++ ns)[t]? = some m → h[t]? = some m ∨ m ∈ ns := by
    intro t m hm
    rcases Nat.lt_or_ge t h.length with hl | hl
    · rw [List.getElem?_append_left hl] at hm
      exact .inl hm
    · rw [List.getElem?_append_right hl] at hm
      exact .inr (List.mem_of_getElem? hm)
  constructor
  · intro t m hm
    rcases hcase hm with h1 | h1
    · exact hs.shapes h1
    · exact (hn m h1).1
  · intro t o m k hm ho hk
    rcases hcase hm with h1 | h1
    · rw [List.getElem?_append_left ((hg t m h1).grad o ho)] at hk
      exact hs.grads h1 ho hk
    · rw [(hn m h1).2] at ho; cases ho

theorem mulRaw_scalar_shape {l v : Raw T} {r : TL T} (e : mulRaw l r = .ok v) (hl : l.shape = []) : v.shape = r.shape := by
  unfold mulRaw at e
  rw [if_pos (by rw [hl]; rfl), R.bind_eq_ok] at e
  obtain ⟨_, _, e⟩ := e
  cases e; rfl

theorem sgdParam_grown {h h' : Heap T} {s p q : Nat} {sh : List Nat} (hg : h.Good) (hs : Sized P h) (hsh : sh ≠ []) (hp : ShapeAt h p sh)
    (hst : ShapeAt h s []) (e : sgdParam h s p = .ok (h', q)) : Grown P h h' ∧ ShapeAt h' q sh := by
  obtain ⟨ops, eo⟩ := sgdParam_runOps e
  obtain ⟨hf, hg'⟩ := runOps_frame hg eo
  obtain ⟨pn, gn, sn, g, delta, neg, val, h1, h2, h3, h4, h5, h6, h7, rfl, e'⟩ := sgdParam_inv e
  have hgs : gn.val.shape = sh := by
    rcases hs.grads h1 h2 h3 with h8 | h8
    · rw [h8, hp.get h1]
    · rw [hp.get h1] at h8; exact absurd h8 hsh
  have hd : delta.shape = sh := by rw [mulRaw_scalar_shape h5 (hst.get h4)]; exact hgs
  have hn : neg.shape = sh := (genericUnaryOp_shape h6).trans hd
  have hv : val.shape = sh := by
    rw [(genericBinopRaw_post _ _ _ val h7).1]
    show maxShape pn.val.shape neg.shape = _
    rw [hp.get h1, hn, maxShape_self]
  have hP : P sh := hp.get h1 ▸ hs.shapes h1
  subst e'
  refine ⟨⟨hf, hg', hs.leafs hg ?_⟩, ⟨val, none, some ⟨[p, h.length + 1], .add⟩⟩, by simp, hv⟩
  simp only [List.mem_cons, List.not_mem_nil, or_false, forall_eq_or_imp, forall_eq, leafNode, hd, hn, hv, hP, true_and, and_self]

theorem sgdParams_grown {s : Nat} : ∀ {ps : List Nat} {ss : List (List Nat)} {h h' : Heap T} {qs : List Nat}, h.Good → Sized P h →
    (∀ sh ∈ ss, sh ≠ []) → List.Forall₂ (ShapeAt h) ps ss → ShapeAt h s [] → sgdParams h s ps = .ok (h', qs) →
    Grown P h h' ∧ List.Forall₂ (ShapeAt h') qs ss := by
  intro ps
  induction ps with
  | nil =>
    intro ss h h' qs hg hs _ hp _ e
    cases hp
    cases e
    exact ⟨.refl hg hs, .nil⟩
  | cons p ps ih =>
    intro ss h h' qs hg hs hne hp hst e
    obtain _ | ⟨hp1, hp2⟩ := hp
    rw [sgdParams_cons, R.bind_eq_ok] at e
    obtain ⟨⟨h1, q⟩, e1, e⟩ := e
    simp only [R.bind_eq_ok] at e
    obtain ⟨⟨h2, qs'⟩, e2, e3⟩ := e
    rw [R.pure_eq_ok] at e3
    cases e3
    obtain ⟨g1, s1⟩ := sgdParam_grown hg hs (hne _ (by simp)) hp1 hst e1
    obtain ⟨g2, s2⟩ := ih g1.good g1.sized (fun sh h => hne sh (by simp [h])) (hp2.imp fun _ _ h => h.frame g1.frame) (hst.frame g1.frame) e2
    exact ⟨g1.trans g2, .cons (s1.frame g2.frame) s2⟩

theorem paramShapes_ne {ds : List (Nat × Act)} : ∀ {k : Nat}, ∀ sh ∈ paramShapes k ds, sh ≠ [] := by
  induction ds with
  | nil => intro k sh h; simp [paramShapes] at h
  | cons d ds ih =>
    intro k sh h
    obtain ⟨n, f⟩ := d
    simp only [paramShapes, List.mem_cons] at h
    rcases h with rfl | rfl | h
    · simp
    · simp
    · exact ih sh h

theorem zeroGrad_grown {h h' : Heap T} {t : Nat} (hg : h.Good) (hs : Sized P h) (e : zeroGrad h t = .ok h') : Grown P h h' := by
  have hf := Op.run_frame (op := .zeroGrad t) hg e
  obtain ⟨n, hn, e'⟩ := zeroGrad_inv e
  exact ⟨hf.1, hf.2, e' ▸ hs.set hn none (by simp)⟩

/-- A training step keeps the shapes of the parameters, and makes tensors with shapes in `P` only. -/
theorem step_grown {m k : Nat} (hm : 0 < m) {mlp mlp' : Mlp T} {ds : List (Nat × Act)} {h h' : Heap T} {x y : Nat} {lr : T} (hg : h.Good) (hs : Sized P h)
    (hP : P []) (hl : LayersSized h k mlp.layers ds) (hw : WidthsIn P m ds) (hx : ShapeAt h x [m, k]) (hy : ShapeAt h y [m, lastWidth k ds])
    (e : trainStep mlp h x y lr = .ok (h', mlp')) : Grown P h h' ∧ LayersSized h' k mlp'.layers ds := by
  simp only [trainStep, R.bind_eq_ok, Prod.exists] at e
  obtain ⟨h1, l, e1, h2, e2, h3, mlp3, e3, h4, e4, h5, e5, e6⟩ := e
  rw [R.pure_eq_ok] at e6
  cases e6
  have g1 := loss_grown hm hg hs hP hl hw hx hy e1
  have hf2 := Op.run_frame (op := .backward l) g1.good e2
  have g2 : Grown P h1 h2 := ⟨hf2.1, hf2.2, backward_sized g1.good g1.sized e2⟩
  have g2' : Grown P h2 (h2.leaf (Raw.scalar lr)).1 := .op (op := .scalar lr) g2.good g2.sized rfl (n := leafNode (Raw.scalar lr)) rfl hP rfl
  have g := (g1.trans g2).trans g2'
  have hst : ShapeAt (h2.leaf (Raw.scalar lr)).1 (h2.leaf (Raw.scalar lr)).2 [] := shapeAt_last h2 (leafNode (Raw.scalar lr))
  have hl' := layersSized_iff.1 (hl.frame g.frame)
  have e3' := sgdStep_inv e3
  obtain ⟨g3, s3⟩ := sgdParams_grown g2'.good g2'.sized paramShapes_ne hl'.1 hst e3'
  have g4 := zeroGrad_grown g3.good g3.sized e4
  have g5 := zeroGrad_grown g4.good g4.sized e5
  have g45 := g4.trans g5
  refine ⟨(g.trans g3).trans g45, layersSized_iff.2 ⟨s3.imp fun _ _ h => h.frame g45.frame, ?_⟩⟩
  rw [← hl'.2]
  simp only [Mlp.sgdStep, R.bind_eq_ok] at e3
  obtain ⟨⟨h6, qs⟩, e7, mlp1, e8, e9⟩ := e3
  rw [R.pure_eq_ok] at e9
  cases e9
  have hlen : mlp.params.length = 2 * mlp.layers.length := by
    obtain ⟨ls⟩ := mlp
    clear * -
    induction ls with
    | nil => rfl
    | cons l ls ih => rw [(C46_params _ _).2]; simp at ih ⊢; omega
  obtain ⟨mlp2, e10, _, h5⟩ := C46_update mlp qs (by rw [← (sgdParams_inv e7).2.length_eq, hlen])
  rw [e10] at e8
  cases e8
  exact h5

theorem train_grown {m k : Nat} (hm : 0 < m) {ds : List (Nat × Act)} {x y : Nat} {lr : T} (hP : P []) (hw : WidthsIn P m ds) :
    ∀ {n : Nat} {mlp mlp' : Mlp T} {h h' : Heap T}, h.Good → Sized P h → LayersSized h k mlp.layers ds → ShapeAt h x [m, k] →
    ShapeAt h y [m, lastWidth k ds] → train mlp h x y lr n = .ok (h', mlp') → Grown P h h' := by
  intro n
  induction n with
  | zero => intro mlp mlp' h h' hg hs _ _ _ e; cases e; exact .refl hg hs
  | succ n ih =>
    intro mlp mlp' h h' hg hs hl hx hy e
    rw [train, R.bind_eq_ok] at e
    obtain ⟨⟨h1, mlp1⟩, e1, e2⟩ := e
    obtain ⟨g1, l1⟩ := step_grown hm hg hs hP hl hw hx hy e1
    exact g1.trans (ih g1.good g1.sized l1 (hx.frame g1.frame) (hy.frame g1.frame) e2)

end

end RL
