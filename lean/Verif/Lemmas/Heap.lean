import Verif.Model.GradLock
import Verif.Lemmas.Construct

/-!
# Structure of the heap: what every operation preserves
-/

namespace RL

open Spec

variable {T : Type}

/-! ### inversion of the monad -/

theorem R.bind_eq_ok {α β : Type _} {x : R α} {f : α → R β} {b : β} :
    (x >>= f) = .ok b ↔ ∃ a, x = .ok a ∧ f a = .ok b := by
  cases x with
  | error e => simp
  | ok a => simp

theorem R.pure_eq_ok {α : Type _} {a b : α} : (pure a : R α) = .ok b ↔ a = b := by simp

theorem assertR_eq_ok {c : Bool} : assertR c = .ok () ↔ c = true := by
  cases c <;> simp [R.panic]

theorem unwrapO_eq_ok {α : Type _} {o : Option α} {a : α} : unwrapO o = .ok a ↔ o = some a := by
  cases o <;> simp [unwrapO, R.panic]

theorem Heap.node_eq_ok {h : Heap T} {i : Nat} {n : Node T} : h.node i = .ok n ↔ h[i]? = some n := idxR_eq_ok

/-! ### values of several nodes -/

theorem Heap.vals_nil (h : Heap T) : h.vals [] = .ok [] := rfl

theorem Heap.vals_cons (h : Heap T) (i : Nat) (ids : List Nat) :
    h.vals (i :: ids) = (do
      let n ← h.node i
      let vs ← h.vals ids
      return n.val :: vs) := by
  simp only [Heap.vals, List.mapM_cons]
  cases h.node i <;> rfl

theorem Heap.vals_eq_ok {h : Heap T} {ids : List Nat} {vs : List (Raw T)} :
    h.vals ids = .ok vs ↔ List.Forall₂ (fun i v => ∃ n, h[i]? = some n ∧ n.val = v) ids vs := by
  induction ids generalizing vs with
  | nil => simp [Heap.vals_nil, eq_comm]
  | cons i ids ih =>
    rw [Heap.vals_cons]
    simp only [R.bind_eq_ok, Heap.node_eq_ok, R.pure_eq_ok, List.forall₂_cons_left_iff]
    constructor
    · rintro ⟨n, hn, vs', hvs, rfl⟩
      exact ⟨n.val, vs', ⟨n, hn, rfl⟩, ih.1 hvs, rfl⟩
    · rintro ⟨v, vs', ⟨n, hn, rfl⟩, hvs, rfl⟩
      exact ⟨n, hn, vs', ih.2 hvs, rfl⟩

/-! ### heaps that differ in gradients and new nodes only -/

/-- Every old tensor is still there with the same data and history; its gradient may differ. -/
structure Frame (h h' : Heap T) : Prop where
  len : h.length ≤ h'.length
  get : ∀ {i : Nat} {n : Node T}, h[i]? = some n → ∃ g, h'[i]? = some { n with grad := g }

theorem Frame.refl (h : Heap T) : Frame h h := ⟨Nat.le_refl _, fun {_ n} hn => ⟨n.grad, hn⟩⟩

theorem Frame.trans {a b c : Heap T} (h1 : Frame a b) (h2 : Frame b c) : Frame a c := by
  refine ⟨h1.len.trans h2.len, fun hn => ?_⟩
  obtain ⟨g, hg⟩ := h1.get hn
  obtain ⟨g', hg'⟩ := h2.get hg
  exact ⟨g', hg'⟩

theorem Frame.append (h ns : Heap T) : Frame h (h ++ ns) := by
  refine ⟨by simp, fun {i n} hn => ⟨n.grad, ?_⟩⟩
  obtain ⟨hl, -⟩ := List.getElem?_eq_some_iff.1 hn
  rw [List.getElem?_append_left hl, hn]

theorem Frame.set {h : Heap T} {t : Nat} {n : Node T} (hn : h[t]? = some n) (g : Option Nat) :
    Frame h (h.set t { n with grad := g }) := by
  refine ⟨by simp, fun {i m} hm => ?_⟩
  by_cases hi : t = i
  · subst hi
    rw [hn] at hm
    cases hm
    obtain ⟨hl, -⟩ := List.getElem?_eq_some_iff.1 hn
    exact ⟨g, by simp [hl]⟩
  · exact ⟨m.grad, by rw [List.getElem?_set_ne hi, hm]⟩

theorem Frame.vals {h h' : Heap T} (hf : Frame h h') {ids : List Nat} {vs : List (Raw T)} (hv : h.vals ids = .ok vs) :
    h'.vals ids = .ok vs := by
  rw [Heap.vals_eq_ok] at hv ⊢
  refine hv.imp fun i v => ?_
  rintro ⟨n, hn, rfl⟩
  obtain ⟨g, hg⟩ := hf.get hn
  exact ⟨_, hg, rfl⟩

/-! ### well-formed heaps -/

section
variable [Zero T] [One T] [Add T] [Mul T] [Sub T] [Neg T] [LT T] [DecidableLT T] [LE T] [DecidableLE T] [RealFn T]

/-- The data a node with history of this kind gets from the data of its inputs. -/
def fwd : JvpKind → List (Raw T) → R (Raw T)
  | .add, [a, b] => addRaw (.raw a) (.raw b)
  | .neg, [a] => negRaw (.raw a)
  | .relu, [a] => reluRaw (.raw a)
  | .abs, [a] => absRaw (.raw a)
  | .tanh, [a] => tanhRaw (.raw a)
  | .sum, [a] => (TL.raw a).sum
  | .bmm, [a, b] => bmmRaw (.raw a) (.raw b)
  | .dot, [a, b] => dotRaw (.raw a) (.raw b)
  | _, _ => R.panic .assert

/-- The history of node `i` points to older nodes and explains its data; its gradient is a node. -/
structure NodeOk (h : Heap T) (i : Nat) (n : Node T) : Prop where
  grad : ∀ g, n.grad = some g → g < h.length
  older : ∀ d, n.gradFn = some d → ∀ j ∈ d.inputs, j < i
  explained : ∀ d, n.gradFn = some d → ∃ vs, h.vals d.inputs = .ok vs ∧ fwd d.kind vs = .ok n.val

/-- Every node is well-formed. -/
def Heap.Good (h : Heap T) : Prop := ∀ (i : Nat) (n : Node T), h[i]? = some n → NodeOk h i n

theorem NodeOk.frame {h h' : Heap T} (hf : Frame h h') {i : Nat} {n : Node T} (hn : NodeOk h i n) : NodeOk h' i n where
  grad g hg := (hn.grad g hg).trans_le hf.len
  older := hn.older
  explained d hd := by
    obtain ⟨vs, h1, h2⟩ := hn.explained d hd
    exact ⟨vs, hf.vals h1, h2⟩

theorem Heap.good_nil : Heap.Good ([] : Heap T) := by intro i n hn; simp at hn

theorem Heap.Good.append {h : Heap T} (hg : h.Good) {n : Node T} (hn : NodeOk h h.length n) : Heap.Good (h ++ [n]) := by
  intro i m hm
  rcases Nat.lt_or_ge i h.length with hi | hi
  · rw [List.getElem?_append_left hi] at hm
    exact (hg i m hm).frame (Frame.append h [n])
  · rw [List.getElem?_append_right hi] at hm
    have : i - h.length = 0 := by
      by_contra hne
      have : ([n] : List (Node T))[i - h.length]? = none := by
        apply List.getElem?_eq_none; simp; omega
      rw [this] at hm; cases hm
    rw [this] at hm
    simp at hm
    subst hm
    have : i = h.length := by omega
    subst this
    exact hn.frame (Frame.append h [n])

theorem Heap.Good.set {h : Heap T} (hg : h.Good) {t : Nat} {n : Node T} (hn : h[t]? = some n) {g : Option Nat}
    (hgr : ∀ g', g = some g' → g' < h.length) : Heap.Good (h.set t { n with grad := g }) := by
  intro i m hm
  have hf := Frame.set hn g
  by_cases hi : t = i
  · subst hi
    obtain ⟨hl, -⟩ := List.getElem?_eq_some_iff.1 hn
    rw [List.getElem?_set_self hl] at hm
    cases hm
    have := hg t n hn
    exact NodeOk.frame hf ⟨hgr, this.older, this.explained⟩
  · rw [List.getElem?_set_ne hi] at hm
    exact (hg i m hm).frame hf

theorem nodeOk_leaf (h : Heap T) (i : Nat) (v : Raw T) : NodeOk h i (leafNode v) where
  grad g hg := by cases hg
  older d hd := by cases hd
  explained d hd := by cases hd

theorem getElem?_lt {α : Type _} {l : List α} {i : Nat} {a : α} (h : l[i]? = some a) : i < l.length :=
  (List.getElem?_eq_some_iff.1 h).1

/-- A freshly computed node with a unary history. -/
theorem nodeOk_unary {h : Heap T} {k : JvpKind} {t : Nat} {n : Node T} {v : Raw T} {g : Option Nat} (hn : h[t]? = some n)
    (hg : ∀ g', g = some g' → g' < h.length) (hv : fwd k [n.val] = .ok v) :
    NodeOk h h.length ⟨v, g, some ⟨[t], k⟩⟩ where
  grad := hg
  older d hd j hj := by
    cases hd
    simp at hj
    subst hj
    exact getElem?_lt hn
  explained d hd := by
    cases hd
    exact ⟨[n.val], Heap.vals_eq_ok.2 (.cons ⟨n, hn, rfl⟩ .nil), hv⟩

/-- A freshly computed node with a binary history. -/
theorem nodeOk_binary {h : Heap T} {k : JvpKind} {l r : Nat} {ln rn : Node T} {v : Raw T} (hl : h[l]? = some ln)
    (hr : h[r]? = some rn) (hv : fwd k [ln.val, rn.val] = .ok v) :
    NodeOk h h.length ⟨v, none, some ⟨[l, r], k⟩⟩ where
  grad g hg := by cases hg
  older d hd j hj := by
    cases hd
    simp at hj
    rcases hj with rfl | rfl
    · exact getElem?_lt hl
    · exact getElem?_lt hr
  explained d hd := by
    cases hd
    exact ⟨[ln.val, rn.val], Heap.vals_eq_ok.2 (.cons ⟨ln, hl, rfl⟩ (.cons ⟨rn, hr, rfl⟩ .nil)), hv⟩

/-! ### the operations that only allocate -/

/-- `h'` is `h` with further well-formed nodes. -/
def Allocs (h h' : Heap T) : Prop := (∃ ns, h' = h ++ ns) ∧ (h.Good → h'.Good)

theorem Allocs.trans {a b c : Heap T} (h1 : Allocs a b) (h2 : Allocs b c) : Allocs a c := by
  obtain ⟨⟨n1, rfl⟩, g1⟩ := h1
  obtain ⟨⟨n2, rfl⟩, g2⟩ := h2
  exact ⟨⟨n1 ++ n2, by simp⟩, fun h => g2 (g1 h)⟩

theorem Allocs.frame {a b : Heap T} (h : Allocs a b) : Frame a b := by
  obtain ⟨⟨n1, rfl⟩, -⟩ := h
  exact Frame.append _ _

theorem Allocs.leaf (h : Heap T) (v : Raw T) : Allocs h (h.leaf v).1 :=
  ⟨⟨_, rfl⟩, fun hg => hg.append (nodeOk_leaf h _ v)⟩

theorem Allocs.node {h : Heap T} {n : Node T} (hn : NodeOk h h.length n) : Allocs h (h ++ [n]) :=
  ⟨⟨_, rfl⟩, fun hg => hg.append hn⟩

/-- inversion of `addT` -/
theorem addT_inv {h h' : Heap T} {l r id : Nat} (e : addT h l r = .ok (h', id)) :
    ∃ ln rn v, h[l]? = some ln ∧ h[r]? = some rn ∧ addRaw (.raw ln.val) (.raw rn.val) = .ok v ∧
      h' = h ++ [⟨v, none, some ⟨[l, r], .add⟩⟩] ∧ id = h.length := by
  simp only [addT, R.bind_eq_ok, Heap.node_eq_ok, R.pure_eq_ok, Heap.alloc] at e
  obtain ⟨ln, hl, rn, hr, v, hv, e⟩ := e
  cases e
  exact ⟨ln, rn, v, hl, hr, hv, rfl, rfl⟩

theorem addT_allocs {h h' : Heap T} {l r id : Nat} (e : addT h l r = .ok (h', id)) : Allocs h h' := by
  obtain ⟨ln, rn, v, hl, hr, hv, rfl, -⟩ := addT_inv e
  exact Allocs.node (nodeOk_binary hl hr hv)

theorem negT_inv {h h' : Heap T} {t id : Nat} (e : negT h t = .ok (h', id)) :
    ∃ n v, h[t]? = some n ∧ negRaw (.raw n.val) = .ok v ∧ h' = h ++ [⟨v, none, some ⟨[t], .neg⟩⟩] ∧ id = h.length := by
  simp only [negT, R.bind_eq_ok, Heap.node_eq_ok, R.pure_eq_ok, Heap.alloc] at e
  obtain ⟨n, hn, v, hv, e⟩ := e
  cases e
  exact ⟨n, v, hn, hv, rfl, rfl⟩

theorem negT_allocs {h h' : Heap T} {t id : Nat} (e : negT h t = .ok (h', id)) : Allocs h h' := by
  obtain ⟨n, v, hn, hv, rfl, -⟩ := negT_inv e
  exact Allocs.node (nodeOk_unary hn (by simp) hv)

theorem subT_allocs {h h' : Heap T} {l r id : Nat} (e : subT h l r = .ok (h', id)) : Allocs h h' := by
  simp only [subT, R.bind_eq_ok] at e
  obtain ⟨⟨h1, n⟩, e1, e2⟩ := e
  exact (negT_allocs e1).trans (addT_allocs e2)

theorem reluT_allocs {h h' : Heap T} {t id : Nat} (e : reluT h t = .ok (h', id)) : Allocs h h' := by
  simp only [reluT, R.bind_eq_ok, Heap.node_eq_ok, R.pure_eq_ok, Heap.alloc] at e
  obtain ⟨n, hn, v, hv, e⟩ := e
  cases e
  exact Allocs.node (nodeOk_unary hn (by simp) hv)

theorem tanhT_allocs {h h' : Heap T} {t id : Nat} (e : tanhT h t = .ok (h', id)) : Allocs h h' := by
  simp only [tanhT, R.bind_eq_ok, Heap.node_eq_ok, R.pure_eq_ok, Heap.alloc] at e
  obtain ⟨n, hn, v, hv, e⟩ := e
  cases e
  exact Allocs.node (nodeOk_unary hn (by simp) hv)

theorem absT_allocs {h h' : Heap T} {t id : Nat} (e : absT h t = .ok (h', id)) : Allocs h h' := by
  simp only [absT, R.bind_eq_ok, Heap.node_eq_ok, R.pure_eq_ok, Heap.alloc] at e
  obtain ⟨n, hn, v, hv, e⟩ := e
  cases e
  exact Allocs.node (nodeOk_unary hn (by simp) hv)

theorem sumT_inv {h h' : Heap T} {t id : Nat} (e : sumT h t = .ok (h', id)) :
    ∃ n v, h[t]? = some n ∧ (TL.raw n.val).sum = .ok v ∧
      h' = h ++ [leafNode (Raw.newWithFiller n.val.shape 1)] ++ [⟨v, some h.length, some ⟨[t], .sum⟩⟩] ∧
      id = h.length + 1 := by
  simp only [sumT, R.bind_eq_ok, Heap.node_eq_ok, R.pure_eq_ok, Heap.alloc, Heap.leaf] at e
  obtain ⟨n, hn, v, hv, e⟩ := e
  cases e
  exact ⟨n, v, hn, hv, rfl, by simp⟩

theorem sumT_allocs {h h' : Heap T} {t id : Nat} (e : sumT h t = .ok (h', id)) : Allocs h h' := by
  obtain ⟨n, v, hn, hv, rfl, -⟩ := sumT_inv e
  refine (Allocs.leaf h _).trans (Allocs.node ?_)
  have hn' : (h.leaf (Raw.newWithFiller n.val.shape 1)).1[t]? = some n := by
    simp [Heap.leaf, Heap.alloc, List.getElem?_append_left (getElem?_lt hn), hn]
  exact nodeOk_unary hn' (by simp [Heap.leaf, Heap.alloc]) hv

theorem bmmT_allocs {h h' : Heap T} {l r id : Nat} (e : bmmT h l r = .ok (h', id)) : Allocs h h' := by
  simp only [bmmT, R.bind_eq_ok, Heap.node_eq_ok, R.pure_eq_ok, Heap.alloc] at e
  obtain ⟨ln, hl, rn, hr, v, hv, e⟩ := e
  cases e
  exact Allocs.node (nodeOk_binary hl hr hv)

theorem dotT_allocs {h h' : Heap T} {l r id : Nat} (e : dotT h l r = .ok (h', id)) : Allocs h h' := by
  simp only [dotT, R.bind_eq_ok, Heap.node_eq_ok, R.pure_eq_ok, Heap.alloc] at e
  obtain ⟨ln, hl, rn, hr, v, hv, e⟩ := e
  cases e
  exact Allocs.node (nodeOk_binary hl hr hv)

theorem leafT_allocs {h h' : Heap T} {v : Raw T} {id : Nat} (e : h.leaf v = (h', id)) : Allocs h h' := by
  have := Allocs.leaf h v
  rw [e] at this
  exact this

theorem mulT_allocs {h h' : Heap T} {l r id : Nat} (e : mulT h l r = .ok (h', id)) : Allocs h h' := by
  simp only [mulT, R.bind_eq_ok, Heap.node_eq_ok, R.pure_eq_ok] at e
  obtain ⟨ln, hl, rn, hr, v, hv, e⟩ := e
  exact leafT_allocs e

theorem viewToTensorT_allocs {h h' : Heap T} {v : VExpr} {id : Nat} (e : viewToTensorT h v = .ok (h', id)) :
    Allocs h h' := by
  simp only [viewToTensorT, R.bind_eq_ok, R.pure_eq_ok] at e
  obtain ⟨_, _, _, _, e⟩ := e
  exact leafT_allocs e

theorem viewSumT_allocs {h h' : Heap T} {v : VExpr} {id : Nat} (e : viewSumT h v = .ok (h', id)) :
    Allocs h h' := by
  simp only [viewSumT, R.bind_eq_ok, R.pure_eq_ok] at e
  obtain ⟨_, _, _, _, e⟩ := e
  exact leafT_allocs e

theorem viewBmmT_allocs {h h' : Heap T} {v : VExpr} {r id : Nat} (e : viewBmmT h v r = .ok (h', id)) :
    Allocs h h' := by
  simp only [viewBmmT, R.bind_eq_ok, R.pure_eq_ok] at e
  obtain ⟨_, _, _, _, _, _, e⟩ := e
  exact leafT_allocs e

theorem viewBmmViewT_allocs {h h' : Heap T} {v w : VExpr} {id : Nat} (e : viewBmmViewT h v w = .ok (h', id)) :
    Allocs h h' := by
  simp only [viewBmmViewT, R.bind_eq_ok, R.pure_eq_ok] at e
  obtain ⟨_, _, _, _, _, _, e⟩ := e
  exact leafT_allocs e

theorem rawBinT_allocs {h h' : Heap T} {k : RawBin} {l r : Opnd} {id : Nat} (e : rawBinT h k l r = .ok (h', id)) :
    Allocs h h' := by
  simp only [rawBinT, R.bind_eq_ok, R.pure_eq_ok] at e
  obtain ⟨_, _, _, _, _, _, e⟩ := e
  exact leafT_allocs e

theorem rawSubT_allocs {h h' : Heap T} {l r id : Nat} (e : rawSubT h l r = .ok (h', id)) : Allocs h h' := by
  simp only [rawSubT, R.bind_eq_ok, R.pure_eq_ok] at e
  obtain ⟨_, _, _, _, _, _, e⟩ := e
  exact leafT_allocs e

theorem rawUnaryT_allocs {h h' : Heap T} {f : T → T} {x : Opnd} {id : Nat} (e : rawUnaryT h f x = .ok (h', id)) :
    Allocs h h' := by
  simp only [rawUnaryT, R.bind_eq_ok, R.pure_eq_ok] at e
  obtain ⟨_, _, _, _, e⟩ := e
  exact leafT_allocs e

theorem leftMulT_allocs {h h' : Heap T} {s : T} {x : Opnd} {id : Nat} (e : leftMulT h s x = .ok (h', id)) : Allocs h h' := by
  simp only [leftMulT, R.bind_eq_ok, R.pure_eq_ok] at e
  obtain ⟨_, _, e⟩ := e
  exact leafT_allocs e

theorem rightMulT_allocs {h h' : Heap T} {s : T} {x : Opnd} {id : Nat} (e : rightMulT h x s = .ok (h', id)) : Allocs h h' := by
  simp only [rightMulT, R.bind_eq_ok, R.pure_eq_ok] at e
  obtain ⟨_, _, e⟩ := e
  exact leafT_allocs e

theorem rawSumT_inv {h h' : Heap T} {t id : Nat} (e : rawSumT h t = .ok (h', id)) :
    ∃ n v, h[t]? = some n ∧ (TL.raw n.val).sum = .ok v ∧
      h' = h ++ [leafNode (Raw.newWithFiller n.val.shape 1)] ++ [⟨v, some h.length, none⟩] ∧ id = h.length + 1 := by
  simp only [rawSumT, R.bind_eq_ok, Heap.node_eq_ok, R.pure_eq_ok, Heap.alloc, Heap.leaf] at e
  obtain ⟨n, hn, v, hv, e⟩ := e
  cases e
  exact ⟨n, v, hn, hv, rfl, by simp⟩

theorem rawSumT_allocs {h h' : Heap T} {t id : Nat} (e : rawSumT h t = .ok (h', id)) : Allocs h h' := by
  obtain ⟨n, v, hn, hv, rfl, -⟩ := rawSumT_inv e
  refine (Allocs.leaf h _).trans (Allocs.node ?_)
  exact ⟨by simp [Heap.leaf, Heap.alloc], by simp, by simp⟩

theorem mulViewT_allocs {h h' : Heap T} {l id : Nat} {v : VExpr} (e : mulViewT h l v = .ok (h', id)) :
    Allocs h h' := by
  simp only [mulViewT, R.bind_eq_ok, R.pure_eq_ok] at e
  obtain ⟨_, _, _, _, _, _, e⟩ := e
  exact leafT_allocs e

end

end RL
