import Verif.SpecTrainable
import Verif.SpecSteady
import Verif.Props.MatMulExact
import Verif.Props.Indexing
import Verif.Lemmas.Nan

/-!
# Which forward passes succeed
-/

namespace RL

open Spec

variable {T : Type} [Zero T] [One T] [Add T] [Mul T] [Sub T] [Neg T] [LT T] [DecidableLT T] [LE T] [DecidableLE T] [RealFn T]
variable {h h' : Heap T}

/-- A tensor of this shape. -/
def Sound (h : Heap T) (t : Nat) (s : List Nat) : Prop := ∃ v, dataOf h t = some v ∧ WF v ∧ Pos s ∧ v.shape = s

theorem Sound.node {t : Nat} {s : List Nat} (hs : Sound h t s) : ∃ n, h[t]? = some n ∧ n.val.shape = s ∧ WF n.val ∧ Pos s := by
  obtain ⟨v, h1, h2, h3, h4⟩ := hs
  obtain ⟨n, hn, rfl⟩ := dataOf_eq.1 h1
  exact ⟨n, hn, h4, h2, h3⟩

theorem Sound.append {t : Nat} {s : List Nat} (hs : Sound h t s) (ns : Heap T) : Sound (h ++ ns) t s := by
  obtain ⟨v, h1, h2⟩ := hs
  obtain ⟨n, hn, rfl⟩ := dataOf_eq.1 h1
  exact ⟨n.val, dataOf_eq.2 ⟨n, by rw [List.getElem?_append_left (getElem?_lt hn), hn], rfl⟩, h2⟩

theorem Sound.unique {t : Nat} {s s' : List Nat} (h1 : Sound h t s) (h2 : Sound h t s') : s = s' := by
  obtain ⟨v, a1, -, -, a2⟩ := h1
  obtain ⟨w, b1, -, -, b2⟩ := h2
  rw [a1] at b1
  cases b1
  rw [← a2, ← b2]

theorem Sound.new {v : Raw T} (hv : WF v) (hp : Pos v.shape) (g : Option Nat) (d : Option Deriv) : Sound (h ++ [⟨v, g, d⟩]) h.length v.shape :=
  ⟨v, dataOf_eq.2 ⟨⟨v, g, d⟩, by simp, rfl⟩, hv, hp, rfl⟩

/-- The computation only adds tensors to the heap, and succeeds with a tensor of exactly these shapes. -/
structure Yields (f : R (Heap T × Nat)) (h : Heap T) (P : List Nat → Prop) : Prop where
  sound : ∀ h' z, f = .ok (h', z) → (∃ ns, h' = h ++ ns) ∧ ∃ p, P p ∧ Sound h' z p
  yields : ∀ p, P p → ∃ h' z, f = .ok (h', z) ∧ Sound h' z p

theorem Yields.iff {f : R (Heap T × Nat)} {P : List Nat → Prop} (hy : Yields f h P) (p : List Nat) :
    (∃ h' z, f = .ok (h', z) ∧ HasShape h' z p) ↔ P p := by
  constructor
  · rintro ⟨h', z, e, v, h1, h2⟩
    obtain ⟨-, q, hq, w, h3, h4, h5, h6⟩ := hy.sound h' z e
    rw [h1] at h3
    cases h3
    rw [← h2, h6]
    exact hq
  · intro hp
    obtain ⟨h', z, e, v, h1, -, -, h2⟩ := hy.yields p hp
    exact ⟨h', z, e, v, h1, h2⟩

theorem Yields.iff_ok {f : R (Heap T × Nat)} {P : List Nat → Prop} (hy : Yields f h P) : (∃ r, f = .ok r) ↔ ∃ p, P p := by
  constructor
  · rintro ⟨⟨h', z⟩, e⟩
    obtain ⟨-, p, hp, -⟩ := hy.sound h' z e
    exact ⟨p, hp⟩
  · rintro ⟨p, hp⟩
    obtain ⟨h', z, e, -⟩ := hy.yields p hp
    exact ⟨_, e⟩

theorem Yields.bind {f : R (Heap T × Nat)} {g : Heap T → Nat → R (Heap T × Nat)} {P : List Nat → Prop} {Q : List Nat → List Nat → Prop}
    (hf : Yields f h P) (hg : ∀ ns z p, P p → Sound (h ++ ns) z p → Yields (g (h ++ ns) z) (h ++ ns) (Q p)) :
    Yields (f >>= fun q => g q.1 q.2) h (fun o => ∃ p, P p ∧ Q p o) := by
  constructor
  · intro h2 y e
    rw [R.bind_eq_ok] at e
    obtain ⟨⟨h1, z⟩, e1, e2⟩ := e
    obtain ⟨⟨ns, rfl⟩, p, hp, hs⟩ := hf.sound _ _ e1
    obtain ⟨⟨ms, rfl⟩, o, ho, hs'⟩ := (hg ns z p hp hs).sound _ _ e2
    exact ⟨⟨ns ++ ms, by simp⟩, o, ⟨p, hp, ho⟩, hs'⟩
  · rintro o ⟨p, hp, ho⟩
    obtain ⟨h1, z, e1, hs⟩ := hf.yields p hp
    obtain ⟨⟨ns, rfl⟩, -⟩ := hf.sound _ _ e1
    obtain ⟨h2, y, e2, hs'⟩ := (hg ns z p hp hs).yields o ho
    exact ⟨h2, y, by rw [e1, R.bind_ok]; exact e2, hs'⟩

theorem Yields.congr {f : R (Heap T × Nat)} {P Q : List Nat → Prop} (hy : Yields f h P) (hq : ∀ p, P p ↔ Q p) : Yields f h Q := by
  constructor
  · intro h' z e
    obtain ⟨h1, p, hp, hs⟩ := hy.sound h' z e
    exact ⟨h1, p, (hq p).1 hp, hs⟩
  · exact fun p hp => hy.yields p ((hq p).2 hp)

theorem multiplies_pos {s t p : List Nat} (hm : Multiplies s t p) (hs : Pos s) (ht : Pos t) : Pos p := by
  intro d hd
  cases hm with
  | matrix m k n =>
    simp only [List.mem_cons, List.not_mem_nil, or_false] at hd
    rcases hd with rfl | rfl
    · exact hs _ (by simp)
    · exact ht _ (by simp)
  | batch b m k n =>
    simp only [List.mem_cons, List.not_mem_nil, or_false] at hd
    rcases hd with rfl | rfl | rfl
    · exact hs _ (by simp)
    · exact hs _ (by simp)
    · exact ht _ (by simp)
  | row a m k n =>
    simp only [List.mem_cons, List.not_mem_nil, or_false] at hd
    rcases hd with rfl | rfl | rfl
    · exact Nat.one_pos
    · exact Nat.one_pos
    · exact ht _ (by simp)

theorem bmmT_yields {l r : Nat} {s t : List Nat} (hl : Sound h l s) (hr : Sound h r t) : Yields (bmmT h l r) h (Multiplies s t) := by
  obtain ⟨ln, n1, rfl, n3, n4⟩ := hl.node
  obtain ⟨rn, m1, rfl, m3, m4⟩ := hr.node
  have ex := C20_exact ln.val (.raw rn.val) n3 m3 n4 m4
  constructor
  · intro h' z e
    simp only [bmmT, R.bind_eq_ok, Heap.node_eq_ok, R.pure_eq_ok, Heap.alloc] at e
    obtain ⟨_, e1, _, e2, v, hv, e⟩ := e
    rw [n1] at e1; cases e1
    rw [m1] at e2; cases e2
    cases e
    have hm := (ex v.shape).1 ⟨v, hv, rfl⟩
    exact ⟨⟨_, rfl⟩, _, hm, .new (bmmRaw_post _ _ v hv) (multiplies_pos hm n4 m4) _ _⟩
  · intro p hp
    obtain ⟨v, hv, rfl⟩ := (ex p).2 hp
    refine ⟨h ++ [⟨v, none, some ⟨[l, r], .bmm⟩⟩], h.length, ?_, .new (bmmRaw_post _ _ v hv) (multiplies_pos hp n4 m4) _ _⟩
    simp only [bmmT, Heap.node_eq_ok.2 n1, Heap.node_eq_ok.2 m1, R.bind_ok, hv]
    rfl

theorem addT_yields {l r : Nat} {s t : List Nat} (hl : Sound h l s) (hr : Sound h r t) :
    Yields (addT h l r) h (fun p => Compatible s t ∧ p = bshape s t) := by
  obtain ⟨ln, n1, rfl, n3, n4⟩ := hl.node
  obtain ⟨rn, m1, rfl, m3, m4⟩ := hr.node
  have sound : ∀ h' z, addT h l r = .ok (h', z) → (∃ ns, h' = h ++ ns) ∧
      ∃ p, (Compatible ln.val.shape rn.val.shape ∧ p = bshape ln.val.shape rn.val.shape) ∧ Sound h' z p := by
    intro h' z e
    obtain ⟨_, _, v, e1, e2, e3, rfl, rfl⟩ := addT_inv e
    rw [n1] at e1; cases e1
    rw [m1] at e2; cases e2
    obtain ⟨q1, q2, q3, -⟩ := genericBinopRaw_inv (l := .raw ln.val) (r := .raw rn.val) n3 m3 n4 m4 e3
    have q2' : v.shape = bshape ln.val.shape rn.val.shape := q2
    have hp : Pos v.shape := by rw [q2', ← maxShape_eq_bshape n4 m4 q1]; exact maxShape_pos n4 m4
    exact ⟨⟨_, rfl⟩, v.shape, ⟨q1, q2⟩, .new q3 hp _ _⟩
  refine ⟨sound, ?_⟩
  rintro p ⟨hc, rfl⟩
  obtain ⟨v, hv⟩ := genericBinopRaw_raw n3 m3 n4 m4 (fun a b => a + b) hc
  have e : addT h l r = .ok (h ++ [⟨v, none, some ⟨[l, r], .add⟩⟩], h.length) := by
    simp only [addT, Heap.node_eq_ok.2 n1, Heap.node_eq_ok.2 m1, R.bind_ok, addRaw, hv]
    rfl
  obtain ⟨-, p, ⟨-, rfl⟩, hs⟩ := sound _ _ e
  exact ⟨_, _, e, hs⟩

theorem unary_yields {t : Nat} {s : List Nat} (ht : Sound h t s) (k : JvpKind) (op : T → T) (f : Heap T → Nat → R (Heap T × Nat))
    (hf : f = fun h t => do
      let n ← h.node t
      let val ← genericUnaryOp (.raw n.val) op
      return h.alloc { val, grad := none, gradFn := some { inputs := [t], kind := k } }) :
    Yields (f h t) h (fun p => p = s) := by
  obtain ⟨n, n1, rfl, n3, n4⟩ := ht.node
  have e0 := genericUnaryOp_eq (x := .raw n.val) n3 (.inl ⟨_, rfl⟩) op
  have e : f h t = .ok (h ++ [⟨⟨(elems (.raw n.val)).map op, n.val.shape⟩, none, some ⟨[t], k⟩⟩], h.length) := by
    rw [hf]
    simp only [Heap.node_eq_ok.2 n1, R.bind_ok, e0]
    rfl
  have hs : Sound (h ++ [⟨⟨(elems (.raw n.val)).map op, n.val.shape⟩, none, some ⟨[t], k⟩⟩]) h.length n.val.shape :=
    .new (v := ⟨(elems (.raw n.val)).map op, n.val.shape⟩) (genericUnaryOp_post _ _ _ e0) n4 _ _
  constructor
  · intro h' z e'
    rw [e] at e'
    cases e'
    exact ⟨⟨_, rfl⟩, _, rfl, hs⟩
  · rintro p rfl
    exact ⟨_, _, e, hs⟩

theorem act_yields {t : Nat} {s : List Nat} (ht : Sound h t s) {f : Activation T} (hf : StdAct f) : Yields (f h t) h (fun p => p = s) := by
  rcases hf with rfl | rfl | rfl
  · constructor
    · intro h' z e
      cases e
      exact ⟨⟨[], by simp⟩, s, rfl, ht⟩
    · rintro p rfl
      exact ⟨h, t, rfl, ht⟩
  · exact unary_yields ht .relu _ reluT rfl
  · exact unary_yields ht .tanh _ tanhT rfl

theorem layer_yields {l : Linear T} (hf : StdAct l.activation) {x : Nat} {s sw sb : List Nat} (hx : Sound h x s) (hw : Sound h l.weights sw)
    (hb : Sound h l.bias sb) : Yields (l.forward h x) h (fun q => ∃ p, Multiplies s sw p ∧ Compatible p sb ∧ q = bshape p sb) := by
  have := (bmmT_yields hx hw).bind (g := fun h y => addT h y l.bias >>= fun q => l.activation q.1 q.2)
    (Q := fun p o => ∃ q, (Compatible p sb ∧ q = bshape p sb) ∧ o = q)
    fun ns z p _ hz => (addT_yields hz (hb.append ns)).bind fun ms z q _ hz => act_yields hz hf
  refine Yields.congr (f := l.forward h x) this fun q => ?_
  constructor
  · rintro ⟨p, h1, _, ⟨h2, rfl⟩, rfl⟩
    exact ⟨p, h1, h2, rfl⟩
  · rintro ⟨p, h1, h2, rfl⟩
    exact ⟨p, h1, _, ⟨h2, rfl⟩, rfl⟩

/-- The weights and the biases of the layers. -/
abbrev SoundLayers (h : Heap T) (ls : List (Linear T)) (ss : List (List Nat × List Nat)) : Prop :=
  List.Forall₂ (fun l s => Sound h l.weights s.1 ∧ Sound h l.bias s.2) ls ss

theorem forward_yields : ∀ {ls : List (Linear T)} {h : Heap T} {x : Nat} {s : List Nat} {ss : List (List Nat × List Nat)},
    (∀ l ∈ ls, StdAct l.activation) → Sound h x s → SoundLayers h ls ss → Yields ((⟨ls⟩ : Mlp T).forward h x) h (Accepts s ss) := by
  intro ls
  induction ls with
  | nil =>
    intro h x s ss _ hx hl
    cases hl
    constructor
    · intro h' z e
      cases e
      exact ⟨⟨[], by simp⟩, s, .nil s, hx⟩
    · rintro p ⟨⟩
      exact ⟨h, x, rfl, hx⟩
  | cons l ls ih =>
    intro h x s ss hf hx hl
    rcases hl with _ | @⟨_, ⟨sw, sb⟩, _, ss, ⟨hw, hb⟩, hl⟩
    have hcons : (⟨l :: ls⟩ : Mlp T).forward h x = l.forward h x >>= fun p => (⟨ls⟩ : Mlp T).forward p.1 p.2 := by
      rw [Mlp.forward, List.foldlM_cons]
      rfl
    rw [hcons]
    refine ((layer_yields (hf l (by simp)) hx hw hb).bind (Q := fun p o => Accepts p ss o) fun ns z p _ hz =>
      ih (fun l hm => hf l (by simp [hm])) hz (hl.imp fun _ _ h2 => ⟨h2.1.append ns, h2.2.append ns⟩)).congr fun o => ?_
    constructor
    · rintro ⟨_, ⟨p, h1, h2, rfl⟩, h3⟩
      exact .cons h1 h2 h3
    · rintro (_ | ⟨h1, h2, h3⟩)
      exact ⟨_, ⟨_, h1, h2, rfl⟩, h3⟩

theorem sumT_yields {t : Nat} {s : List Nat} (ht : Sound h t s) : Yields (sumT h t) h (fun p => p = []) := by
  obtain ⟨n, n1, rfl, n3, n4⟩ := ht.node
  obtain ⟨v, hv⟩ : ∃ v, (TL.raw n.val).sum = .ok v := ⟨_, rfl⟩
  have e : sumT h t = .ok (h ++ [leafNode (Raw.newWithFiller n.val.shape 1)] ++ [⟨v, some h.length, some ⟨[t], .sum⟩⟩], h.length + 1) := by
    simp only [sumT, Heap.node_eq_ok.2 n1, R.bind_ok, hv]
    simp [Heap.leaf, Heap.alloc, leafNode]
  obtain ⟨q1, q2⟩ := sum_post (.raw n.val) v hv
  have hs := Sound.new (h := h ++ [leafNode (Raw.newWithFiller n.val.shape 1)]) (v := v) q2 (by rw [q1]; exact nofun) (some h.length) (some ⟨[t], .sum⟩)
  rw [q1, List.length_append, List.length_singleton] at hs
  constructor
  · intro h' z e'
    rw [e] at e'
    cases e'
    exact ⟨⟨_, List.append_assoc _ _ _⟩, _, rfl, hs⟩
  · rintro p rfl
    exact ⟨_, _, e, hs⟩

theorem trainLoss_yields {mlp : Mlp T} {x y : Nat} {s sy : List Nat} {ss : List (List Nat × List Nat)} (hf : ∀ l ∈ mlp.layers, StdAct l.activation)
    (hx : Sound h x s) (hy : Sound h y sy) (hl : SoundLayers h mlp.layers ss) :
    Yields (trainLoss mlp h x y) h (fun p => (∃ o, Accepts s ss o ∧ Compatible o sy) ∧ p = []) := by
  have := (forward_yields hf hx hl).bind (g := fun h r => (negT h y >>= fun q => addT q.1 r q.2) >>= fun q => absT q.1 q.2 >>= fun q => sumT q.1 q.2)
    (Q := fun o q => ∃ p, (∃ m, m = sy ∧ Compatible o m ∧ p = bshape o m) ∧ ∃ r, r = p ∧ q = [])
    fun ns z p _ hz => ((unary_yields (hy.append ns) .neg _ negT rfl).bind (g := fun h m => addT h z m)
      fun ms w m _ hw => addT_yields (hz.append ms) hw).bind (g := fun h q => absT h q >>= fun q => sumT q.1 q.2)
      fun ms w m _ hw => (unary_yields hw .abs _ absT rfl).bind fun _ _ _ _ hv => sumT_yields hv
  refine Yields.congr (f := trainLoss mlp h x y) this fun q => ?_
  constructor
  · rintro ⟨o, h1, _, ⟨_, rfl, h2, rfl⟩, _, rfl, rfl⟩
    exact ⟨⟨o, h1, h2⟩, rfl⟩
  · rintro ⟨⟨o, h1, h2⟩, rfl⟩
    exact ⟨o, h1, _, ⟨_, rfl, h2, rfl⟩, _, rfl, rfl⟩

end RL
