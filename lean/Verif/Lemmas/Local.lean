import Verif.SpecLocal
import Verif.Lemmas.ParamBase
import Verif.Lemmas.Heap
import Verif.Lemmas.Arith
import Verif.Lemmas.Debug

/-!
# Operations depend only on what their operands lead to: lemmas
-/

namespace RL

open Spec

variable {T : Type}

/-- the invariant: `U` contains all tensors that are created, and what its tensors refer to -/
structure Agree (U : Nat → Prop) (h0 g0 h g : Heap T) : Prop extends SameWhere U h0 g0 h g where
  closed : ∀ i n, U i → h[i]? = some n → ∀ j ∈ n.refs, U j
  new : ∀ i, h.length ≤ i → U i

/-- result of a function that returns a tensor -/
def AgreeRes (U : Nat → Prop) (h0 g0 : Heap T) (p q : Heap T × Nat) : Prop := Agree U h0 g0 p.1 q.1 ∧ p.2 = q.2 ∧ U p.2

variable {U : Nat → Prop} {h0 g0 h g : Heap T}

theorem node_local (hh : Agree U h0 g0 h g) {i : Nat} (hi : U i) : SameOutcome (fun n m => n = m ∧ h[i]? = some n) (h.node i) (g.node i) := by
  have := hh.same i hi
  unfold Heap.node idxR
  rw [← this]
  cases h[i]? with
  | none => rfl
  | some n => exact ⟨rfl, rfl⟩

theorem alloc_local (hh : Agree U h0 g0 h g) {n : Node T} (hn : ∀ j ∈ n.refs, U j) : AgreeRes U h0 g0 (h.alloc n) (g.alloc n) := by
  have hu := hh.new h.length le_rfl
  have hl := hh.length
  refine ⟨⟨⟨by simp [Heap.alloc, hl], fun i hi => ?_, fun i hi => ?_⟩, fun i m hi hm => ?_, fun i hi => hh.new i ?_⟩, hl, hu⟩
  · simp only [Heap.alloc, List.getElem?_append, hl]
    split
    · exact hh.same i hi
    · rfl
  · have hlt : i < h.length := by
      by_contra hc
      exact hi (hh.new i (by omega))
    simp only [Heap.alloc, List.getElem?_append_left hlt, List.getElem?_append_left (hl ▸ hlt)]
    exact hh.kept i hi
  · simp only [Heap.alloc] at hm
    rcases Nat.lt_or_ge i h.length with hlt | hge
    · rw [List.getElem?_append_left hlt] at hm
      exact hh.closed i m hi hm
    · rw [List.getElem?_append_right hge, List.getElem?_singleton] at hm
      split at hm
      · cases hm
        exact hn
      · cases hm
  · simp only [Heap.alloc, List.length_append, List.length_singleton] at hi
    omega

theorem leaf_local (hh : Agree U h0 g0 h g) (v : Raw T) : AgreeRes U h0 g0 (h.leaf v) (g.leaf v) := alloc_local hh (by simp [leafNode, Node.refs])

theorem set_local (hh : Agree U h0 g0 h g) {t : Nat} {n : Node T} (ht : U t) (hn : ∀ j ∈ n.refs, U j) :
    Agree U h0 g0 (h.set t n) (g.set t n) := by
  refine ⟨⟨by simpa using hh.length, fun i hi => ?_, fun i hi => ?_⟩, fun i m hi hm => ?_, fun i hi => hh.new i (by simpa using hi)⟩
  · rw [List.getElem?_set, List.getElem?_set, hh.length]
    split
    · rfl
    · exact hh.same i hi
  · have hne : t ≠ i := fun h' => hi (h' ▸ ht)
    rw [List.getElem?_set_ne hne, List.getElem?_set_ne hne]
    exact hh.kept i hi
  · rw [List.getElem?_set] at hm
    split at hm
    · split at hm
      · cases hm
        exact hn
      · cases hm
    · exact hh.closed i m hi hm

/-- an operation that reads one tensor and computes a new one -/
theorem unary_local (hh : Agree U h0 g0 h g) {t : Nat} (ht : U t) (f : Raw T → R (Raw T)) (k : JvpKind) :
    SameOutcome (AgreeRes U h0 g0) (do
      let n ← h.node t
      let val ← f n.val
      return h.alloc { val, grad := none, gradFn := some { inputs := [t], kind := k } }) (do
      let n ← g.node t
      let val ← f n.val
      return g.alloc { val, grad := none, gradFn := some { inputs := [t], kind := k } }) :=
  (node_local hh ht).bind fun n _ ⟨hn, _⟩ => by
    subst hn
    exact .same _ fun v => .pure (alloc_local hh (by simpa [Node.refs] using ht))

/-- an operation that reads two tensors and computes a new one -/
theorem binary_local (hh : Agree U h0 g0 h g) {l r : Nat} (hl : U l) (hr : U r) (f : Raw T → Raw T → R (Raw T)) (k : JvpKind) :
    SameOutcome (AgreeRes U h0 g0) (do
      let ln ← h.node l
      let rn ← h.node r
      let val ← f ln.val rn.val
      return h.alloc { val, grad := none, gradFn := some { inputs := [l, r], kind := k } }) (do
      let ln ← g.node l
      let rn ← g.node r
      let val ← f ln.val rn.val
      return g.alloc { val, grad := none, gradFn := some { inputs := [l, r], kind := k } }) :=
  (node_local hh hl).bind fun n _ ⟨hn, _⟩ => by
    subst hn
    exact (node_local hh hr).bind fun m _ ⟨hm, _⟩ => by
      subst hm
      exact .same _ fun v => .pure (alloc_local hh (by simp [Node.refs, hl, hr]))

theorem vexpr_local (hh : Agree U h0 g0 h g) : ∀ {v : VExpr}, U v.base → v.eval h = v.eval g
  | .view t rs, ht => by
    unfold VExpr.eval Heap.node idxR
    rw [hh.same t ht]
  | .reshape v s, ht => by
    unfold VExpr.eval
    rw [vexpr_local hh (v := v) ht]
  | .slice v rs, ht => by
    unfold VExpr.eval
    rw [vexpr_local hh (v := v) ht]

theorem opnd_local (hh : Agree U h0 g0 h g) {x : Opnd} (hx : U x.base) : x.eval h = x.eval g := by
  cases x with
  | tensor t =>
    have hs : h[t]? = g[t]? := hh.same t hx
    simp only [Opnd.eval, Heap.node, idxR, hs]
  | view v =>
    have hs : v.eval h = v.eval g := vexpr_local hh hx
    simp only [Opnd.eval, hs]

theorem addT_local [Zero T] [Add T] (hh : Agree U h0 g0 h g) {l r : Nat} (hl : U l) (hr : U r) : SameOutcome (AgreeRes U h0 g0) (addT h l r) (addT g l r) :=
  binary_local hh hl hr (fun a b => addRaw (.raw a) (.raw b)) .add

theorem sumT_local [Zero T] [One T] [Add T] (hh : Agree U h0 g0 h g) {t : Nat} (ht : U t) : SameOutcome (AgreeRes U h0 g0) (sumT h t) (sumT g t) :=
  (node_local hh ht).bind fun n _ ⟨hn, _⟩ => by
    subst hn
    refine .same _ fun v => .pure ?_
    have h1 := leaf_local hh (Raw.newWithFiller n.val.shape 1)
    change AgreeRes U h0 g0 (Heap.alloc (h.leaf _).1 _) (Heap.alloc (g.leaf _).1 { val := v, grad := some g.length, gradFn := _ })
    rw [← hh.length]
    exact alloc_local h1.1 (by simp [Node.refs, ht, hh.new _ le_rfl])

theorem rawSumT_local [Zero T] [One T] [Add T] (hh : Agree U h0 g0 h g) {t : Nat} (ht : U t) :
    SameOutcome (AgreeRes U h0 g0) (rawSumT h t) (rawSumT g t) :=
  (node_local hh ht).bind fun n _ ⟨hn, _⟩ => by
    subst hn
    refine .same _ fun v => .pure ?_
    have h1 := leaf_local hh (Raw.newWithFiller n.val.shape 1)
    change AgreeRes U h0 g0 (Heap.alloc (h.leaf _).1 _) (Heap.alloc (g.leaf _).1 { val := v, grad := some g.length, gradFn := _ })
    rw [← hh.length]
    exact alloc_local h1.1 (by simp [Node.refs, hh.new _ le_rfl])

theorem updateGrad_local [Zero T] [Add T] (hh : Agree U h0 g0 h g) {t c : Nat} (ht : U t) (hc : U c) :
    SameOutcome (Agree U h0 g0) (updateGrad h t c) (updateGrad g t c) := by
  refine (node_local hh ht).bind fun n _ ⟨hn, hn'⟩ => ?_
  subst hn
  have hrefs := hh.closed t n ht hn'
  have step : ∀ p q : Heap T × Nat, AgreeRes U h0 g0 p q → SameOutcome (Agree U h0 g0) (pure (p.1.set t { n with grad := some p.2 }) : R (Heap T))
      (pure (q.1.set t { n with grad := some q.2 })) := by
    rintro ⟨p, i⟩ ⟨q, j⟩ ⟨h1, h2, h3⟩
    simp only at h1 h2 h3
    subst h2
    refine .pure (set_local h1 ht fun j hj => ?_)
    simp only [Node.refs, Option.toList_some, List.mem_append, List.mem_singleton] at hj
    rcases hj with rfl | hj
    · exact h3
    · exact hrefs j (by simp only [Node.refs, List.mem_append]; exact Or.inr hj)
  cases hg : n.grad with
  | none => exact step (h, c) (g, c) ⟨hh, rfl, hc⟩
  | some o => exact (addT_local hh (hrefs o (by simp [Node.refs, hg])) hc).bind step

theorem zeroGrad_local (hh : Agree U h0 g0 h g) {t : Nat} (ht : U t) : SameOutcome (Agree U h0 g0) (zeroGrad h t) (zeroGrad g t) :=
  (node_local hh ht).bind fun n _ ⟨hn, hn'⟩ => by
    subst hn
    refine .pure (set_local hh ht fun j hj => hh.closed t n ht hn' j ?_)
    simp only [Node.refs, Option.toList_none, List.nil_append] at hj
    simp only [Node.refs, List.mem_append]
    exact Or.inr hj

variable [Zero T] [One T] [Add T] [Mul T] [Sub T] [Neg T] [LT T] [DecidableLT T] [LE T] [DecidableLE T] [RealFn T]

theorem computeJvp_local (fuel : Nat) : ∀ {h g : Heap T} {d : Deriv} {gs : List (Raw T)}, Agree U h0 g0 h g → (∀ j ∈ d.inputs, U j) →
    SameOutcome (Agree U h0 g0) (computeJvp fuel h d gs) (computeJvp fuel g d gs) := by
  induction fuel with
  | zero => intro h g d gs hh hd; exact .error _
  | succ fuel ih =>
    intro h g d gs hh hd
    unfold computeJvp
    have hin : d.inputs.mapM (fun i => do return (← h.node i).val) = (d.inputs.mapM (fun i => do return (← g.node i).val) : R (List (Raw T))) := by
      refine mapM_congr' fun i hi => ?_
      unfold Heap.node idxR
      rw [hh.same i (hd i hi)]
    rw [hin]
    refine .same _ fun vs => .same _ fun outs => ?_
    have hz : ∀ p ∈ outs.zip d.inputs, U p.2 := fun p hp => hd p.2 (List.of_mem_zip hp).2
    refine SameOutcome.foldlM (P := fun p q => p = q ∧ U p.2) (Q := Agree U h0 g0) ?_ ?_ hh
    · exact List.forall₂_same.2 fun p hp => ⟨rfl, hz p hp⟩
    · rintro h g ⟨o, i⟩ ⟨_, _⟩ hh ⟨⟨⟩, hi⟩
      refine (node_local hh hi).bind fun n _ ⟨hn, hn'⟩ => ?_
      subst hn
      refine .same _ fun _ => .same _ fun sg => ?_
      obtain ⟨h1, h2, h3⟩ := leaf_local hh sg
      simp only
      rw [← h2]
      refine (updateGrad_local h1 hi h3).bind fun h2 g2 hh2 => ?_
      cases hgf : n.gradFn with
      | none => exact .pure hh2
      | some d' => exact ih hh2 fun j hj => hh.closed i n hi hn' j (by simp [Node.refs, hgf, hj])

theorem backward_local (hh : Agree U h0 g0 h g) {t : Nat} (ht : U t) : SameOutcome (Agree U h0 g0) (backward h t) (backward g t) :=
  (node_local hh ht).bind fun n _ ⟨hn, hn'⟩ => by
    subst hn
    refine .same _ fun _ => ?_
    cases hgf : n.gradFn with
    | none => exact .error _
    | some d =>
      simp only [unwrapO, R.bind_ok, hh.length]
      exact computeJvp_local _ hh fun j hj => hh.closed t n ht hn' j (by simp [Node.refs, hgf, hj])

theorem node_eq (hh : Agree U h0 g0 h g) {i : Nat} (hi : U i) : h.node i = g.node i := by
  unfold Heap.node idxR
  rw [hh.same i hi]

/-- the heap of the result -/
theorem AgreeRes.heap {x y : R (Heap T × Nat)} (h : SameOutcome (AgreeRes U h0 g0) x y) :
    SameOutcome (Agree U h0 g0) (do return (← x).1) (do return (← y).1) := h.bind fun _ _ h => .pure h.1

theorem Op.run_local (hh : Agree U h0 g0 h g) (o : Op T) (ho : ∀ i ∈ o.ids, U i) : SameOutcome (Agree U h0 g0) (o.run h) (o.run g) := by
  have leaf : ∀ v, SameOutcome (AgreeRes U h0 g0) (pure (h.leaf v)) (pure (g.leaf v)) := fun v => .pure (leaf_local hh v)
  cases o <;> simp only [Op.ids, List.mem_cons, List.not_mem_nil, or_false, forall_eq_or_imp, forall_eq] at ho <;> rw [Op.run, Op.run]
  case new a s => exact .same _ fun v => .pure (leaf_local hh v).1
  case filler => exact .pure (leaf_local hh _).1
  case scalar => exact .pure (leaf_local hh _).1
  case default => exact .pure (leaf_local hh _).1
  case add l r => exact AgreeRes.heap (addT_local hh ho.1 ho.2)
  case sub l r =>
    refine AgreeRes.heap ((unary_local hh ho.2 (fun a => negRaw (.raw a)) .neg).bind ?_)
    rintro ⟨p, i⟩ ⟨q, j⟩ ⟨h1, h2, h3⟩
    cases h2
    exact addT_local h1 ho.1 h3
  case neg t => exact AgreeRes.heap (unary_local hh ho (fun a => negRaw (.raw a)) .neg)
  case mul l r =>
    unfold mulT
    rw [node_eq hh ho.1, node_eq hh ho.2]
    exact AgreeRes.heap (.same _ fun _ => .same _ fun _ => .same _ fun v => leaf v)
  case relu t => exact AgreeRes.heap (unary_local hh ho (fun a => reluRaw (.raw a)) .relu)
  case tanh t => exact AgreeRes.heap (unary_local hh ho (fun a => tanhRaw (.raw a)) .tanh)
  case abs t => exact AgreeRes.heap (unary_local hh ho (fun a => absRaw (.raw a)) .abs)
  case sum t => exact AgreeRes.heap (sumT_local hh ho)
  case bmm l r => exact AgreeRes.heap (binary_local hh ho.1 ho.2 (fun a b => bmmRaw (.raw a) (.raw b)) .bmm)
  case dot l r => exact AgreeRes.heap (binary_local hh ho.1 ho.2 (fun a b => dotRaw (.raw a) (.raw b)) .dot)
  case viewToTensor v =>
    unfold viewToTensorT
    rw [vexpr_local hh ho]
    exact AgreeRes.heap (.same _ fun _ => .same _ fun v => leaf v)
  case viewSum v =>
    unfold viewSumT
    rw [vexpr_local hh ho]
    exact AgreeRes.heap (.same _ fun _ => .same _ fun v => leaf v)
  case bmmView l v =>
    unfold bmmViewT
    rw [node_eq hh ho.1, vexpr_local hh ho.2]
    refine AgreeRes.heap (.same _ fun n => .same _ fun w => .same _ fun x => .same _ fun y => .pure ?_)
    have h1 := leaf_local hh y
    change AgreeRes U h0 g0 (Heap.alloc (h.leaf _).1 _) (Heap.alloc (g.leaf _).1 { val := x, grad := none, gradFn := some { inputs := [l, g.length], kind := _ } })
    rw [← hh.length]
    exact alloc_local h1.1 (by simp [Node.refs, ho.1, hh.new _ le_rfl])
  case viewBmm v r =>
    unfold viewBmmT
    rw [vexpr_local hh ho.1, node_eq hh ho.2]
    exact AgreeRes.heap (.same _ fun _ => .same _ fun _ => .same _ fun v => leaf v)
  case viewBmmView v w =>
    unfold viewBmmViewT
    rw [vexpr_local hh ho.1, vexpr_local hh ho.2]
    exact AgreeRes.heap (.same _ fun _ => .same _ fun _ => .same _ fun v => leaf v)
  case mulView l v =>
    unfold mulViewT
    rw [node_eq hh ho.1, vexpr_local hh ho.2]
    exact AgreeRes.heap (.same _ fun _ => .same _ fun _ => .same _ fun v => leaf v)
  case rawBin k l r =>
    unfold rawBinT
    rw [opnd_local hh ho.1, opnd_local hh ho.2]
    exact AgreeRes.heap (.same _ fun _ => .same _ fun _ => .same _ fun v => leaf v)
  case rawSub l r =>
    unfold rawSubT
    rw [node_eq hh ho.1, node_eq hh ho.2]
    exact AgreeRes.heap (.same _ fun _ => .same _ fun _ => .same _ fun v => leaf v)
  case rawUnary f x =>
    unfold rawUnaryT
    rw [opnd_local hh ho]
    exact AgreeRes.heap (.same _ fun _ => .same _ fun v => leaf v)
  case leftMul s x =>
    unfold leftMulT
    rw [opnd_local hh ho]
    exact AgreeRes.heap (.same _ fun _ => leaf _)
  case rightMul x s =>
    unfold rightMulT
    rw [opnd_local hh ho]
    exact AgreeRes.heap (.same _ fun _ => leaf _)
  case rawSum t => exact AgreeRes.heap (rawSumT_local hh ho)
  case deepClone t => exact AgreeRes.heap ((node_local hh ho).bind fun n _ ⟨hn, _⟩ => hn ▸ .pure (alloc_local hh (by simp [Node.refs])))
  case rawClone t =>
    exact AgreeRes.heap ((node_local hh ho).bind fun n _ ⟨hn, hn'⟩ => hn ▸ .pure (alloc_local hh (hh.closed t n ho hn')))
  case updateGrad t c =>
    rw [node_eq hh ho.2]
    exact .same _ fun _ => updateGrad_local hh ho.1 ho.2
  case zeroGrad t => exact zeroGrad_local hh ho
  case backward t => exact backward_local hh ho

theorem runOps_local (hh : Agree U h0 g0 h g) (os : List (Op T)) (ho : ∀ o ∈ os, ∀ i ∈ o.ids, U i) :
    SameOutcome (Agree U h0 g0) (runOps h os) (runOps g os) :=
  SameOutcome.foldlM (P := fun o o' => o = o' ∧ ∀ i ∈ o.ids, U i) (List.forall₂_same.2 fun o h' => ⟨rfl, ho o h'⟩)
    (by rintro h g o _ hh ⟨rfl, hi⟩; exact Op.run_local hh o hi) hh

/-- the closure of the operands, and everything that will be created -/
theorem agree_start {X : Nat → Prop} (hl : h.length = g.length)
    (hag : ∀ x i, X x → Relation.ReflTransGen (Refers h) x i → h[i]? = g[i]?) :
    Agree (fun i => (∃ x, X x ∧ Relation.ReflTransGen (Refers h) x i) ∨ h.length ≤ i) h g h g := by
  refine ⟨⟨hl, ?_, fun _ _ => ⟨rfl, rfl⟩⟩, ?_, fun i hi => Or.inr hi⟩
  · rintro i (⟨x, hx, hi⟩ | hi)
    · exact hag x i hx hi
    · rw [List.getElem?_eq_none hi, List.getElem?_eq_none (hl ▸ hi)]
  · rintro i n (⟨x, hx, hi⟩ | hi) hn j hj
    · exact Or.inl ⟨x, hx, hi.tail ((Node.refers hn).2 hj)⟩
    · rw [List.getElem?_eq_none hi] at hn
      cases hn

theorem node_exists {i : Nat} {n : Node T} (e : h.node i = .ok n) : i < h.length := (List.getElem?_eq_some_iff.1 (Heap.node_eq_ok.1 e)).1

theorem vexpr_exists : ∀ {v : VExpr} {w : View T}, v.eval h = .ok w → v.base < h.length
  | .view t rs, w, e => by
    simp only [VExpr.eval, R.bind_eq_ok] at e
    obtain ⟨n, hn, _⟩ := e
    exact node_exists hn
  | .reshape v s, w, e => by
    simp only [VExpr.eval, R.bind_eq_ok] at e
    obtain ⟨n, hn, _⟩ := e
    exact vexpr_exists (v := v) hn
  | .slice v rs, w, e => by
    simp only [VExpr.eval, R.bind_eq_ok] at e
    obtain ⟨n, hn, _⟩ := e
    exact vexpr_exists (v := v) hn

theorem opnd_exists {x : Opnd} {w : TL T} (e : x.eval h = .ok w) : x.base < h.length := by
  cases x with
  | tensor t =>
    simp only [Opnd.eval, R.bind_eq_ok] at e
    obtain ⟨n, hn, _⟩ := e
    exact node_exists hn
  | view v =>
    simp only [Opnd.eval, R.bind_eq_ok] at e
    obtain ⟨n, hn, _⟩ := e
    exact vexpr_exists hn

theorem Op.ids_exist {h' : Heap T} {o : Op T} (hf : h.length ∉ o.ids) (e : o.run h = .ok h') : ∀ i ∈ o.ids, i < h.length := by
  cases o <;> simp only [Op.ids, List.mem_cons, List.not_mem_nil, or_false, forall_eq_or_imp, forall_eq, false_imp_iff, implies_true] <;>
    rw [Op.run] at e
  case sub l r =>
    simp only [subT, negT, addT, R.bind_eq_ok, R.pure_eq_ok] at e
    obtain ⟨_, ⟨⟨h1, i⟩, ⟨n, hn, v, _, hal⟩, m, hm, k, hk, _⟩, _⟩ := e
    have hr := node_exists hn
    have hl : l < h1.length := node_exists hm
    have hlen : h1.length = h.length + 1 := by
      rw [← show (h.alloc _).1 = h1 from congrArg Prod.fst hal]
      simp [Heap.alloc]
    simp only [Op.ids, List.mem_cons, List.not_mem_nil, or_false, not_or] at hf
    exact ⟨by omega, hr⟩
  case updateGrad t c =>
    simp only [R.bind_eq_ok, RL.updateGrad] at e
    obtain ⟨n, hn, m, hm, _⟩ := e
    exact ⟨node_exists hm, node_exists hn⟩
  case zeroGrad t =>
    simp only [R.bind_eq_ok, RL.zeroGrad] at e
    obtain ⟨n, hn, _⟩ := e
    exact node_exists hn
  case backward t =>
    simp only [R.bind_eq_ok, RL.backward] at e
    obtain ⟨n, hn, _⟩ := e
    exact node_exists hn
  all_goals
    simp only [R.bind_eq_ok, addT, negT, mulT, reluT, tanhT, absT, sumT, bmmT, dotT, viewToTensorT, viewSumT, bmmViewT, viewBmmT, viewBmmViewT,
      mulViewT, rawBinT, rawSubT, rawUnaryT, leftMulT, rightMulT, rawSumT, deepCloneT, rawCloneT] at e
    first
    | (obtain ⟨_, ⟨n, hn, m, hm, _⟩, _⟩ := e
       exact ⟨by first | exact node_exists hn | exact vexpr_exists hn | exact opnd_exists hn,
        by first | exact node_exists hm | exact vexpr_exists hm | exact opnd_exists hm⟩)
    | (obtain ⟨_, ⟨n, hn, _⟩, _⟩ := e
       first | exact node_exists hn | exact vexpr_exists hn | exact opnd_exists hn)

end RL
