import Verif.Lemmas.Heap2

/-!
# Histories of operations
-/

namespace RL

open Spec

variable {T : Type}
variable [Zero T] [One T] [Add T] [Mul T] [Sub T] [Neg T] [LT T] [DecidableLT T] [LE T] [DecidableLE T] [RealFn T]

/-- The operations that are allowed to change gradients of existing tensors. -/
def Op.isGrad : Op T → Bool
  | .updateGrad _ _ | .zeroGrad _ | .backward _ => true
  | _ => false

theorem Op.isGrad_false (op : Op T) (hop : ∀ t g, op ≠ .updateGrad t g ∧ op ≠ .zeroGrad t ∧ op ≠ .backward t) :
    op.isGrad = false := by
  cases op with
  | updateGrad t g => exact absurd rfl (hop t g).1
  | zeroGrad t => exact absurd rfl (hop t 0).2.1
  | backward t => exact absurd rfl (hop t 0).2.2
  | _ => rfl

theorem map_fst_eq_ok {α β : Type _} {x : R (α × β)} {a : α} (e : (do return (← x).1) = Except.ok a) :
    ∃ b, x = .ok (a, b) := by
  simp only [R.bind_eq_ok, R.pure_eq_ok] at e
  obtain ⟨⟨a', b⟩, h1, h2⟩ := e
  exact ⟨b, by rw [h1, ← h2]⟩

/-- Every other operation only allocates. -/
theorem Op.run_allocs {h h' : Heap T} {op : Op T} (hop : op.isGrad = false) (e : op.run h = .ok h') : Allocs h h' := by
  cases op <;> simp only [Op.isGrad] at hop <;> try (cases hop; done)
  case new a s =>
    simp only [Op.run, R.bind_eq_ok, R.pure_eq_ok] at e
    obtain ⟨v, _, rfl⟩ := e
    exact Allocs.leaf _ _
  case filler s v => simp only [Op.run, R.pure_eq_ok] at e; subst e; exact Allocs.leaf _ _
  case scalar v => simp only [Op.run, R.pure_eq_ok] at e; subst e; exact Allocs.leaf _ _
  case default => simp only [Op.run, R.pure_eq_ok] at e; subst e; exact Allocs.leaf _ _
  case add => obtain ⟨_, e⟩ := map_fst_eq_ok e; exact addT_allocs e
  case sub => obtain ⟨_, e⟩ := map_fst_eq_ok e; exact subT_allocs e
  case neg => obtain ⟨_, e⟩ := map_fst_eq_ok e; exact negT_allocs e
  case mul => obtain ⟨_, e⟩ := map_fst_eq_ok e; exact mulT_allocs e
  case relu => obtain ⟨_, e⟩ := map_fst_eq_ok e; exact reluT_allocs e
  case tanh => obtain ⟨_, e⟩ := map_fst_eq_ok e; exact tanhT_allocs e
  case abs => obtain ⟨_, e⟩ := map_fst_eq_ok e; exact absT_allocs e
  case sum => obtain ⟨_, e⟩ := map_fst_eq_ok e; exact sumT_allocs e
  case bmm => obtain ⟨_, e⟩ := map_fst_eq_ok e; exact bmmT_allocs e
  case dot => obtain ⟨_, e⟩ := map_fst_eq_ok e; exact dotT_allocs e
  case viewToTensor => obtain ⟨_, e⟩ := map_fst_eq_ok e; exact viewToTensorT_allocs e
  case viewSum => obtain ⟨_, e⟩ := map_fst_eq_ok e; exact viewSumT_allocs e
  case bmmView => obtain ⟨_, e⟩ := map_fst_eq_ok e; exact bmmViewT_allocs e
  case viewBmm => obtain ⟨_, e⟩ := map_fst_eq_ok e; exact viewBmmT_allocs e
  case viewBmmView => obtain ⟨_, e⟩ := map_fst_eq_ok e; exact viewBmmViewT_allocs e
  case mulView => obtain ⟨_, e⟩ := map_fst_eq_ok e; exact mulViewT_allocs e
  case rawBin => obtain ⟨_, e⟩ := map_fst_eq_ok e; exact rawBinT_allocs e
  case rawSub => obtain ⟨_, e⟩ := map_fst_eq_ok e; exact rawSubT_allocs e
  case rawUnary => obtain ⟨_, e⟩ := map_fst_eq_ok e; exact rawUnaryT_allocs e
  case leftMul => obtain ⟨_, e⟩ := map_fst_eq_ok e; exact leftMulT_allocs e
  case rightMul => obtain ⟨_, e⟩ := map_fst_eq_ok e; exact rightMulT_allocs e
  case rawSum => obtain ⟨_, e⟩ := map_fst_eq_ok e; exact rawSumT_allocs e
  case deepClone => obtain ⟨_, e⟩ := map_fst_eq_ok e; exact deepCloneT_allocs e
  case rawClone => obtain ⟨_, e⟩ := map_fst_eq_ok e; exact rawCloneT_allocs e

/-- inversion of `backward` -/
theorem backward_inv {h h' : Heap T} {l : Nat} (hg : h.Good) (e : backward h l = .ok h') :
    ∃ n d us, h[l]? = some n ∧ n.val.array.length = 1 ∧ n.gradFn = some d ∧
      jvpUpdates (h.length + 1) h d [Raw.scalar 1] = .ok us ∧ applyUpdates h us = .ok h' := by
  simp only [backward, R.bind_eq_ok, Heap.node_eq_ok, assertR_eq_ok, unwrapO_eq_ok] at e
  obtain ⟨n, hn, ⟨⟩, hl, d, hd, e⟩ := e
  rw [assertR_eq_ok] at hl
  have hlt : ∀ i ∈ d.inputs, i < h.length := fun i hi => ((hg l n hn).older d hd i hi).trans (getElem?_lt hn)
  obtain ⟨us, h1, h2⟩ := (computeJvp_ok (Frame.refl h) hlt hg).1 e
  exact ⟨n, d, us, hn, by simpa using hl, hd, h1, h2⟩

theorem Op.run_frame {h h' : Heap T} {op : Op T} (hg : h.Good) (e : op.run h = .ok h') : Frame h h' ∧ h'.Good := by
  cases hop : op.isGrad with
  | false => exact ⟨(op.run_allocs hop e).frame, (op.run_allocs hop e).2 hg⟩
  | true =>
    cases op <;> simp only [Op.isGrad] at hop <;> try (cases hop; done)
    case updateGrad t g =>
      simp only [Op.run, R.bind_eq_ok, Heap.node_eq_ok] at e
      obtain ⟨gn, hgn, e⟩ := e
      exact ⟨updateGrad_frame e, updateGrad_good e (getElem?_lt hgn) hg⟩
    case zeroGrad t =>
      obtain ⟨n, hn, rfl⟩ := zeroGrad_inv e
      exact ⟨Frame.set hn _, hg.set hn (by simp)⟩
    case backward l =>
      obtain ⟨n, d, us, _, _, _, _, e⟩ := backward_inv hg e
      exact ⟨applyUpdates_frame e, applyUpdates_good e hg⟩

theorem runOps_cons (h : Heap T) (op : Op T) (ops : List (Op T)) :
    runOps h (op :: ops) = (do let h ← op.run h; runOps h ops) := by
  simp [runOps]

theorem runOps_append (h : Heap T) (ops ops' : List (Op T)) :
    runOps h (ops ++ ops') = (do let h ← runOps h ops; runOps h ops') := by
  simp [runOps]

theorem runOps_frame {ops : List (Op T)} : ∀ {h h' : Heap T}, h.Good → runOps h ops = .ok h' → Frame h h' ∧ h'.Good := by
  induction ops with
  | nil => intro h h' hg e; cases e; exact ⟨Frame.refl _, hg⟩
  | cons op ops ih =>
    intro h h' hg e
    rw [runOps_cons, R.bind_eq_ok] at e
    obtain ⟨h1, e1, e2⟩ := e
    obtain ⟨f1, g1⟩ := op.run_frame hg e1
    obtain ⟨f2, g2⟩ := ih g1 e2
    exact ⟨f1.trans f2, g2⟩

theorem runOps_good {ops : List (Op T)} {h : Heap T} (e : runOps [] ops = .ok h) : h.Good :=
  (runOps_frame Heap.good_nil e).2

/-! ### termination -/

theorem foldlM_inv {σ α : Type _} {f g : σ → α → R σ} (I : σ → Prop) {l : List α}
    (hs : ∀ a ∈ l, ∀ s, I s → f s a = g s a ∧ ND (f s a) ∧ ∀ s', f s a = .ok s' → I s') :
    ∀ s, I s → l.foldlM f s = l.foldlM g s ∧ ND (l.foldlM f s) := by
  induction l with
  | nil => intro s _; exact ⟨rfl, ND.pure _⟩
  | cons a l ih =>
    intro s hI
    obtain ⟨h1, h2, h3⟩ := hs a (by simp) s hI
    have ih' := ih fun b hb => hs b (by simp [hb])
    rw [List.foldlM_cons, List.foldlM_cons, ← h1]
    cases hf : f s a with
    | error e => rw [hf] at h2; exact ⟨rfl, by simpa [ND] using h2⟩
    | ok s' => simpa using ih' s' (h3 s' hf)

theorem computeJvp_frame {h0 h h' : Heap T} {fuel : Nat} {d : Deriv} {gs : List (Raw T)} (hg : h0.Good) (hf : Frame h0 h)
    (hd : ∀ i ∈ d.inputs, i < h0.length) (e : computeJvp fuel h d gs = .ok h') : Frame h h' := by
  obtain ⟨us, _, h2⟩ := (computeJvp_ok hf hd hg).1 e
  exact applyUpdates_frame h2

/-- With fuel beyond the ids of the inputs the recursion neither runs out nor depends on the fuel. -/
theorem computeJvp_fuel {h0 : Heap T} (hg : h0.Good) : ∀ (fuel fuel' : Nat) {h : Heap T} {d : Deriv} {gs : List (Raw T)},
    Frame h0 h → (∀ i ∈ d.inputs, i < h0.length ∧ i < fuel ∧ i < fuel') →
    computeJvp (fuel + 1) h d gs = computeJvp (fuel' + 1) h d gs ∧ ND (computeJvp (fuel + 1) h d gs) := by
  intro fuel
  induction fuel with
  | zero =>
    intro fuel' h d gs hf hd
    have : d.inputs = [] := by
      cases hi : d.inputs with
      | nil => rfl
      | cons a l => have := hd a (by simp [hi]); omega
    unfold computeJvp
    simp only [this, List.zip_nil_right, List.foldlM_nil]
    exact ⟨trivial, ND.bind (ND.mapM (fun _ => ND.bind (ND.idx _ _) fun _ _ => ND.pure _) _) fun _ _ =>
      ND.bind (ND.applyJvp _ _ _) fun _ _ => ND.pure _⟩
  | succ fuel ih =>
    intro fuel' h d gs hf hd
    unfold computeJvp
    cases hv : d.inputs.mapM (fun i => do return (← h.node i).val) with
    | error e =>
      have : ND (d.inputs.mapM (fun i => do return (← h.node i).val)) :=
        ND.mapM (fun _ => ND.bind (ND.idx _ _) fun _ _ => ND.pure _) _
      rw [hv] at this
      exact ⟨rfl, by simpa [ND] using this⟩
    | ok vs =>
      simp only [R.bind_ok]
      cases hj : applyJvp d.kind vs gs with
      | error e =>
        have := ND.applyJvp d.kind vs gs
        rw [hj] at this
        exact ⟨rfl, by simpa [ND] using this⟩
      | ok sg =>
        simp only [R.bind_ok]
        refine foldlM_inv (Frame h0) ?_ h hf
        rintro ⟨grad, input⟩ hmem hh hfh
        obtain ⟨hin, hi1, hi2⟩ := hd input (List.of_mem_zip hmem).2
        have hn0 : h0[input]? = some h0[input] := List.getElem?_eq_getElem hin
        obtain ⟨gr, hn⟩ := hfh.get hn0
        have hnode : hh.node input = .ok { h0[input] with grad := gr } := Heap.node_eq_ok.2 hn
        simp only [hnode, R.bind_ok]
        cases hA : assertR (grad.array.length == h0[input].val.array.length) with
        | error e =>
          have := ND.assert (grad.array.length == h0[input].val.array.length)
          rw [hA] at this
          exact ⟨rfl, by simpa [ND] using this, by simp⟩
        | ok u =>
          simp only [R.bind_ok]
          cases hS : Raw.new grad.array h0[input].val.shape with
          | error e =>
            have := ND.new grad.array h0[input].val.shape
            rw [hS] at this
            exact ⟨rfl, by simpa [ND] using this, by simp⟩
          | ok sgr =>
            simp only [R.bind_ok]
            cases hU : updateGrad (hh.leaf sgr).1 input (hh.leaf sgr).2 with
            | error e =>
              have := ND.updateGrad (hh.leaf sgr).1 input (hh.leaf sgr).2
              rw [hU] at this
              exact ⟨rfl, by simpa [ND] using this, by simp⟩
            | ok h1 =>
              simp only [R.bind_ok]
              have hf1 : Frame h0 h1 := hfh.trans ((Frame.append hh _).trans (updateGrad_frame hU))
              cases hgf : h0[input].gradFn with
              | none => exact ⟨rfl, ND.pure _, fun s' hs => by cases hs; exact hf1⟩
              | some d' =>
                have hold := (hg input _ hn0).older d' hgf
                obtain ⟨k, rfl⟩ : ∃ k, fuel' = k + 1 := ⟨fuel' - 1, by omega⟩
                obtain ⟨e1, e2⟩ := ih k (h := h1) (d := d') (gs := [grad]) hf1 fun j hj => by
                  have := hold j hj; omega
                refine ⟨e1, e2, fun s' hs => hf1.trans (computeJvp_frame hg hf1 ?_ hs)⟩
                intro j hj
                have := hold j hj
                omega

theorem ND.backward {h : Heap T} (hg : h.Good) (l : Nat) : ND (RL.backward h l) := by
  unfold RL.backward
  refine ND.bind (ND.idx _ _) fun n hn => ND.bind (ND.assert _) fun _ _ => ND.bind (ND.unwrapO _) fun d hd => ?_
  refine (computeJvp_fuel hg h.length h.length (Frame.refl h) fun i hi => ?_).2
  have hn := Heap.node_eq_ok.1 hn
  have := (hg l n hn).older d (unwrapO_eq_ok.1 hd) i hi
  have := getElem?_lt hn
  omega

theorem ND.viewShape (l : List (SliceRange × Nat)) : ND (RL.viewShape l) := by
  induction l with
  | nil => exact ND.pure _
  | cons p l ih => exact ND.bind (ND.assert _) fun _ _ => ND.bind (ND.sub _ _) fun _ _ => ND.bind ih fun _ _ => ND.pure _

theorem ND.viewNew (t : Raw T) (r : List SliceRange) : ND (View.new t r) :=
  ND.bind (ND.assert _) fun _ _ => ND.bind (ND.viewShape _) fun _ _ => ND.pure _

theorem ND.vexpr (h : Heap T) (v : VExpr) : ND (v.eval h) := by
  induction v with
  | view t r => exact ND.bind (ND.idx _ _) fun _ _ => ND.viewNew _ _
  | reshape v s ih => exact ND.bind ih fun _ _ => ND.bind (ND.assert _) fun _ _ => ND.pure _
  | slice v r ih => exact ND.bind ih fun _ _ => ND.viewNew _ _

theorem ND.opnd (h : Heap T) (x : Opnd) : ND (x.eval h) := by
  cases x with
  | tensor t => exact ND.bind (ND.idx _ _) fun _ _ => ND.pure _
  | view v => exact ND.bind (ND.vexpr h v) fun _ _ => ND.pure _

theorem ND.rawBin (k : RawBin) (l r : TL T) : ND (k.val l r) := by
  cases k with
  | add => exact ND.genericBinopRaw _ _ _
  | mul => exact ND.elementWiseMul _ _
  | dot => exact ND.dotRaw _ _
  | bmm => exact ND.bmmRaw _ _

theorem ND.opRun {h : Heap T} (hg : h.Good) (op : Op T) : ND (op.run h) := by
  have hn : ∀ i, ND (h.node i) := fun i => ND.idx _ _
  have hv : ∀ v, ND (VExpr.eval h v) := ND.vexpr h
  have hadd : ∀ (h' : Heap T) l r, ND (addT h' l r) := fun h' l r =>
    ND.bind (ND.idx _ _) fun _ _ => ND.bind (ND.idx _ _) fun _ _ => ND.bind (ND.genericBinopRaw _ _ _) fun _ _ => ND.pure _
  cases op with
  | new a s => exact ND.bind (ND.new _ _) fun _ _ => ND.pure _
  | filler s v => exact ND.pure _
  | scalar v => exact ND.pure _
  | default => exact ND.pure _
  | add l r => exact ND.bind (hadd _ _ _) fun _ _ => ND.pure _
  | sub l r =>
    exact ND.bind (ND.bind (ND.bind (hn _) fun _ _ => ND.bind (ND.genericUnaryOp _ _) fun _ _ => ND.pure _)
      fun _ _ => hadd _ _ _) fun _ _ => ND.pure _
  | neg t => exact ND.bind (ND.bind (hn _) fun _ _ => ND.bind (ND.genericUnaryOp _ _) fun _ _ => ND.pure _) fun _ _ => ND.pure _
  | relu t => exact ND.bind (ND.bind (hn _) fun _ _ => ND.bind (ND.genericUnaryOp _ _) fun _ _ => ND.pure _) fun _ _ => ND.pure _
  | tanh t => exact ND.bind (ND.bind (hn _) fun _ _ => ND.bind (ND.genericUnaryOp _ _) fun _ _ => ND.pure _) fun _ _ => ND.pure _
  | abs t => exact ND.bind (ND.bind (hn _) fun _ _ => ND.bind (ND.genericUnaryOp _ _) fun _ _ => ND.pure _) fun _ _ => ND.pure _
  | mul l r =>
    exact ND.bind (ND.bind (hn _) fun _ _ => ND.bind (hn _) fun _ _ => ND.bind (ND.mulRaw _ _) fun _ _ => ND.pure _)
      fun _ _ => ND.pure _
  | sum t => exact ND.bind (ND.bind (hn _) fun _ _ => ND.bind (ND.tlSum _) fun _ _ => ND.pure _) fun _ _ => ND.pure _
  | bmm l r =>
    exact ND.bind (ND.bind (hn _) fun _ _ => ND.bind (hn _) fun _ _ => ND.bind (ND.bmmRaw _ _) fun _ _ => ND.pure _)
      fun _ _ => ND.pure _
  | dot l r =>
    exact ND.bind (ND.bind (hn _) fun _ _ => ND.bind (hn _) fun _ _ => ND.bind (ND.dotRaw _ _) fun _ _ => ND.pure _)
      fun _ _ => ND.pure _
  | viewToTensor v =>
    exact ND.bind (ND.bind (hv _) fun _ _ => ND.bind (ND.toTensor _) fun _ _ => ND.pure _) fun _ _ => ND.pure _
  | viewSum v => exact ND.bind (ND.bind (hv _) fun _ _ => ND.bind (ND.tlSum _) fun _ _ => ND.pure _) fun _ _ => ND.pure _
  | bmmView l v =>
    exact ND.bind (ND.bind (hn _) fun _ _ => ND.bind (hv _) fun _ _ => ND.bind (ND.bmmRaw _ _) fun _ _ =>
      ND.bind (ND.toTensor _) fun _ _ => ND.pure _) fun _ _ => ND.pure _
  | viewBmm v r =>
    exact ND.bind (ND.bind (hv _) fun _ _ => ND.bind (hn _) fun _ _ => ND.bind (ND.bmmRaw _ _) fun _ _ => ND.pure _)
      fun _ _ => ND.pure _
  | viewBmmView v w =>
    exact ND.bind (ND.bind (hv _) fun _ _ => ND.bind (hv _) fun _ _ => ND.bind (ND.bmmRaw _ _) fun _ _ => ND.pure _)
      fun _ _ => ND.pure _
  | mulView l v =>
    exact ND.bind (ND.bind (hn _) fun _ _ => ND.bind (hv _) fun _ _ => ND.bind (ND.mulRaw _ _) fun _ _ => ND.pure _)
      fun _ _ => ND.pure _
  | rawBin k l r =>
    exact ND.bind (ND.bind (ND.opnd h _) fun _ _ => ND.bind (ND.opnd h _) fun _ _ => ND.bind (ND.rawBin _ _ _) fun _ _ => ND.pure _)
      fun _ _ => ND.pure _
  | rawSub l r =>
    exact ND.bind (ND.bind (hn _) fun _ _ => ND.bind (hn _) fun _ _ => ND.bind (ND.bind (ND.genericUnaryOp _ _) fun _ _ =>
      ND.genericBinopRaw _ _ _) fun _ _ => ND.pure _) fun _ _ => ND.pure _
  | rawUnary f x =>
    exact ND.bind (ND.bind (ND.opnd h _) fun _ _ => ND.bind (ND.genericUnaryOp _ _) fun _ _ => ND.pure _) fun _ _ => ND.pure _
  | leftMul s x => exact ND.bind (ND.bind (ND.opnd h _) fun _ _ => ND.pure _) fun _ _ => ND.pure _
  | rightMul x s => exact ND.bind (ND.bind (ND.opnd h _) fun _ _ => ND.pure _) fun _ _ => ND.pure _
  | rawSum t => exact ND.bind (ND.bind (hn _) fun _ _ => ND.bind (ND.tlSum _) fun _ _ => ND.pure _) fun _ _ => ND.pure _
  | deepClone t => exact ND.bind (ND.bind (hn _) fun _ _ => ND.pure _) fun _ _ => ND.pure _
  | rawClone t => exact ND.bind (ND.bind (hn _) fun _ _ => ND.pure _) fun _ _ => ND.pure _
  | updateGrad t g => exact ND.bind (hn _) fun _ _ => ND.updateGrad _ _ _
  | zeroGrad t => exact ND.bind (hn _) fun _ _ => ND.pure _
  | backward t => exact ND.backward hg t

theorem ND.runOps {ops : List (Op T)} : ∀ {h : Heap T}, h.Good → ND (RL.runOps h ops) := by
  induction ops with
  | nil => intro h _; exact ND.pure _
  | cons op ops ih =>
    intro h hg
    rw [runOps_cons]
    exact ND.bind (ND.opRun hg op) fun h1 e => ih (op.run_frame hg e).2

end RL
