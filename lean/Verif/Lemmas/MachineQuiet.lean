import Verif.Lemmas.Machine
import Verif.Model.MachineTrain

/-!
# Helper lemmas: no overflow panics and no `debug_assert` panics without overflow checks
-/

namespace RL

/-- neither an overflow nor a failed `debug_assert` -/
def Quiet {α : Type _} (x : R α) : Prop := x ≠ R.panic .overflow ∧ x ≠ R.panic .debugAssert

variable {α β σ : Type _}

theorem Quiet.ok (a : α) : Quiet (.ok a : R α) := ⟨nofun, nofun⟩

theorem Quiet.pure (a : α) : Quiet (Pure.pure a : R α) := ⟨nofun, nofun⟩

theorem Quiet.panic {p : Panic} (hp : p ≠ .overflow ∧ p ≠ .debugAssert) : Quiet (R.panic p : R α) :=
  ⟨fun h => hp.1 (by cases h; rfl), fun h => hp.2 (by cases h; rfl)⟩

theorem Quiet.err (e : IdxErr) : Quiet (R.err e : R α) := ⟨nofun, nofun⟩

theorem Quiet.bind {x : R α} {f : α → R β} (hx : Quiet x) (hf : ∀ a, Quiet (f a)) : Quiet (x >>= f) := by
  cases x with
  | ok a => exact hf a
  | error e => exact ⟨fun h => hx.1 (by cases h; rfl), fun h => hx.2 (by cases h; rfl)⟩

theorem Quiet.assertR (c : Bool) : Quiet (assertR c) := by cases c <;> exact ⟨nofun, nofun⟩

theorem Quiet.unwrapR {x : R α} (hx : Quiet x) : Quiet (unwrapR x) := by
  cases x with
  | ok a => exact ⟨nofun, nofun⟩
  | error e =>
    cases e with
    | err e => exact ⟨nofun, nofun⟩
    | panic p => exact hx

theorem Quiet.idxR (l : List α) (i : Nat) : Quiet (idxR l i) := by
  rw [RL.idxR]
  split <;> exact ⟨nofun, nofun⟩

theorem Quiet.unwrapO (o : Option α) : Quiet (unwrapO o) := by cases o <;> exact ⟨nofun, nofun⟩

theorem Quiet.foldlM {f : β → α → R β} (hf : ∀ b a, Quiet (f b a)) : ∀ (l : List α) (b : β), Quiet (l.foldlM f b) := by
  intro l
  induction l with
  | nil => intro b; exact .pure b
  | cons a l ih => intro b; rw [List.foldlM_cons]; exact (hf b a).bind ih

theorem Quiet.mapM {f : α → R β} (hf : ∀ a, Quiet (f a)) (l : List α) : Quiet (l.mapM f) := by
  induction l with
  | nil => exact .pure _
  | cons a l ih => rw [List.mapM_cons]; exact (hf a).bind fun b => ih.bind fun bs => .pure _

theorem Quiet.node {T : Type} (h : Heap T) (i : Nat) : Quiet (h.node i) := by
  rw [Heap.node]
  exact .idxR _ _

theorem Quiet.mulU (a b : Nat) : Quiet (mulU .release a b) := by
  rw [RL.mulU, wrapU]; split <;> exact .ok _

theorem Quiet.addU (a b : Nat) : Quiet (addU .release a b) := by
  rw [RL.addU, wrapU]; split <;> exact .ok _

theorem Quiet.subU (a b : Nat) : Quiet (subU .release a b) := by
  rw [RL.subU]; split <;> exact .ok _

theorem Quiet.debugAssertR (c : Bool) : Quiet (debugAssertR .release c) := .ok _

theorem Quiet.prodU (s : List Nat) : Quiet (prodU .release s) := .foldlM (fun a b => .mulU a b) _ _

/-- steps through a `do` block -/
macro "quiet" "[" ts:term,* "]" : tactic => do
  let alts ← ts.getElems.mapM fun t => `(tactic| exact $t)
  `(tactic| repeat' first
    | exact Quiet.pure _ | exact Quiet.ok _ | exact Quiet.err _ | exact Quiet.assertR _ | exact Quiet.idxR _ _ | exact Quiet.unwrapO _
    | exact Quiet.node _ _ | exact Quiet.mulU _ _ | exact Quiet.addU _ _ | exact Quiet.subU _ _ | exact Quiet.debugAssertR _ | exact Quiet.prodU _
    $[| $alts:tactic]* | refine Quiet.panic (by decide)
    | refine Quiet.unwrapR ?_ | refine Quiet.foldlM (fun _ _ => ?_) _ _ | refine Quiet.mapM (fun _ => ?_) _
    | refine Quiet.bind ?_ (fun _ => ?_) | split | dsimp only)

variable {T : Type}

theorem newU_quiet (a : List T) (s : List Nat) : Quiet (Raw.newU .release a s) := by
  rw [Raw.newU]
  quiet []

theorem newWithFillerU_quiet (s : List Nat) (x : T) : Quiet (Raw.newWithFillerU .release s x) := by
  rw [Raw.newWithFillerU]
  quiet []

theorem incrementLoopU_quiet (index shape : List Nat) : ∀ i, Quiet (incrementLoopU .release index shape i)
  | 0 => .pure _
  | i + 1 => by
    rw [incrementLoopU]
    quiet [incrementLoopU_quiet index shape i]

theorem incrementIndexU_quiet (index shape : List Nat) : Quiet (incrementIndexU .release index shape) := incrementLoopU_quiet _ _ _

theorem globalIndexLoopU_quiet (l : Nat) (o : Option (List SliceRange)) : ∀ zs n g m, Quiet (globalIndexLoopU .release l o zs n g m)
  | [], _, _, _ => .pure _
  | (d, i) :: zs, n, g, m => by
    rw [globalIndexLoopU]
    quiet [globalIndexLoopU_quiet l _ zs _ _ _]

theorem globalIndexU_quiet (i s : List Nat) (o : Option (List SliceRange)) : Quiet (globalIndexU .release i s o) := by
  rw [globalIndexU]
  quiet [globalIndexLoopU_quiet _ _ _ _ _ _]

theorem rawGetU_quiet (t : Raw T) (i : List Nat) : Quiet (t.getU .release i) := by
  rw [Raw.getU]
  quiet [globalIndexU_quiet _ _ _]

theorem viewShapeU_quiet : ∀ zs, Quiet (viewShapeU .release zs)
  | [] => .pure _
  | (r, d) :: zs => by
    rw [viewShapeU]
    quiet [viewShapeU_quiet zs]

theorem viewNewU_quiet (t : Raw T) (o : List SliceRange) : Quiet (View.newU .release t o) := by
  rw [View.newU]
  quiet [viewShapeU_quiet _]

theorem viewReshapeU_quiet (v : View T) (s : List Nat) : Quiet (v.reshapeU .release s) := by
  rw [View.reshapeU]
  quiet []

theorem viewGetU_quiet (v : View T) (i : List Nat) : Quiet (v.getU .release i) := by
  rw [View.getU]
  quiet [globalIndexU_quiet _ _ _]

theorem getU_quiet (x : TL T) (i : List Nat) : Quiet (x.getU .release i) := by
  cases x <;> rw [TL.getU]
  · exact rawGetU_quiet _ _
  · exact viewGetU_quiet _ _

theorem setU_quiet (t : Raw T) (i : List Nat) (v : T) : Quiet (t.setU .release i v) := by
  rw [Raw.setU]
  quiet [globalIndexU_quiet _ _ _]

theorem atU_quiet (t : Raw T) (i : List Nat) : Quiet (t.atU .release i) := (rawGetU_quiet _ _).unwrapR

theorem nextU_quiet (it : IndexIter) : Quiet (it.nextU .release) := by
  rw [IndexIter.nextU]
  quiet [incrementIndexU_quiet _ _]

theorem iterLoopU_quiet {body : σ → List Nat → R σ} (hb : ∀ s i, Quiet (body s i)) : ∀ fuel it s, Quiet (iterLoopU .release body fuel it s)
  | 0, _, _ => ⟨nofun, nofun⟩
  | fuel + 1, it, s => by
    rw [iterLoopU]
    quiet [nextU_quiet _, hb _ _, iterLoopU_quiet hb fuel _ _]

theorem forIndicesU_quiet {body : σ → List Nat → R σ} (hb : ∀ s i, Quiet (body s i)) (d : List Nat) (s : σ) :
    Quiet (forIndicesU .release d s body) := iterLoopU_quiet hb _ _ _

theorem forElemsU_quiet {body : σ → T → R σ} (hb : ∀ s i, Quiet (body s i)) (x : TL T) (s : σ) : Quiet (forElemsU .release x s body) :=
  forIndicesU_quiet (fun s i => by quiet [getU_quiet _ _, hb _ _]) _ _

theorem toTensorU_quiet (x : TL T) : Quiet (x.toTensorU .release) := by
  cases x <;> rw [TL.toTensorU]
  · exact .pure _
  · quiet [forElemsU_quiet (fun _ _ => .pure _) _ _, newU_quiet _ _]

theorem sumU_quiet [Zero T] [Add T] (x : TL T) : Quiet (x.sumU .release) := by
  cases x <;> rw [TL.sumU]
  · exact .pure _
  · quiet [forElemsU_quiet (fun _ _ => .pure _) _ _]

theorem getFirstElemU_quiet (x : TL T) : Quiet (x.getFirstElemU .release) := (getU_quiet _ _).unwrapR

theorem leftScalarMulU_quiet [Mul T] (x : TL T) (s : T) : Quiet (x.leftScalarMulU .release s) := by
  rw [TL.leftScalarMulU]
  quiet []

theorem rightScalarMulU_quiet [Mul T] (x : TL T) (s : T) : Quiet (x.rightScalarMulU .release s) := by
  rw [TL.rightScalarMulU]
  quiet []

theorem genericBinopRawU_quiet [Zero T] (l r : TL T) (op : T → T → T) : Quiet (genericBinopRawU .release l r op) := by
  rw [genericBinopRawU]
  quiet [newWithFillerU_quiet _ _, forIndicesU_quiet (fun _ _ => by quiet [getU_quiet _ _, setU_quiet _ _ _]) _ _]

theorem addRawU_quiet [Zero T] [Add T] (l r : TL T) : Quiet (addRawU .release l r) := genericBinopRawU_quiet _ _ _

theorem genericUnaryOpU_quiet (x : TL T) (op : T → T) : Quiet (genericUnaryOpU .release x op) := by
  rw [genericUnaryOpU]
  quiet [toTensorU_quiet _, getU_quiet _ _, incrementIndexU_quiet _ _, newU_quiet _ _]

theorem subRawU_quiet [Zero T] [Add T] [Neg T] (l r : TL T) : Quiet (subRawU .release l r) := by
  rw [subRawU, negRawU]
  quiet [genericUnaryOpU_quiet _ _, addRawU_quiet _ _]

theorem elementWiseMulU_quiet [Mul T] (l r : TL T) : Quiet (elementWiseMulU .release l r) := by
  rw [elementWiseMulU]
  quiet [forIndicesU_quiet (fun _ _ => by quiet [getU_quiet _ _]) _ _, newU_quiet _ _]

theorem mulRawU_quiet [Mul T] (l : Raw T) (r : TL T) : Quiet (mulRawU .release l r) := by
  rw [mulRawU]
  quiet [leftScalarMulU_quiet _ _, rightScalarMulU_quiet _ _, getFirstElemU_quiet _, elementWiseMulU_quiet _ _]

theorem bmmChecks_quiet (l r : TL T) : Quiet (bmmChecks l r) := by
  rw [bmmChecks]
  quiet []

theorem bmmShape_quiet (l r : TL T) : Quiet (bmmShape l r) := by
  rw [bmmShape]
  quiet []

theorem bmmEntryU_quiet [Zero T] [Add T] [Mul T] (l r : TL T) (li ri : List Nat) (n j : Nat) : Quiet (bmmEntryU .release l r li ri n j) := by
  rw [bmmEntryU]
  quiet [getU_quiet _ _]

theorem bmmRawU_quiet [Zero T] [Add T] [Mul T] (l r : TL T) : Quiet (bmmRawU .release l r) := by
  rw [bmmRawU]
  quiet [bmmChecks_quiet _ _, bmmShape_quiet _ _, bmmEntryU_quiet _ _ _ _ _ _]

theorem addAt_quiet [Add T] (a : List T) (i : Nat) (v : T) : Quiet (addAt a i v) := by
  rw [addAt]
  quiet []

theorem diagLoopU_quiet [Add T] [Mul T] (d : Raw T) (js bs is : List Nat) (g : Raw T) (d0 : Nat) :
    ∀ fuel idx oi a, Quiet (diagLoopU .release d js bs is g d0 fuel idx oi a)
  | 0, _, _, _ => ⟨nofun, nofun⟩
  | fuel + 1, idx, oi, a => by
    rw [diagLoopU]
    quiet [globalIndexU_quiet _ _ _, atU_quiet _ _, addAt_quiet _ _ _, incrementIndexU_quiet _ _, diagLoopU_quiet d js bs is g d0 fuel _ _ _]

theorem jvpFromDiagonalBroadcastU_quiet [Zero T] [Add T] [Mul T] (d : Raw T) (js bs is : List Nat) (g : Raw T) :
    Quiet (jvpFromDiagonalBroadcastU .release d js bs is g) := by
  rw [jvpFromDiagonalBroadcastU]
  quiet [diagLoopU_quiet _ _ _ _ _ _ _ _ _ _, newU_quiet _ _]

theorem gradDim0_quiet (g : Raw T) : Quiet (gradDim0 g) := by
  rw [gradDim0]
  quiet []

theorem genericBinopJvpU_quiet [Zero T] [Add T] [Mul T] (l r g : Raw T) (op : T → T → T) : Quiet (genericBinopJvpU .release l r g op) := by
  rw [genericBinopJvpU]
  quiet [gradDim0_quiet _, forIndicesU_quiet (fun _ _ => by quiet [rawGetU_quiet _ _]) _ _, newU_quiet _ _, jvpFromDiagonalBroadcastU_quiet _ _ _ _ _]

theorem genericUnaryJvpU_quiet [Zero T] [Add T] [Mul T] (t g : Raw T) (op : T → T) : Quiet (genericUnaryJvpU .release t g op) := by
  rw [genericUnaryJvpU]
  quiet [gradDim0_quiet _, forIndicesU_quiet (fun _ _ => by quiet [rawGetU_quiet _ _]) _ _, newU_quiet _ _, jvpFromDiagonalBroadcastU_quiet _ _ _ _ _]

theorem tanhJacobianU_quiet [Zero T] [One T] [Sub T] [RealFn T] (t : Raw T) : Quiet (tanhJacobianU .release t) := by
  rw [tanhJacobianU]
  quiet [newU_quiet _ _]

theorem oneElemU_quiet (t : Raw T) : Quiet (oneElemU .release t) := by
  rw [oneElemU]
  quiet []

theorem jvpFromFullJacobiansU_quiet [Zero T] [Add T] [Mul T] (l r : Raw T) : Quiet (jvpFromFullJacobiansU .release l r) := by
  rw [jvpFromFullJacobiansU]
  quiet [oneElemU_quiet _, mulRawU_quiet _ _, bmmRawU_quiet _ _]

theorem senderOf_quiet (l g : Nat) : Quiet (senderOf l g) := by
  rw [senderOf]
  quiet []

theorem segmentWriteU_quiet [Add T] (a : List T) (s g : Nat) (v : T) : Quiet (segmentWriteU .release a s g v) := by
  rw [segmentWriteU]
  quiet [addAt_quiet _ _ _]

theorem bmmJvpShapesU_quiet (a b j : Raw T) : Quiet (bmmJvpShapesU .release a b j) := by
  rw [bmmJvpShapesU]
  quiet []

theorem bmmJvpTaskU_quiet [Mul T] (a b jac : Raw T) (sh : BmmJvpShapes) (i k j : Nat) : Quiet (bmmJvpTaskU .release a b jac sh i k j) := by
  rw [bmmJvpTaskU]
  quiet [globalIndexU_quiet _ _ _, atU_quiet _ _]

theorem bmmJvpTasksU_quiet [Mul T] (a b jac : Raw T) (sh : BmmJvpShapes) : Quiet (bmmJvpTasksU .release a b jac sh) := by
  rw [bmmJvpTasksU]
  quiet [bmmJvpTaskU_quiet _ _ _ _ _ _ _]

theorem deliverU_quiet [Add T] (a : List T × List T) (m : Msg T) : Quiet (deliverU .release a m) := by
  rw [deliverU]
  quiet [senderOf_quiet _ _, segmentWriteU_quiet _ _ _ _]

theorem bmmJvpU_quiet [Zero T] [Add T] [Mul T] (is js : List (Raw T)) : Quiet (bmmJvpU .release is js) := by
  rw [bmmJvpU]
  quiet [bmmJvpShapesU_quiet _ _ _, bmmJvpTasksU_quiet _ _ _ _, deliverU_quiet _ _, newU_quiet _ _]

theorem unaryTU_quiet (h : Heap T) (t : Nat) (f : T → T) (k : JvpKind) : Quiet (unaryTU .release h t f k) := by
  rw [unaryTU]
  quiet [genericUnaryOpU_quiet _ _]

theorem addTU_quiet [Zero T] [Add T] (h : Heap T) (l r : Nat) : Quiet (addTU .release h l r) := by
  rw [addTU]
  quiet [addRawU_quiet _ _]

theorem subTU_quiet [Zero T] [Add T] [Neg T] (h : Heap T) (l r : Nat) : Quiet (subTU .release h l r) := by
  rw [subTU, negTU]
  quiet [unaryTU_quiet _ _ _ _, addTU_quiet _ _ _]

theorem sumTU_quiet [Zero T] [One T] [Add T] (h : Heap T) (t : Nat) (g : Option Deriv) : Quiet (sumTU .release h t g) := by
  rw [sumTU]
  quiet [sumU_quiet _, newWithFillerU_quiet _ _]

theorem bmmTU_quiet [Zero T] [Add T] [Mul T] (h : Heap T) (l r : Nat) : Quiet (bmmTU .release h l r) := by
  rw [bmmTU]
  quiet [bmmRawU_quiet _ _]

theorem mulTU_quiet [Mul T] (h : Heap T) (l r : Nat) : Quiet (mulTU .release h l r) := by
  rw [mulTU]
  quiet [mulRawU_quiet _ _]

theorem vexprU_quiet (h : Heap T) : ∀ v : VExpr, Quiet (v.evalU .release h)
  | .view t o => by
    rw [VExpr.evalU]
    quiet [viewNewU_quiet _ _]
  | .reshape v s => by
    rw [VExpr.evalU]
    quiet [vexprU_quiet h v, viewReshapeU_quiet _ _]
  | .slice v o => by
    rw [VExpr.evalU]
    quiet [vexprU_quiet h v, viewNewU_quiet _ _]

theorem opndU_quiet (h : Heap T) (o : Opnd) : Quiet (o.evalU .release h) := by
  cases o <;> rw [Opnd.evalU]
  · quiet []
  · quiet [vexprU_quiet _ _]

theorem bmmViewTU_quiet [Zero T] [Add T] [Mul T] (h : Heap T) (l : Nat) (v : VExpr) : Quiet (bmmViewTU .release h l v) := by
  rw [bmmViewTU]
  quiet [vexprU_quiet _ _, bmmRawU_quiet _ _, toTensorU_quiet _]

theorem dotRaw_quiet [Zero T] [Add T] [Mul T] (l r : TL T) : Quiet (dotRaw l r) := by
  rw [dotRaw]
  quiet []

theorem rawBinU_quiet [Zero T] [Add T] [Mul T] (k : RawBin) (l r : TL T) : Quiet (k.valU .release l r) := by
  cases k <;> rw [RawBin.valU]
  · exact addRawU_quiet _ _
  · exact elementWiseMulU_quiet _ _
  · exact dotRaw_quiet _ _
  · exact bmmRawU_quiet _ _

theorem updateGradU_quiet [Zero T] [Add T] (h : Heap T) (t g : Nat) : Quiet (updateGradU .release h t g) := by
  rw [updateGradU]
  quiet [addTU_quiet _ _ _]

section

variable [Zero T] [One T] [Add T] [Mul T] [Sub T] [Neg T] [LT T] [DecidableLT T] [LE T] [DecidableLE T] [RealFn T]

theorem applyJvpU_quiet (k : JvpKind) (is gs : List (Raw T)) : Quiet (applyJvpU .release k is gs) := by
  cases k <;> rw [applyJvpU]
  · rw [addJvpU]; quiet [genericBinopJvpU_quiet _ _ _ _]
  · rw [negJvpU]; quiet [genericUnaryJvpU_quiet _ _ _]
  · rw [reluJvpU]; quiet [genericUnaryJvpU_quiet _ _ _]
  · rw [absJvpU]; quiet [genericUnaryJvpU_quiet _ _ _]
  · rw [tanhJvpU]; quiet [tanhJacobianU_quiet _, jvpFromFullJacobiansU_quiet _ _]
  · rw [onesJvpU]; quiet [newWithFillerU_quiet _ _]
  · exact bmmJvpU_quiet _ _
  · rw [dotJvpU]; quiet [jvpFromFullJacobiansU_quiet _ _]

theorem computeJvpU_quiet : ∀ fuel (h : Heap T) d gs, Quiet (computeJvpU .release fuel h d gs)
  | 0, _, _, _ => ⟨nofun, nofun⟩
  | fuel + 1, h, d, gs => by
    rw [computeJvpU]
    quiet [applyJvpU_quiet _ _ _, newU_quiet _ _, updateGradU_quiet _ _ _, computeJvpU_quiet fuel _ _ _]

theorem backwardU_quiet (h : Heap T) (t : Nat) : Quiet (backwardU .release h t) := by
  rw [backwardU]
  quiet [computeJvpU_quiet _ _ _ _]

theorem zeroGrad_quiet (h : Heap T) (t : Nat) : Quiet (zeroGrad h t) := by
  rw [zeroGrad]
  quiet []

theorem runU_quiet (h : Heap T) (op : Op T) : Quiet (op.runU .release h) := by
  have get : ∀ {x : R (Heap T × Nat)}, Quiet x → Quiet (do return (← x).1) := fun hx => hx.bind fun _ => .pure _
  have leaf : ∀ {x : R (Raw T)}, Quiet x → Quiet (do return (h.leaf (← x)).1) := fun hx => hx.bind fun _ => .pure _
  cases op with
  | new a s => exact leaf (newU_quiet _ _)
  | filler s v => exact leaf (newWithFillerU_quiet _ _)
  | scalar v => exact .pure _
  | default => exact .pure _
  | add l r => exact get (addTU_quiet _ _ _)
  | sub l r => exact get (subTU_quiet _ _ _)
  | neg t => exact get (unaryTU_quiet _ _ _ _)
  | mul l r => exact get (mulTU_quiet _ _ _)
  | relu t => exact get (unaryTU_quiet _ _ _ _)
  | tanh t => exact get (unaryTU_quiet _ _ _ _)
  | abs t => exact get (unaryTU_quiet _ _ _ _)
  | sum t => exact get (sumTU_quiet _ _ _)
  | bmm l r => exact get (bmmTU_quiet _ _ _)
  | dot l r => exact get (by rw [dotT]; quiet [dotRaw_quiet _ _])
  | viewToTensor v => exact (vexprU_quiet _ _).bind fun _ => leaf (toTensorU_quiet _)
  | viewSum v => exact (vexprU_quiet _ _).bind fun _ => leaf (sumU_quiet _)
  | bmmView l v => exact get (bmmViewTU_quiet _ _ _)
  | viewBmm v r => exact (vexprU_quiet _ _).bind fun _ => (Quiet.node _ _).bind fun _ => leaf (bmmRawU_quiet _ _)
  | viewBmmView v w => exact (vexprU_quiet _ _).bind fun _ => (vexprU_quiet _ _).bind fun _ => leaf (bmmRawU_quiet _ _)
  | mulView l v => exact (Quiet.node _ _).bind fun _ => (vexprU_quiet _ _).bind fun _ => leaf (mulRawU_quiet _ _)
  | rawBin k l r => exact (opndU_quiet _ _).bind fun _ => (opndU_quiet _ _).bind fun _ => leaf (rawBinU_quiet _ _ _)
  | rawSub l r => exact (Quiet.node _ _).bind fun _ => (Quiet.node _ _).bind fun _ => leaf (subRawU_quiet _ _)
  | rawUnary f x => exact (opndU_quiet _ _).bind fun _ => leaf (genericUnaryOpU_quiet _ _)
  | leftMul s x => exact (opndU_quiet _ _).bind fun _ => leaf (leftScalarMulU_quiet _ _)
  | rightMul x s => exact (opndU_quiet _ _).bind fun _ => leaf (rightScalarMulU_quiet _ _)
  | rawSum t => exact get (sumTU_quiet _ _ _)
  | deepClone t => exact get (by rw [deepCloneT]; quiet [])
  | rawClone t => exact get (by rw [rawCloneT]; quiet [])
  | updateGrad t g => exact (Quiet.node _ _).bind fun _ => updateGradU_quiet _ _ _
  | zeroGrad t => exact zeroGrad_quiet _ _
  | backward t => exact backwardU_quiet _ _

theorem runOpsU_quiet (h : Heap T) (ops : List (Op T)) : Quiet (runOpsU .release h ops) := .foldlM runU_quiet _ _

end

end RL
