import Verif.Model.Graph

/-!
# Model of reference counting

`RcTensor` is an `Arc<RawTensor>` (`/repo/src/tensor/rc_tensor.rs` 27-28). A `RawTensor` owns the `RcTensor`s in `grad` and in the
inputs of `grad_fn` (`raw_tensor.rs` 40-49, `autograd/jvp.rs` 6-12); there are no weak references and no own `Drop`. Tensors of
the graph model are never freed; here each of them gets the strong count of its `Arc`, and is freed when the count reaches zero. What
a freed tensor contained stays in `heap`, so that the states can be compared with those of the graph model.
-/

namespace RL

variable {T : Type}

/-- the tensor a view is made from -/
def VExpr.base : VExpr → Nat
  | .view t _ => t
  | .reshape v _ | .slice v _ => v.base

/-- the tensor an operand is or is made from -/
def Opnd.base : Opnd → Nat
  | .tensor t => t
  | .view v => v.base

/-- The tensors an operation is applied to. -/
def Op.ids : Op T → List Nat
  | .new _ _ | .filler _ _ | .scalar _ | .default => []
  | .add l r | .sub l r | .mul l r | .bmm l r | .dot l r => [l, r]
  | .neg t | .relu t | .tanh t | .abs t | .sum t | .deepClone t | .rawClone t | .zeroGrad t | .backward t => [t]
  | .viewToTensor v | .viewSum v => [v.base]
  | .bmmView l v | .mulView l v => [l, v.base]
  | .viewBmm v r => [v.base, r]
  | .viewBmmView v w => [v.base, w.base]
  | .rawBin _ l r => [l.base, r.base]
  | .rawSub l r => [l, r]
  | .rawUnary _ x | .leftMul _ x | .rightMul x _ => [x.base]
  | .rawSum t => [t]
  | .updateGrad t g => [t, g]

/-- The `RcTensor`s a `RawTensor` owns, in the order in which they are dropped (the order of the fields). -/
def Node.refs (n : Node T) : List Nat := n.grad.toList ++ (match n.gradFn with
  | some d => d.inputs
  | none => [])

/-- Heap, strong counts and the `RcTensor`s the program owns (in variables, in views and inside of running functions). -/
structure Mem (T : Type) where
  heap : Heap T
  count : Nat → Nat
  held : List Nat

/-- The start of a program. -/
def Mem.empty : Mem T := ⟨[], fun _ => 0, []⟩

/-- `Arc::clone` and creation of a reference. -/
def retain (c : Nat → Nat) (i : Nat) : Nat → Nat := fun j => if j = i then c j + 1 else c j

/-- Drop of `Arc`s: the count decreases; if it reaches zero, the tensor is freed and what it owns is dropped at once, by a recursive
call. `work` are the references still to be dropped with the depth of the call that drops them; the result contains the greatest
depth. The two panics would be a count that is already zero or an endless loop (C67: neither happens). -/
def release (h : Heap T) : Nat → (Nat → Nat) → List (Nat × Nat) → Nat → R ((Nat → Nat) × Nat)
  | _, c, [], deep => return (c, deep)
  | 0, _, _ :: _, _ => R.panic .diverge
  | fuel + 1, c, (i, depth) :: work, deep => do
    assertR (0 < c i)
    let n ← h.node i
    let c' : Nat → Nat := fun j => if j = i then c j - 1 else c j
    if c' i = 0 then
      release h fuel c' (n.refs.map (·, depth + 1) ++ work) (max deep depth)
    else
      release h fuel c' work (max deep depth)

/-- Drop one reference to `i` that is not in `held` any more. Every call of `release` lowers the sum of all counts. -/
def Mem.releaseOne (m : Mem T) (i : Nat) : R (Mem T × Nat) := do
  let (c, deep) ← release m.heap ((List.range m.heap.length).map m.count).sum m.count [(i, 0)] 0
  return ({ m with count := c }, deep)

/-- `Arc::new`: the new tensor owns its references, the program owns the new tensor. -/
def Mem.alloc (m : Mem T) (n : Node T) : Mem T :=
  { heap := m.heap ++ [n], count := retain (n.refs.foldl retain m.count) m.heap.length, held := m.heap.length :: m.held }

/-- End of the life of an `RcTensor`. -/
def Mem.drop (m : Mem T) (i : Nat) : R (Mem T × Nat) := do
  assertR (m.held.contains i)
  { m with held := m.held.erase i }.releaseOne i

/-- `*self.grad.write().unwrap() = g`: `g` is moved into the tensor, the old value is dropped. -/
def Mem.setGrad (m : Mem T) (t : Nat) (g : Option Nat) : R (Mem T) := do
  let n ← m.heap.node t
  let m' : Mem T := { m with heap := m.heap.set t { n with grad := g }, held := g.toList.foldl List.erase m.held }
  match n.grad with
  | none => return m'
  | some old => return (← m'.releaseOne old).1

/-- `update_grad`: `/repo/src/tensor/raw_tensor.rs` 307-313; `grad` is moved into it. -/
def Mem.updateGrad [Zero T] [Add T] (m : Mem T) (t grad : Nat) : R (Mem T) := do
  let n ← m.heap.node t
  match n.grad with
  | none => m.setGrad t (some grad)
  | some otherGrad =>
    let ln ← m.heap.node otherGrad
    let rn ← m.heap.node grad
    let val ← addRaw (.raw ln.val) (.raw rn.val)
    let new := m.heap.length
    let m := m.alloc { val, grad := none, gradFn := some { inputs := [otherGrad, grad], kind := .add } }
    let m ← m.setGrad t (some new)
    return (← m.drop grad).1

section

variable [Zero T] [One T] [Add T] [Mul T] [Sub T] [Neg T] [LT T] [DecidableLT T] [LE T] [DecidableLE T] [RealFn T]

/-- `compute_jvp`: `/repo/src/tensor/autograd/jvp.rs` 30-51. The tensors inside of the `jvp` functions and `self_grads` are not stored
anywhere (line 44 copies the data) and are left out. -/
def Mem.computeJvp : Nat → Mem T → Deriv → List (Raw T) → R (Mem T)
  | 0, _, _, _ => R.panic .diverge
  | fuel + 1, m, d, outerGrads => do
    let inputs ← d.inputs.mapM (fun i => do return (← m.heap.node i).val)
    let selfGrads ← applyJvp d.kind inputs outerGrads
    (selfGrads.zip d.inputs).foldlM (init := m) (fun m (grad, input) => do
      let n ← m.heap.node input
      assertR (grad.array.length == n.val.array.length)
      let shapedGrad ← Raw.new grad.array n.val.shape
      let g := m.heap.length
      let m ← (m.alloc (leafNode shapedGrad)).updateGrad input g
      match n.gradFn with
      | some d' => Mem.computeJvp fuel m d' [grad]
      | none => return m)

/-- `backward`: `/repo/src/tensor/rc_tensor.rs` 50-60. -/
def Mem.backward (m : Mem T) (t : Nat) : R (Mem T) := do
  let n ← m.heap.node t
  assertR (n.val.array.length == 1)
  let d ← unwrapO n.gradFn
  Mem.computeJvp (m.heap.length + 1) m d [Raw.scalar 1]

/-- One operation of the graph model. Operations other than the three on gradients create tensors, keep the last one and drop the
others when they return. Operands are borrowed; passing an operand by value is the same followed by a drop (and `update_grad`, which
takes its argument by value, is preceded by a clone). The program has to own the operands. -/
def Mem.op (m : Mem T) : Op T → R (Mem T)
  | .updateGrad t g => do
    assertR (m.held.contains t && m.held.contains g)
    { m with count := retain m.count g, held := g :: m.held }.updateGrad t g
  | .zeroGrad t => do
    assertR (m.held.contains t)
    m.setGrad t none
  | .backward t => do
    assertR (m.held.contains t)
    m.backward t
  | o => do
    assertR (o.ids.all m.held.contains)
    let h ← o.run m.heap
    let m' := (h.drop m.heap.length).foldl Mem.alloc m
    (List.range' m.heap.length (h.length - 1 - m.heap.length)).foldlM (fun m i => do return (← m.drop i).1) m'

/-- A step of a program. -/
inductive MemOp (T : Type) where
  | op (o : Op T)
  /-- `t.clone()`; also a view of `t`, which contains a clone (`tensor_view.rs` 19-27) -/
  | clone (t : Nat)
  /-- `t.grad()` -/
  | grad (t : Nat)
  /-- end of the life of a variable -/
  | drop (t : Nat)

/-- Execute a step. -/
def MemOp.run (m : Mem T) : MemOp T → R (Mem T)
  | .op o => m.op o
  | .clone t => do
    assertR (m.held.contains t)
    return { m with count := retain m.count t, held := t :: m.held }
  | .grad t => do
    assertR (m.held.contains t)
    let g ← gradT m.heap t
    return { m with count := retain m.count g, held := g :: m.held }
  | .drop t => do return (← m.drop t).1

/-- Execute a program. -/
def runMem (m : Mem T) (ops : List (MemOp T)) : R (Mem T) := ops.foldlM MemOp.run m

end

end RL
