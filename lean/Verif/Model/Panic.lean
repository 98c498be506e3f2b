import Verif.Model.Graph

/-!
# What is left behind by a panic

`R (Heap T)` forgets the heap when a computation panics. A program may catch the panic (`std::panic::catch_unwind`, or by joining the
thread that panicked) and go on with its tensors, so here computations return the heap that they leave behind also when they fail.

The only changes to existing tensors are assignments to the field `grad` through its `RwLock`
(`/repo/src/tensor/raw_tensor.rs` 303-313). What is assigned was computed before the lock is taken for writing, so nothing can panic
while it is held and it is never poisoned; while `update_grad` adds gradients it holds the lock for reading, which does not poison.
-/

namespace RL

variable {T : Type}

/-- Run the steps until one of them fails; the state is kept. -/
def foldS {σ α : Type} (f : σ → α → σ × R Unit) : List α → σ → σ × R Unit
  | [], s => (s, .ok ())
  | a :: l, s => match f s a with
    | (s', .ok _) => foldS f l s'
    | (s', .error e) => (s', .error e)

/-- A step that leaves nothing behind when it fails: what it has made by then is dropped. -/
def orKeep {σ : Type} (s : σ) : R σ → σ × R Unit
  | .ok s' => (s', .ok ())
  | .error e => (s, .error e)

section

variable [Zero T] [One T] [Add T] [Mul T] [Sub T] [Neg T] [LT T] [DecidableLT T] [LE T] [DecidableLE T] [RealFn T]

/-- `compute_jvp` (`/repo/src/tensor/autograd/jvp.rs` 30-51) with the heap that it leaves behind. -/
def computeJvpS : Nat → Heap T → Deriv → List (Raw T) → Heap T × R Unit
  | 0, h, _, _ => (h, R.panic .diverge)
  | fuel + 1, h, d, outerGrads =>
    match (do
      let inputs ← d.inputs.mapM (fun i => do return (← h.node i).val)
      applyJvp d.kind inputs outerGrads) with
    | .error e => (h, .error e)
    | .ok selfGrads => foldS (fun h (grad, input) =>
        match (do
          let n ← h.node input
          assertR (grad.array.length == n.val.array.length)
          let shapedGrad ← Raw.new grad.array n.val.shape
          let (h, g) := h.leaf shapedGrad
          let h ← updateGrad h input g
          return (n.gradFn, h)) with
        | .error e => (h, .error e)
        | .ok (some d', h) => computeJvpS fuel h d' [grad]
        | .ok (none, h) => (h, .ok ())) (selfGrads.zip d.inputs) h

/-- `backward` (`/repo/src/tensor/rc_tensor.rs` 50-60) with the heap that it leaves behind. -/
def backwardS (h : Heap T) (t : Nat) : Heap T × R Unit :=
  match (do
    let n ← h.node t
    assertR (n.val.array.length == 1)
    unwrapO n.gradFn) with
  | .error e => (h, .error e)
  | .ok d => computeJvpS (h.length + 1) h d [Raw.scalar 1]

/-- One operation with the heap that it leaves behind. All operations but `backward` make new tensors only, or change a gradient as
the last thing they do. -/
def Op.runS (h : Heap T) : Op T → Heap T × R Unit
  | .backward t => backwardS h t
  | op => orKeep h (op.run h)

/-- A program that catches the panics of its operations and goes on. -/
def runCaught (h : Heap T) (ops : List (Op T)) : Heap T := ops.foldl (fun h op => (op.runS h).1) h

end

end RL
