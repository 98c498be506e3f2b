import Verif.Model.Nn

/-!
# Model of the training loop of `/repo/src/main.rs`
-/

namespace RL

variable {T : Type} [Zero T] [One T] [Add T] [Mul T] [Sub T] [Neg T] [LT T] [DecidableLT T] [LE T] [DecidableLE T] [RealFn T]

/-- `/repo/src/main.rs` 79-81: `(&mlp.forward(input.clone()) - &expected).abs().sum()`; cloning an `RcTensor` shares it. -/
def trainLoss (mlp : Mlp T) (h : Heap T) (input expected : Nat) : R (Heap T × Nat) := do
  let (h, res) ← mlp.forward h input
  let (h, diff) ← subT h res expected
  let (h, dist) ← absT h diff
  sumT h dist

/-- `/repo/src/main.rs` 79-92: the body of the training loop, with step size `lr` for `1e-2`. -/
def trainStep (mlp : Mlp T) (h : Heap T) (input expected : Nat) (lr : T) : R (Heap T × Mlp T) := do
  let (h, loss) ← trainLoss mlp h input expected
  let h ← backward h loss
  let (h, stepSize) := h.leaf (Raw.scalar lr)
  let (h, mlp) ← mlp.sgdStep h stepSize
  let h ← zeroGrad h expected
  let h ← zeroGrad h input
  return (h, mlp)

/-- `/repo/src/main.rs` 78-93: the training loop; there it runs twice. -/
def train (mlp : Mlp T) (h : Heap T) (input expected : Nat) (lr : T) : Nat → R (Heap T × Mlp T)
  | 0 => return (h, mlp)
  | n + 1 => do
    let (h, mlp) ← trainStep mlp h input expected lr
    train mlp h input expected lr n

end RL
