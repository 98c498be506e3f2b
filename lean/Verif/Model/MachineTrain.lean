import Verif.Model.Main
import Verif.Model.MachineOps

/-!
# Networks and training with 64-bit `usize`

The functions of `Model/Nn`, `Model/Train` and `Model/Main` on top of those of `Model/MachineOps`; the activations of a layer are
functions of the same profile.
-/

namespace RL

variable {T : Type} [Zero T] [One T] [Add T] [Mul T] [Sub T] [Neg T] [LT T] [DecidableLT T] [LE T] [DecidableLE T] [RealFn T]

/-- `relu`: `/repo/src/tensor/functional/element_wise_ops.rs` 38-70; see `reluT`. -/
def reluTU (p : Profile) : Activation T := fun h t => unaryTU p h t reluFn .relu

/-- `tanh`: `/repo/src/tensor/functional/element_wise_ops.rs` 23-36; see `tanhT`. -/
def tanhTU (p : Profile) : Activation T := fun h t => unaryTU p h t (fun x => RealFn.tanh x) .tanh

/-- `/repo/src/nn/linear.rs` 46-52 `forward`. -/
def Linear.forwardU (p : Profile) (layer : Linear T) (h : Heap T) (batch : Nat) : R (Heap T × Nat) := do
  let (h, y) ← bmmTU p h batch layer.weights
  let (h, z) ← addTU p h y layer.bias
  layer.activation h z

/-- `/repo/src/nn/feed_foward.rs` 27-31 `forward`. -/
def Mlp.forwardU (p : Profile) (mlp : Mlp T) (h : Heap T) (batch : Nat) : R (Heap T × Nat) :=
  mlp.layers.foldlM (fun (h, prev) layer => layer.forwardU p h prev) (h, batch)

/-- `/repo/src/optim/sgd.rs` 35-39. -/
def sgdParamU (p : Profile) (h : Heap T) (stepSize param : Nat) : R (Heap T × Nat) := do
  let g ← gradT h param
  let gn ← h.node g
  let s ← h.node stepSize
  let delta ← mulRawU p s.val (.raw gn.val)
  let (h, d) := h.leaf delta
  let (h, new) ← subTU p h param d
  let h ← zeroGrad h new
  return (h, new)

/-- `/repo/src/optim/sgd.rs` 32-40. -/
def sgdParamsU (p : Profile) (h : Heap T) (stepSize : Nat) (params : List Nat) : R (Heap T × List Nat) :=
  params.foldlM (init := (h, ([] : List Nat))) (fun (h, new) param => do
    let (h, q) ← sgdParamU p h stepSize param
    return (h, new ++ [q]))

/-- `/repo/src/optim/sgd.rs` 29-42 `sgd_step`. -/
def Mlp.sgdStepU (p : Profile) (mlp : Mlp T) (h : Heap T) (stepSize : Nat) : R (Heap T × Mlp T) := do
  let (h, newParams) ← sgdParamsU p h stepSize mlp.params
  let mlp ← mlp.updateParams newParams
  return (h, mlp)

/-- `/repo/src/main.rs` 79-81. -/
def trainLossU (p : Profile) (mlp : Mlp T) (h : Heap T) (input expected : Nat) : R (Heap T × Nat) := do
  let (h, res) ← mlp.forwardU p h input
  let (h, diff) ← subTU p h res expected
  let (h, dist) ← unaryTU p h diff (fun x => RealFn.abs x) .abs
  sumTU p h dist (some { inputs := [dist], kind := .sum })

/-- `/repo/src/main.rs` 79-92. -/
def trainStepU (p : Profile) (mlp : Mlp T) (h : Heap T) (input expected : Nat) (lr : T) : R (Heap T × Mlp T) := do
  let (h, loss) ← trainLossU p mlp h input expected
  let h ← backwardU p h loss
  let (h, stepSize) := h.leaf (Raw.scalar lr)
  let (h, mlp) ← mlp.sgdStepU p h stepSize
  let h ← zeroGrad h expected
  let h ← zeroGrad h input
  return (h, mlp)

/-- `/repo/src/main.rs` 78-93. -/
def trainU (p : Profile) (mlp : Mlp T) (h : Heap T) (input expected : Nat) (lr : T) : Nat → R (Heap T × Mlp T)
  | 0 => return (h, mlp)
  | n + 1 => do
    let (h, mlp) ← trainStepU p mlp h input expected lr
    trainU p mlp h input expected lr n

/-- `/repo/src/main.rs` 14-21 `sample_vector`. -/
def sampleVectorU (p : Profile) (draw : Nat → T) (h : Heap T) (k : Nat) (shape : List Nat) : R (Heap T × Nat × Nat) := do
  let len ← prodU p shape
  let raw ← Raw.newU p ((List.range len).map fun i => draw (k + i)) shape
  let (h, t) := h.leaf raw
  return (h, k + len, t)

/-- `/repo/src/main.rs` 29-45. -/
def sampleLayersU (p : Profile) (draw : Nat → T) (h : Heap T) (k inner : Nat) :
    List (Nat × Option (Activation T)) → R (Heap T × Nat × List (Linear T))
  | [] => return (h, k, [])
  | (width, activation) :: rest => do
    let (h, k, weights) ← sampleVectorU p draw h k [inner, width]
    let (h, k, bias) ← sampleVectorU p draw h k [1, width]
    let (h, k, layers) ← sampleLayersU p draw h k width rest
    return (h, k, Linear.new weights bias activation :: layers)

/-- `/repo/src/main.rs` 29-93 for any network. -/
def runMainU (p : Profile) (draw : Nat → T) (rows inner : Nat) (layers : List (Nat × Option (Activation T))) (outer steps : Nat) (lr : T) :
    R (Heap T × Mlp T) := do
  let (h, k, layers) ← sampleLayersU p draw [] 0 inner layers
  let (h, _, input) ← sampleVectorU p draw h k [rows, inner]
  let ones ← Raw.newWithFillerU p [rows, outer] 1
  let (h, expected) := h.leaf ones
  trainU p { layers } h input expected lr steps

/-- `/repo/src/main.rs` 10-96 `main`. -/
def mainRsU (p : Profile) (draw : Nat → T) (lr : T) : R (Heap T × Mlp T) :=
  runMainU p draw 1 8 [(8192, some (reluTU p)), (8192, some (tanhTU p)), (8, some (tanhTU p))] 8 2 lr

end RL
