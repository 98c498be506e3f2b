import Verif.Model.Graph

/-!
# Model of `/repo/src/nn` and `/repo/src/optim/sgd.rs`
-/

namespace RL

variable {T : Type}

/-- `fn(RcTensor<T>) -> RcTensor<T>`: takes and returns a tensor, may allocate. -/
abbrev Activation (T : Type) := Heap T → Nat → R (Heap T × Nat)

/-- The activation stored for `None` (`/repo/src/nn/linear.rs` 34): the identity. -/
def Activation.identity : Activation T := fun h t => .ok (h, t)

/-- `/repo/src/nn/linear.rs` 7-14 `Linear`. -/
structure Linear (T : Type) where
  weights : Nat
  bias : Nat
  activation : Activation T

/-- `/repo/src/nn/linear.rs` 24-37 `Linear::new`. -/
def Linear.new (weights bias : Nat) (activation : Option (Activation T)) : Linear T :=
  { weights, bias,
    activation := match activation with
      | some f => f
      | none => Activation.identity }

/-- `/repo/src/nn/linear.rs` 46-52 `forward`. -/
def Linear.forward [Zero T] [Add T] [Mul T] (layer : Linear T) (h : Heap T) (batch : Nat) :
    R (Heap T × Nat) := do
  let (h, y) ← bmmT h batch layer.weights
  let (h, z) ← addT h y layer.bias
  layer.activation h z

/-- `/repo/src/nn/linear.rs` 54-56 (and 20-22) `params`. -/
def Linear.params (layer : Linear T) : List Nat := [layer.weights, layer.bias]

/-- `/repo/src/nn/linear.rs` 57-60 `update_params`: `remove(1)`, then `remove(0)`. -/
def Linear.updateParams (layer : Linear T) (newParams : List Nat) : R (Linear T) := do
  let bias ← idxR newParams 1
  let newParams := newParams.eraseIdx 1
  let weights ← idxR newParams 0
  return { layer with bias, weights }

/-- `/repo/src/nn/feed_foward.rs` 8-13 `Mlp`; the const generic `N` is the length of the list. -/
structure Mlp (T : Type) where
  layers : List (Linear T)

/-- `/repo/src/nn/feed_foward.rs` 27-31 `forward`. -/
def Mlp.forward [Zero T] [Add T] [Mul T] (mlp : Mlp T) (h : Heap T) (batch : Nat) : R (Heap T × Nat) :=
  mlp.layers.foldlM (fun (h, prev) layer => layer.forward h prev) (h, batch)

/-- `/repo/src/nn/feed_foward.rs` 33-38 `params`. -/
def Mlp.params (mlp : Mlp T) : List Nat := mlp.layers.flatMap (fun layer => layer.params)

/-- `/repo/src/nn/feed_foward.rs` 42-46: the reversed loop of `update_params`; takes the reversed layers and
the reversed parameters, returns the new layers in their original order. -/
def mlpUpdateLoop : List (Linear T) → List Nat → List (Linear T) → R (List (Linear T))
  | [], _, acc => return acc
  | layer :: layers, params, acc => do
    let bias ← unwrapO params.head?
    let params := params.tail
    let weights ← unwrapO params.head?
    let params := params.tail
    let layer ← layer.updateParams [weights, bias]
    mlpUpdateLoop layers params (layer :: acc)

/-- `/repo/src/nn/feed_foward.rs` 40-47 `update_params`. -/
def Mlp.updateParams (mlp : Mlp T) (newParams : List Nat) : R (Mlp T) := do
  let layers ← mlpUpdateLoop mlp.layers.reverse newParams.reverse []
  return { layers }

/-- `/repo/src/optim/sgd.rs` 35-39: the closure of `sgd_step` for one parameter. -/
def sgdParam [Zero T] [Add T] [Mul T] [Neg T] (h : Heap T) (stepSize p : Nat) : R (Heap T × Nat) := do
  let g ← gradT h p
  let gn ← h.node g
  let s ← h.node stepSize
  let delta ← mulRaw s.val (.raw gn.val)
  let (h, d) := h.leaf delta
  let (h, new) ← subT h p d
  let h ← zeroGrad h new
  return (h, new)

/-- `/repo/src/optim/sgd.rs` 32-40: map over the parameters. -/
def sgdParams [Zero T] [Add T] [Mul T] [Neg T] (h : Heap T) (stepSize : Nat) (params : List Nat) :
    R (Heap T × List Nat) :=
  params.foldlM (init := (h, ([] : List Nat))) (fun (h, new) p => do
    let (h, q) ← sgdParam h stepSize p
    return (h, new ++ [q]))

/-- `/repo/src/optim/sgd.rs` 29-42 `sgd_step` on an `Mlp`. -/
def Mlp.sgdStep [Zero T] [Add T] [Mul T] [Neg T] (mlp : Mlp T) (h : Heap T) (stepSize : Nat) :
    R (Heap T × Mlp T) := do
  let (h, newParams) ← sgdParams h stepSize mlp.params
  let mlp ← mlp.updateParams newParams
  return (h, mlp)

/-- `/repo/src/optim/sgd.rs` 29-42 `sgd_step` on a `Linear`. -/
def Linear.sgdStep [Zero T] [Add T] [Mul T] [Neg T] (layer : Linear T) (h : Heap T) (stepSize : Nat) :
    R (Heap T × Linear T) := do
  let (h, newParams) ← sgdParams h stepSize layer.params
  let layer ← layer.updateParams newParams
  return (h, layer)

end RL
