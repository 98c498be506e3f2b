import Verif.Model.Train

/-!
# Model of `/repo/src/main.rs`

The random numbers are a stream `draw` of elements; `k` counts how many have been used.
-/

namespace RL

variable {T : Type} [Zero T] [One T] [Add T] [Mul T] [Sub T] [Neg T] [LT T] [DecidableLT T] [LE T] [DecidableLE T] [RealFn T]

/-- `/repo/src/main.rs` 14-21 `sample_vector`. Returns the heap, the number of used random numbers and the tensor. -/
def sampleVector (draw : Nat → T) (h : Heap T) (k : Nat) (shape : List Nat) : R (Heap T × Nat × Nat) := do
  let len := shape.prod
  let raw ← Raw.new ((List.range len).map fun i => draw (k + i)) shape
  let (h, t) := h.leaf raw
  return (h, k + len, t)

/-- `/repo/src/main.rs` 29-45: the layers, with their widths and activations; `inner` is the width of the input. -/
def sampleLayers (draw : Nat → T) (h : Heap T) (k inner : Nat) : List (Nat × Option (Activation T)) → R (Heap T × Nat × List (Linear T))
  | [] => return (h, k, [])
  | (width, activation) :: rest => do
    let (h, k, weights) ← sampleVector draw h k [inner, width]
    let (h, k, bias) ← sampleVector draw h k [1, width]
    let (h, k, layers) ← sampleLayers draw h k width rest
    return (h, k, Linear.new weights bias activation :: layers)

/-- `/repo/src/main.rs` 29-93 for any network: rows and width of the input, widths and activations of the layers, width of the expected
output, number of steps and step size. -/
def runMain (draw : Nat → T) (rows inner : Nat) (layers : List (Nat × Option (Activation T))) (outer steps : Nat) (lr : T) :
    R (Heap T × Mlp T) := do
  let (h, k, layers) ← sampleLayers draw [] 0 inner layers
  let (h, _, input) ← sampleVector draw h k [rows, inner]
  let (h, expected) := h.leaf (Raw.newWithFiller [rows, outer] 1)
  train { layers } h input expected lr steps

/-- `/repo/src/main.rs` 10-96 `main` up to the final output; `lr` stands for `1e-2`. -/
def mainRs (draw : Nat → T) (lr : T) : R (Heap T × Mlp T) :=
  runMain draw 1 8 [(8192, some reluT), (8192, some tanhT), (8, some tanhT)] 8 2 lr

end RL
