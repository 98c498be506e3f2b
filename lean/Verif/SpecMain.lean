import Verif.SpecTrain
import Verif.Model.MachineTrain

/-!
# Specification vocabulary for `main` (C86)

The activations by name, for every type of elements, and which random numbers become the parameters. From the model only the names of
the activation functions are used.
-/

namespace RL.Spec

open RL

variable {T : Type} [Zero T] [One T] [LT T] [DecidableLT T] [RealFn T]

/-- The functions of the program. -/
def Act.run : Act → Activation T
  | identity => Activation.identity
  | relu => reluT
  | tanh => tanhT

/-- The same with 64-bit `usize`. -/
def Act.runU (p : Profile) : Act → Activation T
  | identity => Activation.identity
  | relu => reluTU p
  | tanh => tanhTU p

/-- The argument `activation` of `Linear::new`. -/
def Act.arg : Act → Option (Activation T)
  | identity => none
  | relu => some reluT
  | tanh => some tanhT

/-- The same with 64-bit `usize`. -/
def Act.argU (p : Profile) : Act → Option (Activation T)
  | identity => none
  | relu => some (reluTU p)
  | tanh => some (tanhTU p)

/-- A network whose layers have the given weights, biases and activations. -/
def netOf (g : Act → Activation T) (ls : List (Nat × Nat × Act)) : Mlp T := ⟨ls.map fun l => ⟨l.1, l.2.1, g l.2.2⟩⟩

/-- The shapes of the parameters of a network with input width `k` and the widths and activations `ds`. -/
def paramShapes : Nat → List (Nat × Act) → List (List Nat)
  | _, [] => []
  | k, (n, _) :: ds => [k, n] :: [1, n] :: paramShapes n ds

/-- The shapes of scalars, of the input with `m` rows, of the parameters, and of the outputs of the layers. -/
def mainShapes (m k : Nat) (ds : List (Nat × Act)) : List (List Nat) := [] :: [m, k] :: (paramShapes k ds ++ ds.map fun d => [m, d.1])

/-- How many random numbers come before those of parameter `q` of a network with input width `k` and the widths and activations `ds`. -/
def paramStart : Nat → List (Nat × Act) → Nat → Nat
  | _, [], _ => 0
  | _, _ :: _, 0 => 0
  | k, (n, _) :: _, 1 => k * n
  | k, (n, _) :: ds, q + 2 => k * n + n + paramStart n ds q

/-- The parameters that are drawn. -/
def drawnParams (draw : Nat → T) (k : Nat) (ds : List (Nat × Act)) (q c : Nat) : T := draw (paramStart k ds q + c)

/-- The input that is drawn after them. -/
def drawnInput (draw : Nat → T) (k : Nat) (ds : List (Nat × Act)) (i j : Nat) : T := draw (paramStart k ds (2 * ds.length) + (i * k + j))

end RL.Spec
