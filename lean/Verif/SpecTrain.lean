import Verif.SpecGrad
import Verif.SpecNn
import Verif.Model.Train

/-!
# Specification vocabulary for training

A network with parameters `θ`: `θ (2 l)` are the weights of layer `l`, row by row, `θ (2 l + 1)` is its bias. From the model these
definitions only use the data types, and in `Act.code` the names of the activation functions.
-/

namespace RL.Spec

open RL

/-- The activations. -/
inductive Act where
  | identity | relu | tanh
  deriving DecidableEq

/-- The functions they stand for. -/
noncomputable def Act.fn : Act → ℝ → ℝ
  | identity => id
  | relu => fun x => max x 0
  | tanh => Real.tanh

/-- The functions of the program. -/
noncomputable def Act.code : Act → Activation ℝ
  | identity => Activation.identity
  | relu => reluT
  | tanh => tanhT

/-- The layers with widths and activations `ds`; `q` is the position of the first parameter. -/
noncomputable def layerFns (θ : Nat → Nat → ℝ) : Nat → List (Nat × Act) → List (LayerFn ℝ)
  | _, [] => []
  | q, (n, f) :: ds => ⟨n, fun i j => θ q (i * n + j), θ (q + 1), f.fn⟩ :: layerFns θ (q + 2) ds

/-- Width of the output. -/
def lastWidth : Nat → List (Nat × Act) → Nat
  | k, [] => k
  | _, (n, _) :: ds => lastWidth n ds

/-- `mlp` is a network with input width `k`, the widths and activations `ds` and the parameters `θ`. -/
structure NetIs (h : Heap ℝ) (mlp : Mlp ℝ) (k : Nat) (ds : List (Nat × Act)) (θ : Nat → Nat → ℝ) : Prop where
  layers : LayersAre h k mlp.layers (layerFns θ 0 ds)
  acts : mlp.layers.map (·.activation) = ds.map fun d => d.2.code

/-- Sum of the distances between the outputs of the network for `m` rows `a` and the expected outputs `y`. -/
noncomputable def netLoss (m k : Nat) (ds : List (Nat × Act)) (a y : Nat → Nat → ℝ) (θ : Nat → Nat → ℝ) : ℝ :=
  ∑ i ∈ Finset.range m, ∑ j ∈ Finset.range (lastWidth k ds), |netValue k (layerFns θ 0 ds) a i j - y i j|

/-- Nothing that goes into `relu` is 0. -/
def ReluSmooth (m : Nat) (θ : Nat → Nat → ℝ) : Nat → Nat → List (Nat × Act) → (Nat → Nat → ℝ) → Prop
  | _, _, [], _ => True
  | k, q, (n, f) :: ds, a =>
    (f = .relu → ∀ i < m, ∀ j < n, affine k a (fun i j => θ q (i * n + j)) (θ (q + 1)) i j ≠ 0) ∧
      ReluSmooth m θ n (q + 2) ds fun i j => f.fn (affine k a (fun i j => θ q (i * n + j)) (θ (q + 1)) i j)

/-- No kink: nothing that goes into `relu` is 0, and no output is the expected one. -/
def Smooth (m k : Nat) (ds : List (Nat × Act)) (a y : Nat → Nat → ℝ) (θ : Nat → Nat → ℝ) : Prop :=
  ReluSmooth m θ k 0 ds a ∧ ∀ i < m, ∀ j < lastWidth k ds, netValue k (layerFns θ 0 ds) a i j ≠ y i j

/-- All weights have at most 32 elements, and so have the outputs of all layers but the last one (for `m` rows). -/
def SmallNet (m : Nat) : Nat → List (Nat × Act) → Prop
  | _, [] => True
  | k, (n, _) :: ds => k * n ≤ 32 ∧ (ds ≠ [] → m * n ≤ 32) ∧ SmallNet m n ds

/-- One step of gradient descent for the loss function `L`: every coordinate `θ q c` becomes `θ q c - lr * (dL / dθ q c)`. -/
noncomputable def descend (lr : ℝ) (L : (Nat → Nat → ℝ) → ℝ) (θ : Nat → Nat → ℝ) : Nat → Nat → ℝ := fun q c =>
  θ q c - lr * deriv (fun z => L (Function.update θ q (Function.update (θ q) c z))) (θ q c)

/-- `n` steps of gradient descent. -/
noncomputable def descends (lr : ℝ) (L : (Nat → Nat → ℝ) → ℝ) : Nat → (Nat → Nat → ℝ) → Nat → Nat → ℝ
  | 0, θ => θ
  | n + 1, θ => descends lr L n (descend lr L θ)

/-- Slopes of the activations; at its kink `relu` has slope 1. -/
noncomputable def Act.slope : Act → ℝ → ℝ
  | identity => fun _ => 1
  | relu => fun x => if x < 0 then 0 else 1
  | tanh => fun x => 1 - Real.tanh x ^ 2

/-- An `m` x `k` matrix with shuffled positions. -/
def shuffledMat (m k : Nat) (f : Nat → Nat → ℝ) (r j : Nat) : ℝ :=
  f (shuffle (m * k) (r * k + j) / k) (shuffle (m * k) (r * k + j) % k)

/-- Derivative of the output of a network in the direction `δ` of the parameters, where `a` is the input and `da` its derivative, except
that the derivatives of the factors of matrix products are shuffled. -/
noncomputable def netTangent (m : Nat) (θ δ : Nat → Nat → ℝ) : Nat → Nat → List (Nat × Act) → (a da : Nat → Nat → ℝ) → Nat → Nat → ℝ
  | _, _, [], _, da => da
  | k, q, (n, f) :: ds, a, da =>
    let z := affine k a (fun i j => θ q (i * n + j)) (θ (q + 1))
    netTangent m θ δ n (q + 2) ds (fun i j => f.fn (z i j)) fun i j => f.slope (z i j) *
      ((∑ kk ∈ Finset.range k, (shuffledMat m k da i kk * θ q (kk * n + j) + a i kk * shuffledMat k n (fun i j => δ q (i * n + j)) kk j)) +
        δ (q + 1) j)

/-- The same for the loss; at its kink the distance has slope 1. -/
noncomputable def lossTangent (m k : Nat) (ds : List (Nat × Act)) (a y θ δ : Nat → Nat → ℝ) : ℝ :=
  ∑ i ∈ Finset.range m, ∑ j ∈ Finset.range (lastWidth k ds),
    (if netValue k (layerFns θ 0 ds) a i j < y i j then -1 else 1) * netTangent m θ δ k 0 ds a (fun _ _ => 0) i j

/-- What a training step computes: a step of gradient descent with the shuffled derivatives. -/
noncomputable def shuffledDescend (lr : ℝ) (m k : Nat) (ds : List (Nat × Act)) (a y θ : Nat → Nat → ℝ) : Nat → Nat → ℝ := fun q c =>
  θ q c - lr * lossTangent m k ds a y θ fun q' c' => if q' = q ∧ c' = c then 1 else 0

/-- The coordinates of the parameters of a network: tensor, position in its array. -/
def coords : Nat → Nat → List (Nat × Act) → Finset (Nat × Nat)
  | _, _, [] => ∅
  | k, q, (n, _) :: ds => (Finset.range (k * n)).image (fun c => (q, c)) ∪ (Finset.range n).image (fun c => (q + 1, c)) ∪ coords n (q + 2) ds

/-- The tensors `x` (input), `y` (expected output) and `ps` (parameters) are ready for a training step: the parameters are different
tensors, without gradient, none is computed from another one; what all of these tensors were computed from involved additions and
negations only, has positive dimensions, and gradients are absent or of the shape of their tensor. Tensors without history are ready
(`C50_fresh`), and so is what a training step leaves (`C50_step_partial`). -/
structure Ready (h : Heap ℝ) (x y : Nat) (ps : List Nat) : Prop where
  nodup : ps.Nodup
  free : ∀ p ∈ ps, p ≠ x ∧ p ≠ y ∧ gradOf h p = none ∧ ∀ s ∈ x :: y :: ps, ¬ Ancestor h p s
  clean : ∀ s ∈ x :: y :: ps, ∀ i v, Feeds h i s → dataOf h i = some v → WF v ∧ Pos v.shape ∧
    (∀ g, gradOf h i = some g → g.shape = v.shape ∧ WF g) ∧
    ∀ d, historyOf h i = some (some d) → d.kind = .add ∨ d.kind = .neg

/-- The heap holds a network `mlp` with the parameters `θ`, its input `x` with `m` rows `a` and the expected output `y` with the rows `b`,
ready for a training step. -/
structure Training (h : Heap ℝ) (mlp : Mlp ℝ) (x y m k : Nat) (ds : List (Nat × Act)) (a b : Nat → Nat → ℝ) (θ : Nat → Nat → ℝ) : Prop where
  reachable : Reachable h
  net : NetIs h mlp k ds θ
  input : ∃ v, dataOf h x = some v ∧ Matrix v m k a
  expected : ∃ v, dataOf h y = some v ∧ Matrix v m (lastWidth k ds) b
  ready : Ready h x y mlp.params

end RL.Spec
