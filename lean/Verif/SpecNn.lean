import Verif.SpecGraph
import Verif.Model.Nn

/-!
# Specification vocabulary for networks

From the model these definitions only use data types (`Raw`, `Heap`, `Linear`, `Activation`).
-/

namespace RL.Spec

open RL

variable {T : Type}

/-- `v` is the `m` x `n` matrix with the entries `f i j`. -/
def Matrix (v : Raw T) (m n : Nat) (f : Nat → Nat → T) : Prop :=
  v.shape = [m, n] ∧ WF v ∧ ∀ i < m, ∀ j < n, Raw.elem? v [i, j] = some (f i j)

/-- `v` is a bias row of width `n` with the entries `b j`, as a vector or as a matrix with one row. -/
def Row (v : Raw T) (n : Nat) (b : Nat → T) : Prop :=
  (v.shape = [n] ∨ v.shape = [1, n]) ∧ WF v ∧ ∀ j < n, v.array[j]? = some (b j)

/-- The activation applies `φ` to every element (and succeeds, and changes no existing tensor). -/
def Acts (f : Activation T) (φ : T → T) : Prop :=
  ∀ (h : Heap T) (t : Nat) (v : Raw T), dataOf h t = some v → WF v → Pos v.shape →
    ∃ h' r, f h t = .ok (h', r) ∧ dataOf h' r = some ⟨v.array.map φ, v.shape⟩ ∧ (∃ ns, h' = h ++ ns)

/-- The activation is made of public operations, and its result has `c` paths more than its argument, which it leads to. -/
def Extends [Zero T] [One T] [Add T] [Mul T] [Sub T] [Neg T] [LT T] [DecidableLT T] [LE T] [DecidableLE T] [RealFn T]
    (f : Activation T) (c : Nat) : Prop :=
  ∀ (h h' : Heap T) (t r w : Nat), Reachable h → f h t = .ok (h', r) → Ways h t w →
    (∃ ops, runOps h ops = .ok h') ∧ Ways h' r (c + w) ∧ (r = t ∨ ∃ p, Path h' r t p)

/-- A layer as a mathematical function. -/
structure LayerFn (T : Type) where
  width : Nat
  w : Nat → Nat → T
  b : Nat → T
  φ : T → T

/-- `x W + b` at `(i, j)`: the products summed from left to right, then the bias. -/
def affine [Zero T] [Add T] [Mul T] (k : Nat) (x w : Nat → Nat → T) (b : Nat → T) (i j : Nat) : T :=
  (List.range k).foldl (fun acc kk => acc + x i kk * w kk j) 0 + b j

/-- `layer` computes `s` on inputs of width `k`. -/
def LayerIs (h : Heap T) (k : Nat) (layer : Linear T) (s : LayerFn T) : Prop :=
  0 < s.width ∧ Acts layer.activation s.φ ∧ ∃ wv bv, dataOf h layer.weights = some wv ∧ dataOf h layer.bias = some bv ∧
    Matrix wv k s.width s.w ∧ Row bv s.width s.b

/-- The layers compute `ss`, with matching widths, on inputs of width `k`. -/
def LayersAre (h : Heap T) : Nat → List (Linear T) → List (LayerFn T) → Prop
  | _, [], [] => True
  | k, layer :: layers, s :: ss => LayerIs h k layer s ∧ LayersAre h s.width layers ss
  | _, _, _ => False

/-- Width of the output. -/
def outWidth : Nat → List (LayerFn T) → Nat
  | k, [] => k
  | _, s :: ss => outWidth s.width ss

/-- Output of a network: the layers one after the other. -/
def netValue [Zero T] [Add T] [Mul T] : Nat → List (LayerFn T) → (Nat → Nat → T) → (Nat → Nat → T)
  | _, [], x => x
  | k, s :: ss, x => netValue s.width ss (fun i j => s.φ (affine k x s.w s.b i j))

end RL.Spec
