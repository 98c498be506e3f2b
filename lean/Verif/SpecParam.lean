import Verif.Model.Train
import Verif.Model.Ints
import Verif.SpecGrad
import Mathlib.Data.List.Forall2

/-!
# Two runs of the same program on different elements (C72-C74)
-/

namespace RL.Spec

open RL

variable {T S : Type}

/-- Two computations fail in the same way or return related results. -/
def SameOutcome {α β : Type _} (P : α → β → Prop) : R α → R β → Prop
  | .ok a, .ok b => P a b
  | .error e, .error f => e = f
  | _, _ => False

/-- Tensors of the same shape with elements related by `rel`. -/
def RawRel (rel : T → S → Prop) (a : Raw T) (b : Raw S) : Prop := List.Forall₂ rel a.array b.array ∧ a.shape = b.shape

/-- Tensors with the same gradient tensor and the same history, whose operation is in `K`. -/
def NodeRel (K : JvpKind → Prop) (rel : T → S → Prop) (m : Node T) (n : Node S) : Prop :=
  RawRel rel m.val n.val ∧ m.grad = n.grad ∧ m.gradFn = n.gradFn ∧ ∀ d, m.gradFn = some d → K d.kind

/-- The same graph with related elements. -/
def HeapRel (K : JvpKind → Prop) (rel : T → S → Prop) (g : Heap T) (h : Heap S) : Prop := List.Forall₂ (NodeRel K rel) g h

/-- The same operation with related elements. Which operations with a history it uses is in `K`. -/
inductive OpRel (K : JvpKind → Prop) (rel : T → S → Prop) : Op T → Op S → Prop where
  | new {array : List T} {array' : List S} (shape : List Nat) (h : List.Forall₂ rel array array') : OpRel K rel (.new array shape) (.new array' shape)
  | filler (shape : List Nat) {v : T} {w : S} (h : rel v w) : OpRel K rel (.filler shape v) (.filler shape w)
  | scalar {v : T} {w : S} (h : rel v w) : OpRel K rel (.scalar v) (.scalar w)
  | default : OpRel K rel .default .default
  | add (l r : Nat) (h : K .add) : OpRel K rel (.add l r) (.add l r)
  | sub (l r : Nat) (h : K .add) (h' : K .neg) : OpRel K rel (.sub l r) (.sub l r)
  | neg (t : Nat) (h : K .neg) : OpRel K rel (.neg t) (.neg t)
  | mul (l r : Nat) : OpRel K rel (.mul l r) (.mul l r)
  | relu (t : Nat) (h : K .relu) : OpRel K rel (.relu t) (.relu t)
  | tanh (t : Nat) (h : K .tanh) : OpRel K rel (.tanh t) (.tanh t)
  | abs (t : Nat) (h : K .abs) : OpRel K rel (.abs t) (.abs t)
  | sum (t : Nat) (h : K .sum) : OpRel K rel (.sum t) (.sum t)
  | bmm (l r : Nat) (h : K .bmm) : OpRel K rel (.bmm l r) (.bmm l r)
  | dot (l r : Nat) (h : K .dot) : OpRel K rel (.dot l r) (.dot l r)
  | viewToTensor (v : VExpr) : OpRel K rel (.viewToTensor v) (.viewToTensor v)
  | viewSum (v : VExpr) : OpRel K rel (.viewSum v) (.viewSum v)
  | bmmView (l : Nat) (v : VExpr) (h : K .bmm) : OpRel K rel (.bmmView l v) (.bmmView l v)
  | viewBmm (v : VExpr) (r : Nat) : OpRel K rel (.viewBmm v r) (.viewBmm v r)
  | viewBmmView (v w : VExpr) : OpRel K rel (.viewBmmView v w) (.viewBmmView v w)
  | mulView (l : Nat) (v : VExpr) : OpRel K rel (.mulView l v) (.mulView l v)
  | rawBin (k : RawBin) (l r : Opnd) : OpRel K rel (.rawBin k l r) (.rawBin k l r)
  | rawSub (l r : Nat) (h : K .neg) : OpRel K rel (.rawSub l r) (.rawSub l r)
  | rawUnary {f : T → T} {g : S → S} (x : Opnd) (h : ∀ a b, rel a b → rel (f a) (g b)) : OpRel K rel (.rawUnary f x) (.rawUnary g x)
  | leftMul {s : T} {s' : S} (x : Opnd) (h : rel s s') : OpRel K rel (.leftMul s x) (.leftMul s' x)
  | rightMul (x : Opnd) {s : T} {s' : S} (h : rel s s') : OpRel K rel (.rightMul x s) (.rightMul x s')
  | rawSum (t : Nat) : OpRel K rel (.rawSum t) (.rawSum t)
  | deepClone (t : Nat) : OpRel K rel (.deepClone t) (.deepClone t)
  | rawClone (t : Nat) : OpRel K rel (.rawClone t) (.rawClone t)
  | updateGrad (t g : Nat) (h : K .add) : OpRel K rel (.updateGrad t g) (.updateGrad t g)
  | zeroGrad (t : Nat) : OpRel K rel (.zeroGrad t) (.zeroGrad t)
  | backward (t : Nat) (h : K .add) : OpRel K rel (.backward t) (.backward t)

/-- The arithmetic keeps `rel`; negation if it is used. -/
structure Arith (K : JvpKind → Prop) (rel : T → S → Prop) [Zero T] [One T] [Add T] [Mul T] [Neg T] [Zero S] [One S] [Add S] [Mul S] [Neg S] : Prop where
  zero : rel 0 0
  one : rel 1 1
  add : ∀ {a b x y}, rel a x → rel b y → rel (a + b) (x + y)
  mul : ∀ {a b x y}, rel a x → rel b y → rel (a * b) (x * y)
  neg : K .neg → ∀ {a x}, rel a x → rel (-a) (-x)

/-- So do those functions whose derivatives are used: `relu` and its derivative, absolute value and its derivative, `tanh` and its
derivative. -/
structure Functions (K : JvpKind → Prop) (rel : T → S → Prop)
    [Zero T] [One T] [Sub T] [LT T] [DecidableLT T] [LE T] [DecidableLE T] [RealFn T]
    [Zero S] [One S] [Sub S] [LT S] [DecidableLT S] [LE S] [DecidableLE S] [RealFn S] : Prop where
  relu : K .relu → ∀ a x, rel a x → rel (if a < 0 then 0 else a) (if x < 0 then 0 else x) ∧ rel (if a < 0 then 0 else 1) (if x < 0 then 0 else 1)
  abs : K .abs → ∀ a x, rel a x → rel (RealFn.abs a) (RealFn.abs x) ∧ rel (if a ≥ 0 then 1 else 0 - 1) (if x ≥ 0 then 1 else 0 - 1)
  tanh : K .tanh → ∀ a x, rel a x →
    rel (RealFn.tanh a) (RealFn.tanh x) ∧ rel (1 - RealFn.powi2 (RealFn.tanh a)) (1 - RealFn.powi2 (RealFn.tanh x))

/-- Activations that do the same on related elements. -/
def ActRel (K : JvpKind → Prop) (rel : T → S → Prop) (f : Activation T) (g : Activation S) : Prop :=
  ∀ h h' t, HeapRel K rel h h' → SameOutcome (fun p q => HeapRel K rel p.1 q.1 ∧ p.2 = q.2) (f h t) (g h' t)

/-- Layers with the same tensors. -/
def LayerRel (K : JvpKind → Prop) (rel : T → S → Prop) (a : Linear T) (b : Linear S) : Prop :=
  a.weights = b.weights ∧ a.bias = b.bias ∧ ActRel K rel a.activation b.activation

/-- Networks with the same tensors. -/
def NetRel (K : JvpKind → Prop) (rel : T → S → Prop) (a : Mlp T) (b : Mlp S) : Prop := List.Forall₂ (LayerRel K rel) a.layers b.layers

/-- Operations of integer tensors. -/
def IntKind (k : JvpKind) : Prop := k ≠ .abs ∧ k ≠ .tanh

/-- Operations of integer tensors that compare no elements. -/
def RingKind (k : JvpKind) : Prop := k ≠ .abs ∧ k ≠ .tanh ∧ k ≠ .relu

/-- `x` is `z` modulo `2 ^ w`. -/
def Residue (w : Nat) (x : Wrap w) (z : Int) : Prop := x = Wrap.ofInt w z

/-- `y` is an integer, and `x` is its residue. -/
def Whole (w : Nat) (x : Wrap w) (y : ℝ) : Prop := ∃ z : Int, x = Wrap.ofInt w z ∧ y = z

/-- `x` is `z` unless the computation of `x` has panicked. -/
def Exact {lo hi : Int} (x : Checked lo hi) (z : Int) : Prop := x.val = none ∨ x.val = some z

/-- The signed integer `x` with overflow checks has panicked or is `y`. -/
def Agree (w : Nat) (x : Checked (-2 ^ (w - 1)) (2 ^ (w - 1) - 1)) (y : Wrap w) : Prop := ∀ z, x.val = some z → y.toInt = z

end RL.Spec
