import Verif.Spec
import Verif.Model.Graph
import Mathlib.Logic.Relation

/-!
# Specification vocabulary for the autograd graph

From the model these definitions only use the data types `Heap`, `Node`, `Deriv` (and, in `Reachable`, the execution
of operation histories).
-/

namespace RL.Spec

open RL

variable {T : Type}

/-- `a` is recorded as an input of `b`. -/
def IsInput (h : Heap T) (a b : Nat) : Prop := ∃ n d, h[b]? = some n ∧ n.gradFn = some d ∧ a ∈ d.inputs

/-- `a` can be reached from `b` by following recorded inputs, in at least one step. -/
def Ancestor (h : Heap T) (a b : Nat) : Prop := Relation.TransGen (IsInput h) a b

/-- `p` leads from `l` to `t`: in every step it says which of the recorded inputs to go to. -/
inductive Path (h : Heap T) : Nat → Nat → List Nat → Prop where
  | one {l t k : Nat} {n : Node T} {d : Deriv} : h[l]? = some n → n.gradFn = some d → d.inputs[k]? = some t → Path h l t [k]
  | cons {l i t k : Nat} {p : List Nat} {n : Node T} {d : Deriv} : h[l]? = some n → n.gradFn = some d →
      d.inputs[k]? = some i → Path h i t p → Path h l t (k :: p)

/-- There are `w` paths from `l`. -/
def Ways (h : Heap T) (l w : Nat) : Prop :=
  ∃ ps : List (Nat × List Nat), ps.Nodup ∧ (∀ t p, (t, p) ∈ ps ↔ Path h l t p) ∧ ps.length = w

/-- Data (elements and shape) of a tensor. -/
def dataOf (h : Heap T) (t : Nat) : Option (Raw T) := h[t]?.map (·.val)

/-- Recorded history of a tensor. -/
def historyOf (h : Heap T) (t : Nat) : Option (Option Deriv) := h[t]?.map (·.gradFn)

/-- Data of the gradient of a tensor, if it has one. -/
def gradOf (h : Heap T) (t : Nat) : Option (Raw T) := h[t]?.bind fun n => n.grad.bind fun g => h[g]?.map (·.val)

/-- The operations that can make a tensor whose number of elements does not fit its shape: `RawTensor::default()` and a scalar times a
view. -/
inductive Misshaping (h : Heap T) : Op T → Prop where
  | default : Misshaping h .default
  | mulView (l : Nat) (v : VExpr) (s : Raw T) : dataOf h l = some s → s.shape = [] → Misshaping h (.mulView l v)
  | leftMul (s : T) (v : VExpr) : Misshaping h (.leftMul s (.view v))
  | rightMul (v : VExpr) (s : T) : Misshaping h (.rightMul (.view v) s)

/-- Sum of two gradients, where a missing gradient counts as zero. -/
def addGrad [Add T] : Option (Raw T) → Option (Raw T) → Option (Raw T)
  | none, g => g
  | g, none => g
  | some a, some b => some ⟨List.zipWith (· + ·) a.array b.array, a.shape⟩

/-- The contributions of a list of updates to one tensor, in order. -/
def contribsTo (t : Nat) (us : List (Nat × Raw T)) : List (Raw T) := (us.filter (fun u => u.1 == t)).map Prod.snd

/-- A gradient and the contributions added to it, one after the other. -/
def addAll [Add T] (o : Option (Raw T)) (cs : List (Raw T)) : Option (Raw T) := cs.foldl (fun o c => addGrad o (some c)) o

section
variable [Zero T] [One T] [Add T] [Mul T] [Sub T] [Neg T] [LT T] [DecidableLT T] [LE T] [DecidableLE T] [RealFn T]

/-- Perform gradient updates in order: for each `(t, c)` a new tensor holding `c` is passed to `t.update_grad`. -/
def performUpdates (h : Heap T) (us : List (Nat × Raw T)) : R (Heap T) :=
  us.foldlM (fun h u => updateGrad (h.leaf u.2).1 u.1 h.length) h

/-- `h` arises from a sequence of public operations. -/
def Reachable (h : Heap T) : Prop := ∃ ops, runOps [] ops = .ok h

/-- The gradients that updates may change have positive dimensions, and are absent or of the shape of their tensor. -/
def UpdatesFit (h : Heap T) (ls : List Nat) : Prop :=
  ∀ l ∈ ls, ∀ t v, Ancestor h t l → dataOf h t = some v → Pos v.shape ∧ ∀ p, gradOf h t = some p → p.shape = v.shape ∧ WF p

end

end RL.Spec
