import Verif.Model.Graph

/-!
# Integer element types

`/repo/src/tensor/numeric.rs` 27-35 makes the integer types elements of tensors. `Wrap w` are the `w` bit integers without overflow
checks (release profile): two's complement, results modulo `2 ^ w`. `Checked lo hi` are the integers from `lo` to `hi` with overflow
checks (debug profile): `none` stands for the panic. A program that computes `none` anywhere has panicked there; `none` is kept by all
later arithmetic.

`num::traits::real::Real` is not implemented for integers, so `tanh` and `abs` (`RealFn`) do not exist for them; the instances are
placeholders.
-/

namespace RL

/-- `i8`, ..., `i128` and `u8`, ..., `u128`, `usize` without overflow checks; the order is the signed one. -/
structure Wrap (w : Nat) where
  bits : BitVec w
deriving DecidableEq, Repr

namespace Wrap

variable {w : Nat}

/-- The literal or result `z`, reduced modulo `2 ^ w`. -/
def ofInt (w : Nat) (z : Int) : Wrap w := ⟨BitVec.ofInt w z⟩

/-- Value of a signed integer. -/
def toInt (x : Wrap w) : Int := x.bits.toInt

/-- Value of an unsigned integer. -/
def toNat (x : Wrap w) : Nat := x.bits.toNat

instance : Zero (Wrap w) := ⟨⟨0#w⟩⟩
instance : One (Wrap w) := ⟨⟨1#w⟩⟩
instance : Add (Wrap w) := ⟨fun a b => ⟨a.bits + b.bits⟩⟩
instance : Mul (Wrap w) := ⟨fun a b => ⟨a.bits * b.bits⟩⟩
instance : Sub (Wrap w) := ⟨fun a b => ⟨a.bits - b.bits⟩⟩
instance : Neg (Wrap w) := ⟨fun a => ⟨-a.bits⟩⟩
instance : LT (Wrap w) := ⟨fun a b => a.toInt < b.toInt⟩
instance : LE (Wrap w) := ⟨fun a b => a.toInt ≤ b.toInt⟩
instance : DecidableLT (Wrap w) := fun a b => inferInstanceAs (Decidable (a.toInt < b.toInt))
instance : DecidableLE (Wrap w) := fun a b => inferInstanceAs (Decidable (a.toInt ≤ b.toInt))
instance : RealFn (Wrap w) := ⟨id, id, id⟩

end Wrap

/-- The integers from `lo` to `hi` with overflow checks. -/
structure Checked (lo hi : Int) where
  val : Option Int
deriving DecidableEq, Repr

namespace Checked

variable {lo hi : Int}

/-- A result: panics unless it is in range. -/
def check (z : Int) : Checked lo hi := ⟨if lo ≤ z ∧ z ≤ hi then some z else none⟩

instance : Zero (Checked lo hi) := ⟨⟨some 0⟩⟩
instance : One (Checked lo hi) := ⟨⟨some 1⟩⟩
instance : Add (Checked lo hi) := ⟨fun a b => match a.val, b.val with
  | some x, some y => check (x + y)
  | _, _ => ⟨none⟩⟩
instance : Mul (Checked lo hi) := ⟨fun a b => match a.val, b.val with
  | some x, some y => check (x * y)
  | _, _ => ⟨none⟩⟩
instance : Sub (Checked lo hi) := ⟨fun a b => match a.val, b.val with
  | some x, some y => check (x - y)
  | _, _ => ⟨none⟩⟩
instance : Neg (Checked lo hi) := ⟨fun a => match a.val with
  | some x => check (-x)
  | none => ⟨none⟩⟩
instance : LT (Checked lo hi) := ⟨fun a b => a.val.getD 0 < b.val.getD 0⟩
instance : LE (Checked lo hi) := ⟨fun a b => a.val.getD 0 ≤ b.val.getD 0⟩
instance : DecidableLT (Checked lo hi) := fun a b => inferInstanceAs (Decidable (a.val.getD 0 < b.val.getD 0))
instance : DecidableLE (Checked lo hi) := fun a b => inferInstanceAs (Decidable (a.val.getD 0 ≤ b.val.getD 0))
instance : RealFn (Checked lo hi) := ⟨id, id, id⟩

end Checked

end RL
