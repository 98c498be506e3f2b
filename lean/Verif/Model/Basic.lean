/-!
# Model: outcome of a Rust computation

A Rust function of the crate is modelled by a total Lean function into `R α`.
-/

namespace RL

/-- Cause of a Rust panic. The text of panic messages is not modelled. -/
inductive Panic where
  /-- a failed `assert!`, `assert_eq!` or `debug_assert_eq!` -/
  | assert
  /-- a failed `debug_assert!` or `debug_assert_eq!`, in `Verif.Model.MachineOps`, which tells the profiles apart -/
  | debugAssert
  /-- `unwrap` on `Err` or `None`, or an explicit `panic!("{e}")` on an `Err` -/
  | unwrap
  /-- slice or `Vec` index out of bounds -/
  | index
  /-- `usize` subtraction below zero with overflow checks on (debug profile) -/
  | overflow
  /-- division or remainder by zero -/
  | divZero
  /-- `todo!()` -/
  | todo
  /-- not a Rust panic: the loop ran longer than the model's fuel. Shown unreachable. -/
  | diverge
deriving DecidableEq, Repr

/-- The `Err` values returned by `global_index`, `tensor_index` and the functions on top of them
(`/repo/src/tensor/utils.rs` 153-157, 182-190, 215-225, 229-241); message texts dropped. -/
inductive IdxErr where
  /-- "shapes do not match ... Need index to be at least as long as shape" -/
  | tooShort
  /-- "Trying to index too far into the view!" -/
  | viewBounds
  /-- "shape do not match -- &TensorView has dimension" -/
  | dimBounds
  /-- "index is too big" -/
  | tooBig
deriving DecidableEq, Repr

/-- Ways not to return normally: a Rust `Result::Err`, or a panic. -/
inductive Fail where
  | err (e : IdxErr)
  | panic (p : Panic)
deriving DecidableEq, Repr

/-- Outcome of a Rust computation. -/
abbrev R (α : Type _) := Except Fail α

/-- panic -/
def R.panic {α} (p : Panic) : R α := .error (.panic p)

/-- return `Err(e)` -/
def R.err {α} (e : IdxErr) : R α := .error (.err e)

/-- `assert!(c)` -/
def assertR (c : Bool) : R Unit := if c then .ok () else R.panic .assert

/-- `Result::unwrap`: an `Err` becomes a panic. -/
def unwrapR {α} (r : R α) : R α :=
  match r with
  | .error (.err _) => R.panic .unwrap
  | r => r

/-- `v[i]` on a `Vec` or slice: panics when out of bounds. -/
def idxR {α} (l : List α) (i : Nat) : R α :=
  match l[i]? with
  | some a => .ok a
  | none => R.panic .index

/-- `opt.unwrap()` -/
def unwrapO {α} (o : Option α) : R α :=
  match o with
  | some a => .ok a
  | none => R.panic .unwrap

/-- `a - b` on `usize`, debug profile. -/
def subR (a b : Nat) : R Nat := if b ≤ a then .ok (a - b) else R.panic .overflow

/-- Operations of `num::traits::real::Real` used by the crate
(`/repo/src/tensor/functional/element_wise_ops.rs` 28, 92, 101, 357). No laws are assumed. -/
class RealFn (T : Type) where
  tanh : T → T
  abs : T → T
  /-- `powi(2)`; the crate uses no other exponent -/
  powi2 : T → T

end RL
