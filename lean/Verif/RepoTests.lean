import Verif.Lemmas.TestInt
import Verif.Model.Nn
import Verif.SpecGraph

/-!
# Unit tests of the repository, run on the model

Tests, not proofs of properties: each example replays a test of `/repo` on the model and compares with the values the test expects.
Floats with decimals are replaced by integers, scaled by 1000 where the tested function is homogeneous. Left out are the tests that
need `tanh` of floats or random numbers.
-/

namespace RL

open Spec

attribute [local instance] Test.intFn

/-- `/repo/src/nn/linear.rs` 64-75 `test_layer_no_grad` -/
example : (do
    let h ← runOps [] [Op.filler [2, 2] 1, .filler [1, 2] 1, .new [1, 2] [1, 2]]
    let (h, y) ← (Linear.new 0 1 none).forward h 2
    return dataOf h y) = (.ok (some ⟨[4, 4], [1, 2]⟩) : R (Option (Raw Int))) := by decide +kernel

/-- `/repo/src/nn/linear.rs` 78-93 `test_layer`, weights times 10: both gradients exist after each of two backward passes -/
example : (do
    let h ← runOps [] [Op.new [10, -20, -11, 7] [2, 2], .filler [1, 2] 10, .new [1, 2] [1, 2]]
    let layer := Linear.new 0 1 none
    let (h, y) ← layer.forward h 2
    let (h, l) ← sumT h y
    let h ← backward h l
    let g1 := [gradOf h 0, gradOf h 1]
    let (h, y) ← layer.forward h 2
    let (h, l) ← sumT h y
    let h ← backward h l
    return g1 ++ [gradOf h 0, gradOf h 1]) =
    (.ok [some ⟨[1, 1, 2, 2], [2, 2]⟩, some ⟨[1, 1], [1, 2]⟩, some ⟨[2, 2, 4, 4], [2, 2]⟩, some ⟨[2, 2], [1, 2]⟩] : R (List (Option (Raw Int)))) := by
  decide +kernel

/-- `/repo/src/nn/linear.rs` 96-108 `test_layer_batch_tensor`, weights times 10: bias of rank 1 -/
example : (do
    let h ← runOps [] [Op.new [10, -20, -11, 7] [2, 2], .filler [2] 10, .new [1, 2] [1, 2]]
    let (h, y) ← (Linear.new 0 1 none).forward h 2
    let (h, l) ← sumT h y
    let h ← backward h l
    return [gradOf h 0, gradOf h 1]) = (.ok [some ⟨[1, 1, 2, 2], [2, 2]⟩, some ⟨[1, 1], [2]⟩] : R (List (Option (Raw Int)))) := by
  decide +kernel

/-- `/repo/src/tensor/rc_tensor.rs` 376-381 `test_update_grad` -/
example : (do
    let h ← runOps [] [Op.new [1] [1], .new [7] [1], .updateGrad 0 1]
    return gradOf h 0) = (.ok (some ⟨[7], [1]⟩) : R (Option (Raw Int))) := by decide +kernel

/-- `/repo/src/tensor/rc_tensor.rs` 384-388 `test_neg` -/
example : (do
    let h ← runOps [] [Op.new [1] [1], .neg 0, .backward 1]
    return gradOf h 0) = (.ok (some ⟨[-1], [1]⟩) : R (Option (Raw Int))) := by decide +kernel

/-- `/repo/src/tensor/rc_tensor.rs` 391-408 `test_add_two_inputs`, `test_add_two_inputs_cloned` -/
example : (do
    let h ← runOps [] [Op.new [111] [1], .new [-12] [1], .add 0 1, .backward 2]
    return [gradOf h 0, gradOf h 1]) = (.ok [some ⟨[1], [1]⟩, some ⟨[1], [1]⟩] : R (List (Option (Raw Int)))) := by decide +kernel

/-- `/repo/src/tensor/rc_tensor.rs` 411-419 `test_add_3` -/
example : (do
    let h ← runOps [] [Op.new [1] [1], .new [1] [1], .new [1] [1], .neg 0, .add 1 2, .add 3 4, .backward 5]
    return [gradOf h 0, gradOf h 1, gradOf h 2]) =
    (.ok [some ⟨[-1], [1]⟩, some ⟨[1], [1]⟩, some ⟨[1], [1]⟩] : R (List (Option (Raw Int)))) := by decide +kernel

/-- `/repo/src/tensor/rc_tensor.rs` 422-435 `test_element_wise_multiplication` -/
example : (do
    let h ← runOps [] [Op.new [1, 2, 3] [3], .new [7, 2, 8] [3], .mul 0 1]
    return dataOf h 2) = (.ok (some ⟨[7, 4, 24], [3]⟩) : R (Option (Raw Int))) := by decide +kernel

/-- `/repo/src/tensor/functional/misc.rs` 377-383 `test_dot_autograd` -/
example : (do
    let h ← runOps [] [Op.new [1, 2, 3] [3], .new [4, 5, 6] [3], .dot 0 1, .backward 2]
    return [gradOf h 0, gradOf h 1]) = (.ok [some ⟨[4, 5, 6], [3]⟩, some ⟨[1, 2, 3], [3]⟩] : R (List (Option (Raw Int)))) := by
  decide +kernel

/-- `/repo/src/tensor/functional/misc.rs` 401-405 `test_dot` -/
example : (do
    let h ← runOps [] [Op.new [0, 1, 2] [3], .dot 0 0]
    return dataOf h 1) = (.ok (some ⟨[5], [1]⟩) : R (Option (Raw Int))) := by decide +kernel

/-- `/repo/src/tensor/functional/misc.rs` 408-419 `test_bmm_jvp` -/
example : (do
    let h ← runOps [] [Op.new [1, 2, 3, 4] [2, 2], .new [10, 3, 42, -7] [2, 2], .bmm 0 1]
    let (h, l) ← sumT h 2
    let h ← backward h l
    return [gradOf h 0, gradOf h 1]) = (.ok [some ⟨[13, 35, 13, 35], [2, 2]⟩, some ⟨[4, 4, 6, 6], [2, 2]⟩] : R (List (Option (Raw Int)))) := by
  decide +kernel

/-- `/repo/src/tensor/functional/misc.rs` 422-444 `test_bmm_jvp_differing_shapes`, all entries times 1000 -/
example : (do
    let h ← runOps [] [Op.new [1000, 2000, 3000, 4000, 123400, 1] [3, 2], .new [10000, 10, -12000, 42000, 3142, -7000] [2, 3], .bmm 0 1]
    let (h, l) ← sumT h 2
    let h ← backward h l
    return [gradOf h 0, gradOf h 1]) =
    (.ok [some ⟨[-1990, 38142, -1990, 38142, -1990, 38142], [3, 2]⟩,
      some ⟨[127400, 127400, 127400, 6001, 6001, 6001], [2, 3]⟩] : R (List (Option (Raw Int)))) := by
  decide +kernel

/-- `/repo/src/tensor/functional/misc.rs` 447-466 `test_add_grad` -/
example : (do
    let h ← runOps [] [Op.new [1, 2, 3] [3], .new [10, 42, -5] [3], .add 0 1]
    let (h, l) ← sumT h 2
    let h ← backward h l
    return [gradOf h 0, gradOf h 1]) = (.ok [some ⟨[1, 1, 1], [3]⟩, some ⟨[1, 1, 1], [3]⟩] : R (List (Option (Raw Int)))) := by
  decide +kernel

/-- `/repo/src/tensor/functional/misc.rs` 469-490 `test_bmm_2x2` -/
example : (do
    let h ← runOps [] [Op.new [0, 1, 2, 3] [2, 2], .new [0, 1] [2, 1], .new [1, 0] [2, 1], .new [1, 1] [2, 1]]
    let (h, r0) ← bmmT h 0 3
    let h ← zeroGrad h 0
    let (h, r1) ← bmmT h 0 1
    let (h, s1) ← sumT h r1
    let h ← backward h s1
    let g1 := gradOf h 0
    let h ← zeroGrad h 0
    let (h, s2) ← sumT h r1
    let h ← backward h s2
    let (h, r2) ← bmmT h 0 2
    return [dataOf h r0, dataOf h r1, dataOf h r2, g1, gradOf h 0]) =
    (.ok [some ⟨[1, 5], [2, 1]⟩, some ⟨[1, 3], [2, 1]⟩, some ⟨[0, 2], [2, 1]⟩, some ⟨[0, 1, 0, 1], [2, 2]⟩,
      some ⟨[0, 1, 0, 1], [2, 2]⟩] : R (List (Option (Raw Int)))) := by
  decide +kernel

/-- `/repo/src/tensor/functional/misc.rs` 493-519 `test_bmm_runs`, with fixed numbers and the largest of its shapes -/
example : (do
    let h ← runOps [] [Op.new [1, 2, 3, 4, 5, 6, 7, 8, 9, 10, 11, 12, 13, 14, 15, 16] [8, 2], .new [3, 5] [2, 1], .bmm 0 1]
    let (h, l) ← sumT h 2
    let h ← backward h l
    return [gradOf h 0, gradOf h 1]) =
    (.ok [some ⟨[3, 5, 3, 5, 3, 5, 3, 5, 3, 5, 3, 5, 3, 5, 3, 5], [8, 2]⟩, some ⟨[64, 72], [2, 1]⟩] : R (List (Option (Raw Int)))) := by
  decide +kernel

/-- `/repo/src/tensor/functional/element_wise_ops.rs` 417-469 `test_add_jvp`, cases 0, 2, 3, 4, and case 1 times 10 -/
example : addJvp [⟨[1, 2, 3], [3]⟩, ⟨[1, 2, 3], [3]⟩] [⟨[1, 1, 1], [1, 3]⟩] =
    (.ok [⟨[1, 1, 1], [1, 3]⟩, ⟨[1, 1, 1], [1, 3]⟩] : R (List (Raw Int))) := by decide +kernel

example : addJvp [⟨[100, -20, 30, 40], [4]⟩, ⟨[10, 20, 30, 1], [4]⟩] [⟨[1, 1, 1, 1], [1, 4]⟩] =
    (.ok [⟨[1, 1, 1, 1], [1, 4]⟩, ⟨[1, 1, 1, 1], [1, 4]⟩] : R (List (Raw Int))) := by decide +kernel

example : addJvp [⟨[1, 2, 3], [3]⟩, ⟨[1, 2, 3], [3]⟩] [⟨[1, 2, 3], [1, 3]⟩] =
    (.ok [⟨[1, 2, 3], [1, 3]⟩, ⟨[1, 2, 3], [1, 3]⟩] : R (List (Raw Int))) := by decide +kernel

example : addJvp [⟨[1, 2, 3], [3]⟩, ⟨[1, 2, 3], [3]⟩] [⟨[1, 2, 3, 1, 2, 3], [2, 3]⟩] =
    (.ok [⟨[1, 2, 3, 1, 2, 3], [2, 3]⟩, ⟨[1, 2, 3, 1, 2, 3], [2, 3]⟩] : R (List (Raw Int))) := by decide +kernel

example : addJvp [⟨[1], [1]⟩, ⟨[1, 2, 3], [3]⟩] [⟨[1, 2, 3, 1, 2, 3], [2, 3]⟩] =
    (.ok [⟨[6, 6], [2, 1]⟩, ⟨[1, 2, 3, 1, 2, 3], [2, 3]⟩] : R (List (Raw Int))) := by decide +kernel

/-- `/repo/src/tensor/functional/element_wise_ops.rs` 472-480 `test_sum_backward` -/
example : (do
    let h ← runOps [] [Op.new [1, 2, 3] [3]]
    let (h, l) ← sumT h 0
    let h ← backward h l
    return gradOf h 0) = (.ok (some ⟨[1, 1, 1], [3]⟩) : R (Option (Raw Int))) := by decide +kernel

/-- `/repo/src/tensor/functional/element_wise_ops.rs` 483-487 `test_add_to_zero` -/
example : (do
    let h ← runOps [] [Op.new [1, 2, 3] [3], .new [1, 2, 3] [3]]
    let (h, r) ← subT h 0 1
    let (h, s) ← sumT h r
    let n ← h.node s
    let e ← (TL.raw n.val).elem
    return (dataOf h r, e)) = (.ok (some ⟨[0, 0, 0], [3]⟩, 0) : R (Option (Raw Int) × Int)) := by decide +kernel

/-- `/repo/src/tensor/functional/element_wise_ops.rs` 606-616 `test_add_functional` -/
example : (do
    let h ← runOps [] [Op.filler [4, 4] 1, .new ((List.range 32).map Int.ofNat) [2, 4, 4]]
    let (h, s) ← addT h 1 0
    let (h, l) ← sumT h s
    let h ← backward h l
    let (h, r1) ← addT h 1 0
    let (h, r2) ← addT h 0 1
    return [gradOf h 0, dataOf h r1, dataOf h r2]) =
    (.ok [some ⟨List.replicate 16 2, [4, 4]⟩, some ⟨(List.range 32).map fun i => Int.ofNat (i + 1), [2, 4, 4]⟩,
      some ⟨(List.range 32).map fun i => Int.ofNat (i + 1), [2, 4, 4]⟩] : R (List (Option (Raw Int)))) := by decide +kernel

/-- `/repo/src/tensor/functional/element_wise_ops.rs` 619-634 `test_abs`, all entries times 1000 -/
example : (do
    let h ← runOps [] [Op.new [-1000, -2000, 3000, -1, -700000, 1200] [2, 3], .abs 0]
    let (h, l) ← sumT h 1
    let h ← backward h l
    return [dataOf h 1, gradOf h 0]) =
    (.ok [some ⟨[1000, 2000, 3000, 1, 700000, 1200], [2, 3]⟩, some ⟨[-1, -1, 1, -1, -1, 1], [2, 3]⟩] : R (List (Option (Raw Int)))) := by
  decide +kernel

/-- `/repo/src/tensor/functional/element_wise_ops.rs` 637-658 `test_abs_sum`, all entries times 1000 -/
example : (do
    let h ← runOps [] [Op.new [-1000, -2000, 3000, -1, -700000, 1200] [2, 3], .new [12000, 7000, 1230, 1, 4200, -10000] [2, 3]]
    let (h, s) ← addT h 1 0
    let (h, a) ← absT h s
    let (h, l) ← sumT h a
    let h ← backward h l
    return dataOf h a) = (.ok (some ⟨[11000, 5000, 4230, 0, 695800, 8800], [2, 3]⟩) : R (Option (Raw Int))) := by
  decide +kernel

/-- `/repo/src/tensor/utils.rs` 55-71 `test_element_iterator` -/
example : (do
    let v ← View.new (⟨[1, 2, 3], [3]⟩ : Raw Int) [⟨0, 3⟩]
    let l ← forElems (.view v) [] (fun acc x => .ok (acc ++ [x]))
    let r ← forElems (.raw ⟨[1, 2, 3], [3]⟩) [] (fun acc x => .ok (acc ++ [x]))
    return (l, r)) = (.ok ([1, 2, 3], [1, 2, 3]) : R (List Int × List Int)) := by decide +kernel

/-- `/repo/src/tensor/utils.rs` 161-174 `test_tensor_index`, first and third shape -/
example : ∀ i < 6, (do globalIndex (← tensorIndex i [1, 2, 3, 1]) [1, 2, 3, 1] none) = .ok i := by decide +kernel

example : ∀ i < 840, (do globalIndex (← tensorIndex i [1, 2, 3, 4, 5, 7]) [1, 2, 3, 4, 5, 7] none) = .ok i := by decide +kernel

/-- `/repo/src/tensor/utils.rs` 263-284 `test_increment_index` -/
example : (do
    let mut idx := [0, 0, 0]
    let mut out := []
    for _ in List.range 11 do
      let (i, valid) ← incrementIndex idx [2, 3, 2]
      idx := i
      out := out ++ [(i, valid)]
    return out) = (.ok [([0, 0, 1], true), ([0, 1, 0], true), ([0, 1, 1], true), ([0, 2, 0], true), ([0, 2, 1], true), ([1, 0, 0], true),
      ([1, 0, 1], true), ([1, 1, 0], true), ([1, 1, 1], true), ([1, 2, 0], true), ([1, 2, 1], true)] : R (List (List Nat × Bool))) := by
  decide +kernel

/-- `/repo/src/tensor/utils.rs` 287-302 `test_index_iterator` -/
example : iterIndices [2, 2, 2] = .ok [[0, 0, 0], [0, 0, 1], [0, 1, 0], [0, 1, 1], [1, 0, 0], [1, 0, 1], [1, 1, 0], [1, 1, 1]] := by
  decide +kernel

/-- `/repo/src/tensor/tensor_view.rs` 179-192 `test_sum_tensor_view` -/
example : (do
    let t ← Raw.new [0, 1, 2, 3, 2, 3, 4, 5, 3, 4, 5, 6, 0, 1, 2, 3, 2, 3, 4, 5, 3, 4, 5, 6] [2, 3, 4]
    let v ← View.new t [← SliceRange.new 0 2, ← SliceRange.new 1 2, ← SliceRange.new 2 4]
    (TL.raw (← (TL.view v).sum)).elem) = (.ok (2 * (4 + 5)) : R Int) := by decide +kernel

/-- `/repo/tests/test_tensor.rs` 4-38 `test_slicing` -/
example : (do
    let t1 ← Raw.fromVec [⟨[0, 1, 2], [3]⟩, ⟨[3, 4, 5], [3]⟩]
    let t2 ← Raw.fromVec [⟨[1, 2], [2]⟩, ⟨[4, 5], [2]⟩]
    let s1 ← View.new t1 [⟨0, 2⟩, ⟨1, 3⟩]
    let s2 ← View.new t2 [⟨0, 2⟩, ⟨0, 2⟩]
    let s3 ← View.new t1 [⟨0, 2⟩, ⟨0, 3⟩]
    return (← s1.eq (.view s2), ← s1.at [0, 0], ← s1.eq (.view s3))) = (.ok (true, 1, false) : R (Bool × Int × Bool)) := by decide +kernel

example : (do
    let t ← Raw.new ((List.range 32).map Int.ofNat) [2, 4, 4]
    let s ← View.new t [⟨1, 2⟩, ⟨2, 3⟩, ⟨1, 4⟩]
    return (s.shape, ← s.eq (.raw ⟨[25, 26, 27], [1, 1, 3]⟩))) = (.ok ([1, 1, 3], true) : R (List Nat × Bool)) := by decide +kernel

/-- `/repo/tests/test_tensor.rs` 41-52 `test_from_array`, `test_from_vec` -/
example : Raw.fromNested (T := Int) 2 ([[0, 1, 2], [3, 4, 5]] : List (List Int)) = (Raw.new ((List.range 6).map Int.ofNat) [2, 3] : R (Raw Int)) := by decide +kernel

/-- `/repo/tests/test_tensor.rs` 56-61 `test_new_with_filler` -/
example : (Raw.newWithFiller [4] 4).shape = [4] ∧ (Raw.newWithFiller [4] (4 : Int)).get [0] = .ok 4 := by decide +kernel

/-- `/repo/tests/test_tensor.rs` 65-79 `test_get_2x2x2`, `test_get_3x3x4` -/
example : (⟨[0, 1, 2, 3, 4, 5, 6, 7], [2, 2, 2]⟩ : Raw Int).get [0, 0, 0] = .ok 0 ∧
    (⟨[0, 1, 2, 3, 4, 5, 6, 7], [2, 2, 2]⟩ : Raw Int).get [0, 1, 0] = .ok 2 ∧
    (⟨[0, 1, 2, 3, 4, 5, 6, 7], [2, 2, 2]⟩ : Raw Int).get [1, 1, 1] = .ok 7 ∧
    (⟨(List.range 36).map Int.ofNat, [3, 3, 4]⟩ : Raw Int).get [0, 0, 0] = .ok 0 ∧
    (⟨(List.range 36).map Int.ofNat, [3, 3, 4]⟩ : Raw Int).get [2, 2, 3] = .ok 35 := by decide +kernel

/-- `/repo/tests/test_tensor.rs` 82-101 `test_get_3x3` -/
example : ∀ i < 3, ∀ j < 3, (⟨List.range 9, [3, 3]⟩ : Raw Nat).get [i, j] = .ok (3 * i + j) := by decide +kernel

/-- `/repo/tests/test_tensor.rs` 104-114 `test_add_scalar` -/
example : addRaw (.raw ⟨List.range 32, [2, 4, 4]⟩) (.raw (Raw.scalar 42)) = .ok ⟨(List.range 32).map (· + 42), [2, 4, 4]⟩ ∧
    addRaw (.raw (Raw.scalar 42)) (.raw ⟨List.range 32, [2, 4, 4]⟩) = .ok ⟨(List.range 32).map (· + 42), [2, 4, 4]⟩ := by decide +kernel

/-- `/repo/tests/test_tensor.rs` 131-137 `test_right_scalar_multiplication` -/
example : (TL.raw (Raw.newWithFiller [4] (1 : Int))).rightScalarMul 42 = ⟨[42, 42, 42, 42], [4]⟩ := by decide +kernel

/-- `/repo/src/tensor/raw_tensor.rs` 219-230, documentation test: indices longer than the shape, and indices of dimensions of length 1 -/
example : (⟨[0, 1, 2, 3], [2, 2]⟩ : Raw Int).get [0, 1] = (⟨[0, 1, 2, 3], [2, 2]⟩ : Raw Int).get [0, 0, 1] ∧
    (⟨[0, 1, 2, 3], [2, 2]⟩ : Raw Int).get [0, 1] = (⟨[0, 1, 2, 3], [2, 2]⟩ : Raw Int).get [0, 4, 0, 1] ∧
    (⟨(List.range 16).map Int.ofNat, [2, 2, 1, 2, 2]⟩ : Raw Int).get [0, 0, 0, 0, 1] =
      (⟨(List.range 16).map Int.ofNat, [2, 2, 1, 2, 2]⟩ : Raw Int).get [0, 0, 10, 0, 1] := by decide +kernel

end RL
