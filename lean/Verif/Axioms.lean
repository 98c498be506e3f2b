import Verif.Props.Accept
import Verif.Props.Algebra
import Verif.Props.Alone
import Verif.Props.Balance
import Verif.Props.BalanceExact
import Verif.Props.Batch
import Verif.Props.Blank
import Verif.Props.Bound
import Verif.Props.Collapse
import Verif.Props.Concurrent
import Verif.Props.ConcurrentExact
import Verif.Props.ConcurrentMany
import Verif.Props.Constant
import Verif.Props.Converge
import Verif.Props.ConvergeExact
import Verif.Props.Cost
import Verif.Props.CostExact
import Verif.Props.Debug
import Verif.Props.Delay
import Verif.Props.Descent
import Verif.Props.DescentExact
import Verif.Props.Detach
import Verif.Props.DotLoss
import Verif.Props.DotRoot
import Verif.Props.DotShapes
import Verif.Props.Elementwise
import Verif.Props.Exact2
import Verif.Props.Exact3
import Verif.Props.Feature
import Verif.Props.ForwardShapes
import Verif.Props.Generic
import Verif.Props.GradShapesExact
import Verif.Props.Gradient
import Verif.Props.Graph
import Verif.Props.Graph2
import Verif.Props.Graph3
import Verif.Props.Grid
import Verif.Props.Indexing
import Verif.Props.InputChange
import Verif.Props.InputUnit
import Verif.Props.IntsRelu
import Verif.Props.Iter
import Verif.Props.Jvp
import Verif.Props.JvpSharp
import Verif.Props.Kink
import Verif.Props.Local
import Verif.Props.Locks
import Verif.Props.LocksExact
import Verif.Props.LossFloor
import Verif.Props.Machine
import Verif.Props.Machine2
import Verif.Props.Main
import Verif.Props.MatMul
import Verif.Props.MatMulExact
import Verif.Props.MemPath
import Verif.Props.Memory
import Verif.Props.Minibatch
import Verif.Props.Mirror
import Verif.Props.Nan
import Verif.Props.NanRanks
import Verif.Props.Nn
import Verif.Props.Order
import Verif.Props.OutputRange
import Verif.Props.Outputs
import Verif.Props.Panic
import Verif.Props.Param
import Verif.Props.Passing
import Verif.Props.Place
import Verif.Props.Precision
import Verif.Props.Reach
import Verif.Props.Relation
import Verif.Props.Repeat
import Verif.Props.RepeatExact
import Verif.Props.RepeatWide
import Verif.Props.Reproduce
import Verif.Props.Round
import Verif.Props.Rows
import Verif.Props.Settle
import Verif.Props.ShapesExact
import Verif.Props.Sharp
import Verif.Props.Span
import Verif.Props.Stable
import Verif.Props.StableExact
import Verif.Props.Steady
import Verif.Props.Targets
import Verif.Props.Text
import Verif.Props.Train
import Verif.Props.Trainable
import Verif.Props.Tying
import Verif.Props.Units
import Verif.Props.UnitsExact
import Verif.Props.UnitsWide
import Verif.Props.Unread
import Verif.Props.Unused
import Verif.Props.Values
import Verif.Props.Views
import Verif.Props.ViewsExact
import Verif.Props.ViewsExact2
import Verif.Props.Windows
import Verif.Props.WorkShapes

/-!
Axioms every claimed theorem depends on; the output of the build shows
`propext`, `Classical.choice`, `Quot.sound` or a subset.
-/

#print axioms RL.C01_get_row_major
#print axioms RL.C02_get_total
#print axioms RL.C02_get_no_panic
#print axioms RL.C03_broadcast_read
#print axioms RL.C03_surplus
#print axioms RL.C03_len_one
#print axioms RL.C04_injective
#print axioms RL.C04_surjective
#print axioms RL.C04_set_get
#print axioms RL.C05_iteration
#print axioms RL.C05_scalar
#print axioms RL.C06_flat_roundtrip
#print axioms RL.C06_index_roundtrip
#print axioms RL.C06_too_big
#print axioms RL.C07_new
#print axioms RL.C07_filler
#print axioms RL.C07_scalar
#print axioms RL.C07_elem
#print axioms RL.C08_nested
#print axioms RL.C08_nested_panics
#print axioms RL.C09_false
#print axioms RL.C09_default_false
#print axioms RL.C09_partial
#print axioms RL.C09_exact
#print axioms RL.C10_add
#print axioms RL.C11_add_accepts
#print axioms RL.C12_sub
#print axioms RL.C12_sub_accepts
#print axioms RL.C12_add_comm
#print axioms RL.C12_add_assoc
#print axioms RL.C12_sub_self
#print axioms RL.C13_mul
#print axioms RL.C13_mul_rejects
#print axioms RL.C14_left_partial
#print axioms RL.C14_right_partial
#print axioms RL.C14_full_view_partial
#print axioms RL.C14_view_actual
#print axioms RL.C14_view_false
#print axioms RL.C14_window_partial
#print axioms RL.C14_exact
#print axioms RL.C15_unary
#print axioms RL.C15_ops
#print axioms RL.C16_sum
#print axioms RL.C17_dot_partial
#print axioms RL.C17_view_false
#print axioms RL.C17_actual
#print axioms RL.C17_exact
#print axioms RL.C18_matrix
#print axioms RL.C18_batched
#print axioms RL.C18_matrix_sum
#print axioms RL.C19_schedule_independent
#print axioms RL.C19_terminates
#print axioms RL.C20_rejects
#print axioms RL.C20_accepts_partial
#print axioms RL.C20_accepts_false
#print axioms RL.C20_rank4_first_row
#print axioms RL.C20_rank4_panics
#print axioms RL.C20_leading_ones
#print axioms RL.C20_exact
#print axioms RL.C21_view_reads
#print axioms RL.C21_out_of_range
#print axioms RL.C22_range
#print axioms RL.C22_view
#print axioms RL.C23_to_tensor
#print axioms RL.C24_slice_partial
#print axioms RL.C24_false
#print axioms RL.C24_actual
#print axioms RL.C24_exact
#print axioms RL.C25_accepts
#print axioms RL.C25_prepend_ones_partial
#print axioms RL.C25_false
#print axioms RL.C25_actual
#print axioms RL.C25_exact
#print axioms RL.C26_tensor_eq
#print axioms RL.C26_tensor_eq_beq
#print axioms RL.C26_view_eq
#print axioms RL.C26_equivalence
#print axioms RL.C27_clone
#print axioms RL.C27_detached
#print axioms RL.C28_iterate
#print axioms RL.C28_add
#print axioms RL.C28_mul
#print axioms RL.C28_neg_sum
#print axioms RL.C28_bmm
#print axioms RL.C29_partial
#print axioms RL.C29_runs_partial
#print axioms RL.C29_exists
#print axioms RL.C29_unique
#print axioms RL.C29_replay
#print axioms RL.C29_success
#print axioms RL.C29_actual
#print axioms RL.C29_tangents_exist
#print axioms RL.C29_tangents_unique
#print axioms RL.C29_shuffle
#print axioms RL.C29_witness_grad
#print axioms RL.C29_false
#print axioms RL.C29_sweeps_exist
#print axioms RL.C29_sweeps_unique
#print axioms RL.C30_fold
#print axioms RL.C30_sum
#print axioms RL.C30_same_shape
#print axioms RL.C31_false
#print axioms RL.C31_actual
#print axioms RL.C31_partial
#print axioms RL.C31_exact
#print axioms RL.C32_false
#print axioms RL.C32_actual
#print axioms RL.C32_partial
#print axioms RL.C32_sum_partial
#print axioms RL.C32_exact
#print axioms RL.C32_at_all
#print axioms RL.C33_schedule
#print axioms RL.C33_deterministic
#print axioms RL.C33_order
#print axioms RL.C33_pool
#print axioms RL.C33_cells
#print axioms RL.C34_no_assert
#print axioms RL.C34_finite
#print axioms RL.C34_finite_threads
#print axioms RL.C34_progress_threads
#print axioms RL.C34_partial
#print axioms RL.C34_finishes_partial
#print axioms RL.C34_result
#print axioms RL.C34_false
#print axioms RL.C34_inside_blocks
#print axioms RL.C34_exact
#print axioms RL.C35_terminates
#print axioms RL.C35_depth
#print axioms RL.C35_acyclic
#print axioms RL.C36_backward
#print axioms RL.C37_zero_grad
#print axioms RL.C37_state_independent
#print axioms RL.C37_accumulates
#print axioms RL.C37_losses
#print axioms RL.C37_twice
#print axioms RL.C37_again
#print axioms RL.C38_false
#print axioms RL.C38_partial
#print axioms RL.C38_exact
#print axioms RL.C38_step_exact
#print axioms RL.C38_backward
#print axioms RL.C38_stale
#print axioms RL.C39_rejects
#print axioms RL.C39_false
#print axioms RL.C39_actual
#print axioms RL.C39_partial
#print axioms RL.C39_exact
#print axioms RL.C39_dot
#print axioms RL.C41_shapes
#print axioms RL.C40_history
#print axioms RL.C40_ancestors
#print axioms RL.C41_partial
#print axioms RL.C41_false
#print axioms RL.C41_rejects
#print axioms RL.C41_rows_partial
#print axioms RL.C41_shapes
#print axioms RL.C39_dot
#print axioms RL.C41_exact
#print axioms RL.C42_updates
#print axioms RL.C42_updates_exist
#print axioms RL.C42_sequential
#print axioms RL.C42_progress
#print axioms RL.C42_finite
#print axioms RL.C42_actual
#print axioms RL.C42_single
#print axioms RL.C42_partial
#print axioms RL.C42_false
#print axioms RL.C42_stable
#print axioms RL.C42_exact
#print axioms RL.C43_paths
#print axioms RL.C43_doubling
#print axioms RL.C44_identity
#print axioms RL.C44_relu
#print axioms RL.C44_tanh
#print axioms RL.C44_linear
#print axioms RL.C44_new
#print axioms RL.C45_compose
#print axioms RL.C45_forward
#print axioms RL.C46_params
#print axioms RL.C46_update
#print axioms RL.C46_roundtrip
#print axioms RL.C46_short
#print axioms RL.C46_long
#print axioms RL.C46_layer
#print axioms RL.C47_step
#print axioms RL.C47_layer
#print axioms RL.C47_sub
#print axioms RL.C47_panics
#print axioms RL.C47_misfit
#print axioms RL.C48_false
#print axioms RL.C48_chain
#print axioms RL.C48_reaches
#print axioms RL.C48_exact
#print axioms RL.C49_pure
#print axioms RL.C49_history
#print axioms RL.C49_update_grad
#print axioms RL.C50_step_partial
#print axioms RL.C50_loop_partial
#print axioms RL.C50_step_actual
#print axioms RL.C50_actual
#print axioms RL.C50_fresh
#print axioms RL.C50_false
#print axioms RL.C50_zeroed
#print axioms RL.C90_exact
#print axioms RL.C51_partial
#print axioms RL.C51_actual
#print axioms RL.C51_false
#print axioms RL.C51_exact
#print axioms RL.C52_partial
#print axioms RL.C52_actual
#print axioms RL.C52_false
#print axioms RL.C52_exact
#print axioms RL.C53_neg
#print axioms RL.C53_relu
#print axioms RL.C53_abs
#print axioms RL.C53_tanh
#print axioms RL.C54_loss
#print axioms RL.C54_partial
#print axioms RL.C54_actual
#print axioms RL.C54_false
#print axioms RL.C54_layer_exact
#print axioms RL.C54_exact
#print axioms RL.C54_net_exact
#print axioms RL.C55_rows
#print axioms RL.C56_assoc
#print axioms RL.C56_add_left
#print axioms RL.C56_add_right
#print axioms RL.C56_scalar
#print axioms RL.C56_one
#print axioms RL.C57_add
#print axioms RL.C57_scalar
#print axioms RL.C57_neg
#print axioms RL.C57_perm
#print axioms RL.C58_false
#print axioms RL.C58_single_partial
#print axioms RL.C58_two_partial
#print axioms RL.C58_late
#print axioms RL.C58_exact
#print axioms RL.C59_false
#print axioms RL.C59_partial
#print axioms RL.C59_last
#print axioms RL.C29_actual
#print axioms RL.C29_partial
#print axioms RL.C60_updates
#print axioms RL.C60_determined
#print axioms RL.C60_activations
#print axioms RL.C60_false
#print axioms RL.C60_actual
#print axioms RL.C60_between
#print axioms RL.C60_depth
#print axioms RL.C60_partial
#print axioms RL.C60_exact
#print axioms RL.C61_false
#print axioms RL.C61_distinct
#print axioms RL.C61_partial
#print axioms RL.C61_diverges
#print axioms RL.C61_exact
#print axioms RL.C62_alone
#print axioms RL.C62_result
#print axioms RL.C62_finite
#print axioms RL.C62_partial
#print axioms RL.C62_finishes_partial
#print axioms RL.C62_outside
#print axioms RL.C62_false
#print axioms RL.C62_exact
#print axioms RL.C62_blocks
#print axioms RL.C63_sum
#print axioms RL.C63_gamma
#print axioms RL.C63_dot
#print axioms RL.C63_matrix
#print axioms RL.C63_batched
#print axioms RL.C63_network
#print axioms RL.C64_error
#print axioms RL.C64_runs
#print axioms RL.C65_step
#print axioms RL.C66_value
#print axioms RL.C66_gradient
#print axioms RL.C67_false
#print axioms RL.C67_heap
#print axioms RL.C67_owned
#print axioms RL.C67_held
#print axioms RL.C67_count
#print axioms RL.C67_safe
#print axioms RL.C67_drop
#print axioms RL.C67_leak
#print axioms RL.C67_partial
#print axioms RL.C67_plain
#print axioms RL.C67_exact
#print axioms RL.C68_false
#print axioms RL.C68_growth
#print axioms RL.C68_never
#print axioms RL.C69_false
#print axioms RL.C69_depth
#print axioms RL.C69_bound
#print axioms RL.C69_path
#print axioms RL.C69_exact
#print axioms RL.C70_false
#print axioms RL.C70_growth
#print axioms RL.C70_never
#print axioms RL.C71_false
#print axioms RL.C71_partial
#print axioms RL.C71_debug
#print axioms RL.C71_release
#print axioms RL.C71_fits
#print axioms RL.C71_filler
#print axioms RL.C71_get
#print axioms RL.C71_offset
#print axioms RL.C71_view_get
#print axioms RL.C71_view
#print axioms RL.C71_reshape
#print axioms RL.C71_increment
#print axioms RL.C71_increment_zero
#print axioms RL.C71_exact_debug
#print axioms RL.C71_exact_release
#print axioms RL.C72_related
#print axioms RL.C72_outcome
#print axioms RL.C72_train
#print axioms RL.C72_activations
#print axioms RL.C73_false
#print axioms RL.C73_partial
#print axioms RL.C73_signed
#print axioms RL.C73_unsigned
#print axioms RL.C73_checked
#print axioms RL.C73_profiles
#print axioms RL.C73_checks
#print axioms RL.C73_panics
#print axioms RL.C73_signs_partial
#print axioms RL.C73_relu_partial
#print axioms RL.C73_sign
#print axioms RL.C73_needed
#print axioms RL.C73_run
#print axioms RL.C73_same
#print axioms RL.C73_sub
#print axioms RL.C74_gradient
#print axioms RL.C75_model
#print axioms RL.C75_partial
#print axioms RL.C75_updates
#print axioms RL.C75_reachable
#print axioms RL.C75_other
#print axioms RL.C75_false
#print axioms RL.C76_partial
#print axioms RL.C76_runs_partial
#print axioms RL.C76_almost
#print axioms RL.C76_measure
#print axioms RL.C76_false
#print axioms RL.C77_partial
#print axioms RL.C77_rate_partial
#print axioms RL.C77_subgradient
#print axioms RL.C77_false
#print axioms RL.C77_exact
#print axioms RL.C78_step_partial
#print axioms RL.C78_runs_partial
#print axioms RL.C78_linear_partial
#print axioms RL.C78_actual
#print axioms RL.C78_exists
#print axioms RL.C78_false
#print axioms RL.C79_partial
#print axioms RL.C79_params_partial
#print axioms RL.C79_loss_partial
#print axioms RL.C79_false
#print axioms RL.C79_gradients
#print axioms RL.C79_ranks_partial
#print axioms RL.C79_exact
#print axioms RL.C80_partial
#print axioms RL.C80_wide_partial
#print axioms RL.C80_exact
#print axioms RL.C80_loss
#print axioms RL.C80_false
#print axioms RL.C81_partial
#print axioms RL.C81_exact
#print axioms RL.C81_false
#print axioms RL.C82_partial
#print axioms RL.C82_wide_partial
#print axioms RL.C82_same_wide_partial
#print axioms RL.C82_exact
#print axioms RL.C82_loss
#print axioms RL.C82_same_partial
#print axioms RL.C82_false
#print axioms RL.C82_same_false
#print axioms RL.C83_partial
#print axioms RL.C83_bias
#print axioms RL.C83_false
#print axioms RL.C83_exact
#print axioms RL.C84_partial
#print axioms RL.C84_ok
#print axioms RL.C84_from
#print axioms RL.C84_terminates
#print axioms RL.C84_false
#print axioms RL.C84_false_assert
#print axioms RL.C84_train
#print axioms RL.C84_release
#print axioms RL.C84_exact
#print axioms RL.C85
#print axioms RL.C85_iff
#print axioms RL.C85_small
#print axioms RL.C85_from
#print axioms RL.C85_train
#print axioms RL.C86
#print axioms RL.C86_any
#print axioms RL.C86_real
#print axioms RL.C86_profiles
#print axioms RL.C86_sample_release
#print axioms RL.C86_sample_debug
#print axioms RL.C87_false
#print axioms RL.C87_cycle
#print axioms RL.C87_partial
#print axioms RL.C87_plain
#print axioms RL.C87_paths
#print axioms RL.C87_all
#print axioms RL.C87_stack
#print axioms RL.C87_ends
#print axioms RL.C87_doubling
#print axioms RL.C87_train
#print axioms RL.C87_exact
#print axioms RL.C88_false
#print axioms RL.C88_partial
#print axioms RL.C88_debug
#print axioms RL.C88_release
#print axioms RL.C88_release_zero
#print axioms RL.C88_elements
#print axioms RL.C88_exact
#print axioms RL.C89_false
#print axioms RL.C89_partial
#print axioms RL.C89_train_partial
#print axioms RL.C89_wide_partial
#print axioms RL.C89_train_wide_partial
#print axioms RL.C89_exact
#print axioms RL.C89_loss
#print axioms RL.C90_exact
#print axioms RL.C90_witness
#print axioms RL.C91_false
#print axioms RL.C91_identity
#print axioms RL.C91_fit
#print axioms RL.C91_odd
#print axioms RL.C91_unsettled
#print axioms RL.C91_tanh
#print axioms RL.C91_partial
#print axioms RL.C91_exact
#print axioms RL.C92_mirror
#print axioms RL.C92_loss
#print axioms RL.C92_kink
#print axioms RL.C93_shift
#print axioms RL.C93_loss
#print axioms RL.C94_false
#print axioms RL.C94_partial
#print axioms RL.C94_exact
#print axioms RL.C94_actual
#print axioms RL.C94_loss
#print axioms RL.C95_place
#print axioms RL.C95_fresh
#print axioms RL.C96_turns
#print axioms RL.C96_fails
#print axioms RL.C96_succeeds
#print axioms RL.C97_resume
#print axioms RL.C97_loss
#print axioms RL.C97_detached
#print axioms RL.C97_work
#print axioms RL.C97_loose
#print axioms RL.C98_steady
#print axioms RL.C98_shapes
#print axioms RL.C98_loop
#print axioms RL.C98_detached
#print axioms RL.C99_exact
#print axioms RL.C99_loop
#print axioms RL.C99_rates
#print axioms RL.C99_dense
#print axioms RL.C99_batches
#print axioms RL.C100_stream
#print axioms RL.C100_keeps
#print axioms RL.C100_order
#print axioms RL.C101_forward
#print axioms RL.C101_loss
#print axioms RL.C101_gap
#print axioms RL.C101_step
#print axioms RL.C101_unique
#print axioms RL.C101_dense
#print axioms RL.C101_trainable
#print axioms RL.C101_matrix
#print axioms RL.C102_dense
#print axioms RL.C102_shapes
#print axioms RL.C102_machine
#print axioms RL.C102_exact
#print axioms RL.C103_partial
#print axioms RL.C103_generic
#print axioms RL.C103_false
#print axioms RL.C103_exact
#print axioms RL.C104_elements
#print axioms RL.C104_total
#print axioms RL.C104_history
#print axioms RL.C104_array
#print axioms RL.C104_partial
#print axioms RL.C104_int
#print axioms RL.C104_false
#print axioms RL.C104_exact
#print axioms RL.C105_tensors
#print axioms RL.C105_same
#print axioms RL.C105_views
#print axioms RL.C105_lost
#print axioms RL.C105_diagonal
#print axioms RL.C105_jvp
#print axioms RL.C106
#print axioms RL.C106_step
#print axioms RL.C106_outlier
#print axioms RL.C107_partial
#print axioms RL.C107_exact
#print axioms RL.C107_false
#print axioms RL.C107_loss
#print axioms RL.C108_false
#print axioms RL.C108_partial
#print axioms RL.C108_train
#print axioms RL.C108_formats
#print axioms RL.C108_floats
#print axioms RL.C109_local
#print axioms RL.C109_program
#print axioms RL.C109_operands
#print axioms RL.C109_freed
#print axioms RL.C110_step
#print axioms RL.C110_single
#print axioms RL.C110_last
#print axioms RL.C110_tanh
#print axioms RL.C110_sharp
#print axioms RL.C111_partial
#print axioms RL.C111_false
#print axioms RL.C111_wide_partial
#print axioms RL.C111_exact
#print axioms RL.C112_partial
#print axioms RL.C112_false
#print axioms RL.C112_exact
#print axioms RL.C113_actual
#print axioms RL.C113_partial
#print axioms RL.C113_exact
#print axioms RL.C113_false
#print axioms RL.C114_actual
#print axioms RL.C114_partial
#print axioms RL.C114_exact
#print axioms RL.C114_false
#print axioms RL.C115_partial
#print axioms RL.C115_exact
#print axioms RL.C115_parity
#print axioms RL.C115_step
#print axioms RL.C115_false
#print axioms RL.C116_actual
#print axioms RL.C116_step
#print axioms RL.C116_partial
#print axioms RL.C116_exact
#print axioms RL.C116_false
#print axioms RL.C117_partial
#print axioms RL.C117_exact
#print axioms RL.C117_bias
#print axioms RL.C117_false
#print axioms RL.C118_train
#print axioms RL.C118_output
#print axioms RL.C118_single
#print axioms RL.C118_limit
#print axioms RL.C119_up
#print axioms RL.C119_down
#print axioms RL.C119_main
#print axioms RL.C120_collapse
#print axioms RL.C120_relu
#print axioms RL.C121_scale
#print axioms RL.C121_negative
#print axioms RL.C122_partial
#print axioms RL.C122_exact
#print axioms RL.C122_loss
#print axioms RL.C122_false
#print axioms RL.C123_rate
#print axioms RL.C123_partial
#print axioms RL.C123_exact
#print axioms RL.C123_false
#print axioms RL.C124_output
#print axioms RL.C124_partial
#print axioms RL.C124_exact
#print axioms RL.C124_false
#print axioms RL.C125
#print axioms RL.C125_exact
#print axioms RL.C126
#print axioms RL.C127
#print axioms RL.C127_reached
#print axioms RL.C128
#print axioms RL.C128_near
#print axioms RL.C128_exact
#print axioms RL.C129
