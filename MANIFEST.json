{
 "claims": [
  {
   "property": "C01",
   "status": "proved",
   "theorems": [
    "RL.C01_get_row_major"
   ],
   "note": ""
  },
  {
   "property": "C02",
   "status": "proved",
   "theorems": [
    "RL.C02_get_total",
    "RL.C02_get_no_panic"
   ],
   "note": "Readable (Spec.lean) is the exact acceptance condition"
  },
  {
   "property": "C03",
   "status": "proved",
   "theorems": [
    "RL.C03_broadcast_read",
    "RL.C03_surplus",
    "RL.C03_len_one"
   ],
   "note": ""
  },
  {
   "property": "C04",
   "status": "proved",
   "theorems": [
    "RL.C04_injective",
    "RL.C04_surjective",
    "RL.C04_set_get"
   ],
   "note": ""
  },
  {
   "property": "C05",
   "status": "proved",
   "theorems": [
    "RL.C05_iteration",
    "RL.C05_scalar"
   ],
   "note": ""
  },
  {
   "property": "C06",
   "status": "proved",
   "theorems": [
    "RL.C06_flat_roundtrip",
    "RL.C06_index_roundtrip",
    "RL.C06_too_big"
   ],
   "note": ""
  },
  {
   "property": "C07",
   "status": "proved",
   "theorems": [
    "RL.C07_new",
    "RL.C07_filler",
    "RL.C07_scalar",
    "RL.C07_elem"
   ],
   "note": ""
  },
  {
   "property": "C08",
   "status": "proved",
   "theorems": [
    "RL.C08_nested",
    "RL.C08_nested_panics"
   ],
   "note": ""
  },
  {
   "property": "C09",
   "status": "partial",
   "theorems": [
    "RL.C09_false",
    "RL.C09_default_false",
    "RL.C09_partial",
    "RL.C09_exact"
   ],
   "note": "The unrestricted statement is refuted (C09_false: scalar * view produces a wrong length; C09_default_false: RawTensor::default() has no element). C09_partial: it holds for every history without these operations (Spec.Misshaping). C09_exact: after a program that succeeds, all tensors have the right number of elements exactly if no operation of it is default() or multiplies a scalar with a view that has another number of elements than its tensor (Spec.Misshapes)."
  },
  {
   "property": "C10",
   "status": "proved",
   "theorems": [
    "RL.C10_add"
   ],
   "note": "Tensors and views, law-free."
  },
  {
   "property": "C11",
   "status": "proved",
   "theorems": [
    "RL.C11_add_accepts"
   ],
   "note": "Tensors without zero-length dimensions."
  },
  {
   "property": "C12",
   "status": "proved",
   "theorems": [
    "RL.C12_sub",
    "RL.C12_sub_accepts",
    "RL.C12_add_comm",
    "RL.C12_add_assoc",
    "RL.C12_sub_self"
   ],
   "note": "Sub for tensors and views; laws over AddCommMonoid / CommRing."
  },
  {
   "property": "C13",
   "status": "proved",
   "theorems": [
    "RL.C13_mul",
    "RL.C13_mul_rejects"
   ],
   "note": ""
  },
  {
   "property": "C14",
   "status": "partial",
   "theorems": [
    "RL.C14_left_partial",
    "RL.C14_right_partial",
    "RL.C14_full_view_partial",
    "RL.C14_view_actual",
    "RL.C14_view_false",
    "RL.C14_window_partial",
    "RL.C14_exact"
   ],
   "note": "True for tensors and for views covering their whole tensor; false for other views, refuted by C14_view_false. C14_exact: over all contents it holds for a view exactly if its elements are the ones stored first."
  },
  {
   "property": "C15",
   "status": "proved",
   "theorems": [
    "RL.C15_unary",
    "RL.C15_ops"
   ],
   "note": ""
  },
  {
   "property": "C16",
   "status": "proved",
   "theorems": [
    "RL.C16_sum"
   ],
   "note": ""
  },
  {
   "property": "C17",
   "status": "partial",
   "theorems": [
    "RL.C17_dot_partial",
    "RL.C17_view_false",
    "RL.C17_actual",
    "RL.C17_exact"
   ],
   "note": "True for tensors; false for views, refuted by C17_view_false. C17_actual: exactly what dot does on views; C17_exact: for which pairs of views it is right."
  },
  {
   "property": "C18",
   "status": "proved",
   "theorems": [
    "RL.C18_matrix",
    "RL.C18_batched",
    "RL.C18_matrix_sum"
   ],
   "note": "Left rank 2 and 3, tensors and views, law-free; sum form over CommRing."
  },
  {
   "property": "C19",
   "status": "proved",
   "theorems": [
    "RL.C19_schedule_independent",
    "RL.C19_terminates"
   ],
   "note": "Machine with explicit interleavings (Verif.Model.BmmPar), law-free."
  },
  {
   "property": "C20",
   "status": "partial",
   "theorems": [
    "RL.C20_rejects",
    "RL.C20_accepts_partial",
    "RL.C20_accepts_false",
    "RL.C20_rank4_first_row",
    "RL.C20_rank4_panics",
    "RL.C20_leading_ones",
    "RL.C20_exact"
   ],
   "note": "Rejection proved; acceptance proved for left rank 2 and 3; for rank >= 4 the claim is false (C20_accepts_false). What is accepted, and with which result, is proved exactly (C20_exact, C20_leading_ones)."
  },
  {
   "property": "C21",
   "status": "proved",
   "theorems": [
    "RL.C21_view_reads",
    "RL.C21_out_of_range"
   ],
   "note": ""
  },
  {
   "property": "C22",
   "status": "proved",
   "theorems": [
    "RL.C22_range",
    "RL.C22_view"
   ],
   "note": ""
  },
  {
   "property": "C23",
   "status": "proved",
   "theorems": [
    "RL.C23_to_tensor"
   ],
   "note": ""
  },
  {
   "property": "C24",
   "status": "partial",
   "theorems": [
    "RL.C24_slice_partial",
    "RL.C24_false",
    "RL.C24_actual",
    "RL.C24_exact"
   ],
   "note": "False (C24_false); proved for views starting at 0, and the actual behaviour. C24_exact: it holds for all contents exactly if all ranges of the view start at 0 or the slice is empty."
  },
  {
   "property": "C25",
   "status": "partial",
   "theorems": [
    "RL.C25_accepts",
    "RL.C25_prepend_ones_partial",
    "RL.C25_false",
    "RL.C25_actual",
    "RL.C25_exact"
   ],
   "note": "Acceptance proved; element order false (C25_false), proved for prepending length-1 dimensions, and the actual behaviour. C25_exact: exactly which new shapes keep the order of the elements for all contents."
  },
  {
   "property": "C26",
   "status": "proved",
   "theorems": [
    "RL.C26_tensor_eq",
    "RL.C26_tensor_eq_beq",
    "RL.C26_view_eq",
    "RL.C26_equivalence"
   ],
   "note": ""
  },
  {
   "property": "C27",
   "status": "proved",
   "theorems": [
    "RL.C27_clone",
    "RL.C27_detached"
   ],
   "note": ""
  },
  {
   "property": "C28",
   "status": "proved",
   "theorems": [
    "RL.C28_iterate",
    "RL.C28_add",
    "RL.C28_mul",
    "RL.C28_neg_sum",
    "RL.C28_bmm"
   ],
   "note": ""
  },
  {
   "property": "C29",
   "status": "partial",
   "theorems": [
    "RL.C29_partial",
    "RL.C29_runs_partial",
    "RL.C29_exists",
    "RL.C29_unique",
    "RL.C29_replay",
    "RL.C29_success",
    "RL.C29_actual",
    "RL.C29_tangents_exist",
    "RL.C29_tangents_unique",
    "RL.C29_shuffle",
    "RL.C29_witness_grad",
    "RL.C29_false",
    "RL.C29_sweeps_exist",
    "RL.C29_sweeps_unique"
   ],
   "note": "Proved for real arithmetic, every graph of add/sub/neg/relu/abs/tanh/bmm/sum with a final sum (or a one-element add/neg/relu/tanh, or a dot of leaves and of computed rows), any sharing, if no matrix that goes into bmm and depends on x has more than 32 elements (SmallFor) and results of sum that depend on x are only added as one-element tensors (SumsOnTop; C59_last: true if there is only the final sum). For larger matrices the full statement is refuted (C29_false): the gradient of bmm comes back permuted; for other sums inside see C59. C29_runs_partial states it for re-runs of the program instead of re-evaluations. C29_actual gives the exact result for all sizes, all sums and also at kinks: the derivative with shuffled factors in matrix products and constant sums, plus what every sum adds on each way to it; these parts exist and are unique (C29_sweeps_exist, C29_sweeps_unique; C29_tangents_exist, C29_tangents_unique for the derivative with sums); C29_shuffle: the shuffle is a permutation, the identity up to 32 elements."
  },
  {
   "property": "C30",
   "status": "proved",
   "theorems": [
    "RL.C30_fold",
    "RL.C30_sum",
    "RL.C30_same_shape"
   ],
   "note": "Law-free fold form, sum form over a commutative semiring, and the same-shape case."
  },
  {
   "property": "C31",
   "status": "partial",
   "theorems": [
    "RL.C31_false",
    "RL.C31_actual",
    "RL.C31_partial",
    "RL.C31_exact"
   ],
   "note": "Refuted as stated: the stored function ignores the upstream value. Exact behaviour proved; the property holds when the upstream gradient is 1. C31_exact: the gradient of sum is right exactly if the upstream gradient is 1 or the tensor has no element."
  },
  {
   "property": "C32",
   "status": "partial",
   "theorems": [
    "RL.C32_false",
    "RL.C32_actual",
    "RL.C32_partial",
    "RL.C32_sum_partial",
    "RL.C32_exact",
    "RL.C32_at_all"
   ],
   "note": "Refuted as stated: operands with more than 32 elements get a permuted gradient. Exact permutation proved for all sizes; the property holds up to 32 elements, and (C32_exact, commutative rings) for no positive sizes beyond."
  },
  {
   "property": "C33",
   "status": "proved",
   "theorems": [
    "RL.C33_schedule",
    "RL.C33_deterministic",
    "RL.C33_order",
    "RL.C33_pool",
    "RL.C33_cells"
   ],
   "note": "Machine with all interleavings of tasks, channels and receivers (Model/SplitWriter.lean). C33_schedule and C33_deterministic for commutative, associative addition, C33_order without laws, C33_pool for runs on a pool."
  },
  {
   "property": "C34",
   "status": "partial",
   "theorems": [
    "RL.C34_no_assert",
    "RL.C34_finite",
    "RL.C34_finite_threads",
    "RL.C34_progress_threads",
    "RL.C34_partial",
    "RL.C34_finishes_partial",
    "RL.C34_result",
    "RL.C34_false",
    "RL.C34_inside_blocks",
    "RL.C34_exact"
   ],
   "note": "No schedule is infinite and the assertion never fires (all pools). Progress is proved for calls from outside of the pool with any number of workers and for calls from inside with at least two workers. It is false for a call on the only worker of a pool (C34_false), where the scope is never left (C34_inside_blocks). The semantics of rayon queues and crossbeam channels is an assumption, see DESIGN.md. C34_exact: a call with work to do can always finish exactly if it comes from outside of the pool or the pool has another worker."
  },
  {
   "property": "C35",
   "status": "proved",
   "theorems": [
    "RL.C35_terminates",
    "RL.C35_depth",
    "RL.C35_acyclic"
   ],
   "note": "Termination of the whole operation language; the recursion depth is bounded by the id of the root."
  },
  {
   "property": "C36",
   "status": "proved",
   "theorems": [
    "RL.C36_backward"
   ],
   "note": ""
  },
  {
   "property": "C37",
   "status": "proved",
   "theorems": [
    "RL.C37_zero_grad",
    "RL.C37_state_independent",
    "RL.C37_accumulates",
    "RL.C37_losses",
    "RL.C37_twice",
    "RL.C37_again"
   ],
   "note": "Over an additive commutative monoid where sums are regrouped."
  },
  {
   "property": "C38",
   "status": "partial",
   "theorems": [
    "RL.C38_false",
    "RL.C38_partial",
    "RL.C38_exact",
    "RL.C38_step_exact",
    "RL.C38_backward",
    "RL.C38_stale"
   ],
   "note": "Refuted as stated (update_grad accepts any shape; sum pre-seeds its result). C38_exact: the operations after which it fails, exactly; C38_partial: histories that pass gradients of the right shape, sums aside; C38_backward, C38_stale: what backward does to gradients of the right shape, and to larger ones."
  },
  {
   "property": "C39",
   "status": "partial",
   "theorems": [
    "RL.C39_rejects",
    "RL.C39_false",
    "RL.C39_actual",
    "RL.C39_partial",
    "RL.C39_exact",
    "RL.C39_dot",
    "RL.C41_shapes"
   ],
   "note": "Rejections proved. Acceptance refuted for bmm/abs roots and sum(dot) (C39_false, C39_actual); C39_partial gives the accepted class; C39_exact: for roots that are no dot products, acceptance is equivalent to an explicit condition (root no abs or bmm, dot products below only of scalars or 1x1 matrices, left operands of matrix products below only matrices or tensors all of whose dimensions are 1). C39_dot: the same equivalence for the dot product of leaves and of matrices with one row; C41_shapes: rejection for other computed operands."
  },
  {
   "property": "C40",
   "status": "proved",
   "theorems": [
    "RL.C40_history",
    "RL.C40_ancestors"
   ],
   "note": ""
  },
  {
   "property": "C41",
   "status": "partial",
   "theorems": [
    "RL.C41_partial",
    "RL.C41_false",
    "RL.C41_rejects",
    "RL.C41_rows_partial",
    "RL.C41_shapes",
    "RL.C39_dot",
    "RL.C41_exact"
   ],
   "note": "Gradient of a dot product of leaves proved (C41_partial). For a dot product of computed rows, backward adds the derivative of the dot product to every tensor below (C41_rows_partial, with the conditions of C29), and succeeds exactly when C39_dot says. Refuted for other computed operands (C41_shapes) and for use inside a larger loss (C41_false, C41_rejects). C41_exact: the sum of a dot product of leaves is a loss iff they are scalars or 1x1 matrices"
  },
  {
   "property": "C42",
   "status": "partial",
   "theorems": [
    "RL.C42_updates",
    "RL.C42_updates_exist",
    "RL.C42_sequential",
    "RL.C42_progress",
    "RL.C42_finite",
    "RL.C42_actual",
    "RL.C42_single",
    "RL.C42_partial",
    "RL.C42_false",
    "RL.C42_stable",
    "RL.C42_exact"
   ],
   "note": "Refuted as stated: update_grad releases the read lock before it takes the write lock, so concurrent updates can be lost (C42_false, on Int). C42_actual: in every complete run each contribution is counted at most once and at least one is counted. C42_single: tensors with at most one contribution are safe. C42_partial: if update_grad is entered by one thread per tensor at a time, every complete run gives the sequential result. C42_progress and C42_finite: threads neither get stuck nor panic nor run forever. C42_updates and C42_updates_exist tie the thread programs to backward. C42_exact: every complete run gives the sequential result iff contributions of different threads to the same tensor are 0"
  },
  {
   "property": "C43",
   "status": "proved",
   "theorems": [
    "RL.C43_paths",
    "RL.C43_doubling"
   ],
   "note": ""
  },
  {
   "property": "C44",
   "status": "proved",
   "theorems": [
    "RL.C44_identity",
    "RL.C44_relu",
    "RL.C44_tanh",
    "RL.C44_linear",
    "RL.C44_new"
   ],
   "note": "activation identity, relu and tanh; any activation that acts elementwise; layers made by new"
  },
  {
   "property": "C45",
   "status": "proved",
   "theorems": [
    "RL.C45_compose",
    "RL.C45_forward"
   ],
   "note": "value of the network given by Spec.netValue"
  },
  {
   "property": "C46",
   "status": "proved",
   "theorems": [
    "RL.C46_params",
    "RL.C46_update",
    "RL.C46_roundtrip",
    "RL.C46_short",
    "RL.C46_long",
    "RL.C46_layer"
   ],
   "note": "also: surplus parameters at the front of the list are ignored"
  },
  {
   "property": "C47",
   "status": "proved",
   "theorems": [
    "RL.C47_step",
    "RL.C47_layer",
    "RL.C47_sub",
    "RL.C47_panics",
    "RL.C47_misfit"
   ],
   "note": "law-free p + -(lr*g), over a ring p - lr*g; gradients of the parameter's shape (C47_misfit shows that this is needed)"
  },
  {
   "property": "C48",
   "status": "partial",
   "theorems": [
    "RL.C48_false",
    "RL.C48_chain",
    "RL.C48_reaches",
    "RL.C48_exact"
   ],
   "note": "false as stated (C48_false): new parameters keep the old ones as recorded inputs. Proved instead: after n steps there is a path of n edges back to the initial parameter, and every later backward through a current parameter writes a gradient on the initial one It never holds for a network with parameters: C48_exact."
  },
  {
   "property": "C49",
   "status": "proved",
   "theorems": [
    "RL.C49_pure",
    "RL.C49_history",
    "RL.C49_update_grad"
   ],
   "note": ""
  },
  {
   "property": "C50",
   "status": "partial",
   "theorems": [
    "RL.C50_step_partial",
    "RL.C50_loop_partial",
    "RL.C50_step_actual",
    "RL.C50_actual",
    "RL.C50_fresh",
    "RL.C50_false",
    "RL.C50_zeroed",
    "RL.C90_exact"
   ],
   "note": "Proved for one step and for the whole loop, every depth, tanh/relu/identity activations, away from kinks, if no weight matrix and no output of an inner layer has more than 32 elements (SmallNet). Refuted for larger ones (C50_false: 33 weights). C50_actual describes the result for all sizes and also at kinks (gradient descent with shuffled derivatives), any number of steps, and that no step panics; the network of main.rs has layers of 8x8192, 8192x8192, 8192x8 and is covered by C50_actual only. C50_fresh: newly made parameters meet the hypotheses. Exactly which sizes: C90_exact."
  },
  {
   "property": "C51",
   "status": "partial",
   "theorems": [
    "RL.C51_partial",
    "RL.C51_actual",
    "RL.C51_false",
    "RL.C51_exact"
   ],
   "note": "False (C51_false). C51_partial: proved for views that narrow no dimension to length 1. C51_actual covers all views: if a narrowed dimension would have to be broadcast the addition panics, otherwise the property holds. C51_exact: an equivalence."
  },
  {
   "property": "C52",
   "status": "partial",
   "theorems": [
    "RL.C52_partial",
    "RL.C52_actual",
    "RL.C52_false",
    "RL.C52_exact"
   ],
   "note": "False (C52_false). C52_partial: the addition panics in all cases except one; C52_actual: in that case (empty ranges of length-1 dimensions only, not to the left of the dimensions of the tensor) they are treated as the range 0..1. C52_exact: exactly when such an addition never returns elements."
  },
  {
   "property": "C53",
   "status": "proved",
   "theorems": [
    "RL.C53_neg",
    "RL.C53_relu",
    "RL.C53_abs",
    "RL.C53_tanh"
   ],
   "note": "Over any commutative ring; tanh and powi are uninterpreted functions."
  },
  {
   "property": "C54",
   "status": "partial",
   "theorems": [
    "RL.C54_loss",
    "RL.C54_partial",
    "RL.C54_actual",
    "RL.C54_false",
    "RL.C54_layer_exact",
    "RL.C54_exact",
    "RL.C54_net_exact"
   ],
   "note": "False in general (C54_false): for a layer with 33 weights the loss increases by 3 lr for every small learning rate. C54_partial: true for networks of any depth whose matrices have at most 32 elements. C54_actual: for all sizes the first-order change is minus the inner product of the computed and the true gradient. C54_loss: the computed loss is the sum of distances. For layers without activation exactly those with at most 32 weights (C54_layer_exact). Single layers with any activation: exactly those with at most 32 weights (C54_exact). All networks: C54 holds for all numbers of rows exactly for single layers with at most 32 weights (C54_net_exact)."
  },
  {
   "property": "C55",
   "status": "proved",
   "theorems": [
    "RL.C55_rows"
   ],
   "note": "no law of + or *"
  },
  {
   "property": "C56",
   "status": "proved",
   "theorems": [
    "RL.C56_assoc",
    "RL.C56_add_left",
    "RL.C56_add_right",
    "RL.C56_scalar",
    "RL.C56_one"
   ],
   "note": "semirings; commutative for scalars; left operand of rank 2 or 3"
  },
  {
   "property": "C57",
   "status": "proved",
   "theorems": [
    "RL.C57_add",
    "RL.C57_scalar",
    "RL.C57_neg",
    "RL.C57_perm"
   ],
   "note": ""
  },
  {
   "property": "C58",
   "status": "partial",
   "theorems": [
    "RL.C58_false",
    "RL.C58_single_partial",
    "RL.C58_two_partial",
    "RL.C58_late",
    "RL.C58_exact"
   ],
   "note": "False with two workers and three contributions to a cell (C58_false: two runs of the pool end with different arrays). Proved without laws of addition: on a pool with one worker, called from outside, every run gives the arrays of the sequential run (C58_single_partial). Proved for any number of workers: cells with at most two contributions (C58_two_partial). With associativity see C33. For matrices of given sizes and a pool with a given number of workers, the exact condition: one worker, or nothing to add, or at most two rows in the left and two columns in the right matrix (C58_exact). The two runs behind it exist on every input: all tasks in order, and any one task last (C58_late)."
  },
  {
   "property": "C59",
   "status": "partial",
   "theorems": [
    "RL.C59_false",
    "RL.C59_partial",
    "RL.C59_last",
    "RL.C29_actual",
    "RL.C29_partial"
   ],
   "note": "Refuted (C59_false): sum a - sum b gives b the gradient +1, because the gradient function of sum ignores what comes from above. C59_partial: if results of sum that depend on x are only added as one-element tensors, the result is the derivative along the operations, for matrices of all sizes (with small matrices it is the true derivative: C29_partial). C59_last: the condition holds if only the last operation is sum. The exact result in all cases is C29_actual."
  },
  {
   "property": "C60",
   "status": "partial",
   "theorems": [
    "RL.C60_updates",
    "RL.C60_determined",
    "RL.C60_activations",
    "RL.C60_false",
    "RL.C60_actual",
    "RL.C60_between",
    "RL.C60_depth",
    "RL.C60_partial",
    "RL.C60_exact"
   ],
   "note": "False as stated (C60_false). C60_actual: exact growth, three updates per parameter and step, for every network and number of steps; C60_between: whatever is done between the steps; C60_depth: recursion deeper than n after n steps; C60_updates: the counted paths are the updates backward performs. C60_partial: the work only depends on the architecture as long as no parameter has a history. C60_exact: the number of updates stays the same iff there were no steps or no layers"
  },
  {
   "property": "C61",
   "status": "partial",
   "theorems": [
    "RL.C61_false",
    "RL.C61_distinct",
    "RL.C61_partial",
    "RL.C61_diverges",
    "RL.C61_exact"
   ],
   "note": "False as stated (C61_false). C61_distinct: after a step all places hold different tensors; C61_partial: with the same data; C61_diverges: an executed training run in which they differ after the second step. Exactly when two places hold one tensor: C61_exact."
  },
  {
   "property": "C62",
   "status": "partial",
   "theorems": [
    "RL.C62_alone",
    "RL.C62_result",
    "RL.C62_finite",
    "RL.C62_partial",
    "RL.C62_finishes_partial",
    "RL.C62_outside",
    "RL.C62_false",
    "RL.C62_exact",
    "RL.C62_blocks"
   ],
   "note": "C62_alone (no laws of addition): whatever the schedule, every call returns what it may return alone, and panics only if it may panic alone. C62_result: with commutative associative addition these are the results of the sequential runs, up to the first call that panics. C62_finite: no infinite runs. C62_partial, C62_finishes_partial: all threads end if some worker of the pool is not the thread of a caller. C62_outside: in particular for threads outside of the pool. C62_false: with two callers on the two workers of a pool the calls may block forever. C62_exact: the threads can always finish, whatever they call, exactly if some worker is not the thread of a caller; C62_blocks: otherwise all callers in the pool may block forever, for all calls with work to do."
  },
  {
   "property": "C63",
   "status": "proved",
   "theorems": [
    "RL.C63_sum",
    "RL.C63_gamma",
    "RL.C63_dot",
    "RL.C63_matrix",
    "RL.C63_batched",
    "RL.C63_network"
   ],
   "note": "bounds for sum, dot, matrix product, batches and networks; conditional on a finite result; f32 and f64 formats proved to satisfy the rounding model"
  },
  {
   "property": "C64",
   "status": "proved",
   "theorems": [
    "RL.C64_error",
    "RL.C64_runs"
   ],
   "note": "every schedule has the same error bound; two runs differ by at most twice the bound"
  },
  {
   "property": "C65",
   "status": "proved",
   "theorems": [
    "RL.C65_step"
   ],
   "note": "every finite coordinate of every parameter"
  },
  {
   "property": "C66",
   "status": "proved",
   "theorems": [
    "RL.C66_value",
    "RL.C66_gradient"
   ],
   "note": "success and value for every operation that returns a tensor; first gradient in reachable heaps"
  },
  {
   "property": "C67",
   "status": "partial",
   "theorems": [
    "RL.C67_false",
    "RL.C67_heap",
    "RL.C67_owned",
    "RL.C67_held",
    "RL.C67_count",
    "RL.C67_safe",
    "RL.C67_drop",
    "RL.C67_leak",
    "RL.C67_partial",
    "RL.C67_plain",
    "RL.C67_exact"
   ],
   "note": "False: see C67_false (t.update_grad(t)). Proved: results as in the graph model (C67_heap), what is owned, counts, no use after free, drops succeed, leaks only on cycles, and the statement for programs without update_grad(t, g) with g referring to t (C67_partial, C67_plain). C67_exact: it holds after a program exactly if the program can get at all cycles in memory."
  },
  {
   "property": "C68",
   "status": "partial",
   "theorems": [
    "RL.C68_false",
    "RL.C68_growth",
    "RL.C68_never"
   ],
   "note": "False: see C68_false. Proved instead: lower bound of 3 n tensors per parameter after n steps, whatever the program drops. It never holds for a network with parameters: C68_never."
  },
  {
   "property": "C69",
   "status": "partial",
   "theorems": [
    "RL.C69_false",
    "RL.C69_depth",
    "RL.C69_bound",
    "RL.C69_path",
    "RL.C69_exact"
   ],
   "note": "False: see C69_false. Proved instead: the depth is at least the length of every chain of tensors that only each other keep, and at most the number of freed tensors. C69_path: a drop that nests d calls deep has freed a chain of d tensors. C69_exact: if all freed tensors had one owner, the depth is the length of the longest such chain."
  },
  {
   "property": "C70",
   "status": "partial",
   "theorems": [
    "RL.C70_false",
    "RL.C70_growth",
    "RL.C70_never"
   ],
   "note": "False: see C70_false. Proved instead: n contributions and n-1 sums stay in memory until the gradient is cleared. It does not hold after a second contribution: C70_never."
  },
  {
   "property": "C71",
   "status": "partial",
   "theorems": [
    "RL.C71_false",
    "RL.C71_partial",
    "RL.C71_debug",
    "RL.C71_release",
    "RL.C71_fits",
    "RL.C71_filler",
    "RL.C71_get",
    "RL.C71_offset",
    "RL.C71_view_get",
    "RL.C71_view",
    "RL.C71_reshape",
    "RL.C71_increment",
    "RL.C71_increment_zero",
    "RL.C71_exact_debug",
    "RL.C71_exact_release"
   ],
   "note": "False in both profiles (C71_false). Proved for shapes whose non-zero dimensions have a product below 2^64 (C71_partial and the others); C71_debug and C71_release say exactly what new accepts otherwise. Exactly when it holds: C71_exact_debug (no prefix product overflows) and C71_exact_release."
  },
  {
   "property": "C72",
   "status": "proved",
   "theorems": [
    "RL.C72_related",
    "RL.C72_outcome",
    "RL.C72_train",
    "RL.C72_activations"
   ],
   "note": "Two heaps with the same graph; any relation between elements kept by the arithmetic; instance: no condition on the elements."
  },
  {
   "property": "C73",
   "status": "partial",
   "theorems": [
    "RL.C73_false",
    "RL.C73_partial",
    "RL.C73_signed",
    "RL.C73_unsigned",
    "RL.C73_checked",
    "RL.C73_profiles",
    "RL.C73_checks",
    "RL.C73_panics",
    "RL.C73_signs_partial",
    "RL.C73_relu_partial",
    "RL.C73_sign",
    "RL.C73_needed",
    "RL.C73_run",
    "RL.C73_same",
    "RL.C73_sub"
   ],
   "note": "Full statement is false because of relu (C73_false); proved for all other operations in both profiles (C73_partial), and for programs with relu if the elements that go into relu have the signs of the exact ones (C73_signs_partial), for example are in range (C73_relu_partial). They must have them or be 0 (C73_sign, C73_needed). With overflow checks a program that does not panic is exact, relu included (C73_run), and computes the same without checks (C73_same). The debug profile is modelled by an element none that arithmetic keeps. C73_sub: subtraction, which only derivatives use."
  },
  {
   "property": "C74",
   "status": "proved",
   "theorems": [
    "RL.C74_gradient"
   ],
   "note": "The conditions (no relu, matrices up to 32 elements, sums on top) are part of the property; without them C29 and C73 are false."
  },
  {
   "property": "C75",
   "status": "partial",
   "theorems": [
    "RL.C75_model",
    "RL.C75_partial",
    "RL.C75_updates",
    "RL.C75_reachable",
    "RL.C75_other",
    "RL.C75_false"
   ],
   "note": "Full statement is false (C75_false). C75_updates and C75_reachable say exactly what is left behind."
  },
  {
   "property": "C76",
   "status": "partial",
   "theorems": [
    "RL.C76_partial",
    "RL.C76_runs_partial",
    "RL.C76_almost",
    "RL.C76_measure",
    "RL.C76_false"
   ],
   "note": "False as stated (C76_false: relu x - relu (-x) at 0). Proved if zeros that go into relu or abs have derivative 0, for all but countably many values of an element (C76_almost) and for Lebesgue-almost all elements of a tensor (C76_measure); conditions of C29 otherwise."
  },
  {
   "property": "C77",
   "status": "partial",
   "theorems": [
    "RL.C77_partial",
    "RL.C77_rate_partial",
    "RL.C77_subgradient",
    "RL.C77_false",
    "RL.C77_exact"
   ],
   "note": "False for more than 32 weights (C77_false). C77_partial: up to 32 weights; C77_rate_partial: with the best learning rate; C77_subgradient: the step is a subgradient, also at kinks. C77_exact: for layers with k inputs and n outputs the bound holds for all training runs if and only if k * n <= 32."
  },
  {
   "property": "C78",
   "status": "partial",
   "theorems": [
    "RL.C78_step_partial",
    "RL.C78_runs_partial",
    "RL.C78_linear_partial",
    "RL.C78_actual",
    "RL.C78_exists",
    "RL.C78_false"
   ],
   "note": "C78_false: learning rate 1/2, an open set of starts meets a kink after two steps. Proved: first step from almost all parameters (C78_step_partial), all steps for almost all learning rates (C78_runs_partial), all learning rates for a layer without activation (C78_linear_partial), matrices of at most 32 elements; for all sizes almost all runs meet no kink (C78_actual)."
  },
  {
   "property": "C79",
   "status": "partial",
   "theorems": [
    "RL.C79_partial",
    "RL.C79_params_partial",
    "RL.C79_loss_partial",
    "RL.C79_false",
    "RL.C79_gradients",
    "RL.C79_ranks_partial",
    "RL.C79_exact"
   ],
   "note": "full statement refuted (C79_false: bmm of four-dimensional tensors); proved for non-empty tensors of up to three dimensions, which covers training; C79_ranks_partial: any number of dimensions, unless a left factor of a matrix product has at least four dimensions and more than one row; C79_exact: exactly those products hide NaNs"
  },
  {
   "property": "C80",
   "status": "partial",
   "theorems": [
    "RL.C80_partial",
    "RL.C80_wide_partial",
    "RL.C80_exact",
    "RL.C80_loss",
    "RL.C80_false"
   ],
   "note": "False as stated (C80_false); C80_exact: for exactly which layer sizes and numbers of rows it holds; C80_wide_partial: any number of steps for these; C80_loss: the loss, all sizes."
  },
  {
   "property": "C81",
   "status": "partial",
   "theorems": [
    "RL.C81_partial",
    "RL.C81_exact",
    "RL.C81_false"
   ],
   "note": "False as stated (C81_false); C81_exact: holds exactly for one row or if the outputs of all layers but the last have at most 32 elements; C81_partial: these, also at kinks."
  },
  {
   "property": "C82",
   "status": "partial",
   "theorems": [
    "RL.C82_partial",
    "RL.C82_wide_partial",
    "RL.C82_same_wide_partial",
    "RL.C82_exact",
    "RL.C82_loss",
    "RL.C82_same_partial",
    "RL.C82_false",
    "RL.C82_same_false"
   ],
   "note": "False as stated (C82_false, C82_same_false). C82_exact: for exactly which sizes of the layer and its neighbours it holds (all other layers of any size); C82_wide_partial, C82_same_wide_partial: any number of steps for these; C82_loss: the loss, all sizes."
  },
  {
   "property": "C83",
   "status": "partial",
   "theorems": [
    "RL.C83_partial",
    "RL.C83_bias",
    "RL.C83_false",
    "RL.C83_exact"
   ],
   "note": "Holds if the first layer has at most 32 weights or a number of units that divides 32; C83_exact: for all other sizes it is false."
  },
  {
   "property": "C84",
   "status": "partial",
   "theorems": [
    "RL.C84_partial",
    "RL.C84_ok",
    "RL.C84_from",
    "RL.C84_terminates",
    "RL.C84_false",
    "RL.C84_false_assert",
    "RL.C84_train",
    "RL.C84_release",
    "RL.C84_exact"
   ],
   "note": "C84_partial: the outcomes agree unless the debug profile ends with an overflow or a failed debug_assert. The full statement is false: C84_false, C84_false_assert. Exactly when it holds: C84_exact."
  },
  {
   "property": "C85",
   "status": "proved",
   "theorems": [
    "RL.C85",
    "RL.C85_iff",
    "RL.C85_small",
    "RL.C85_from",
    "RL.C85_train"
   ],
   "note": "Success-relative: says nothing about programs that fail with unbounded numbers (C84 covers those in the debug profile)."
  },
  {
   "property": "C86",
   "status": "proved",
   "theorems": [
    "RL.C86",
    "RL.C86_any",
    "RL.C86_real",
    "RL.C86_profiles",
    "RL.C86_sample_release",
    "RL.C86_sample_debug"
   ],
   "note": "the whole program; memory exhaustion, the random number generator and printing are not modelled; C86_real says what the parameters are over the reals"
  },
  {
   "property": "C87",
   "status": "partial",
   "theorems": [
    "RL.C87_false",
    "RL.C87_cycle",
    "RL.C87_partial",
    "RL.C87_plain",
    "RL.C87_paths",
    "RL.C87_all",
    "RL.C87_stack",
    "RL.C87_ends",
    "RL.C87_doubling",
    "RL.C87_train",
    "RL.C87_exact"
   ],
   "note": "false for x + x and for cycles made by update_grad; C87_paths, C87_stack and C87_ends say exactly what is printed and when it ends Exactly when it holds: C87_exact (one way to each tensor)."
  },
  {
   "property": "C88",
   "status": "partial",
   "theorems": [
    "RL.C88_false",
    "RL.C88_partial",
    "RL.C88_debug",
    "RL.C88_release",
    "RL.C88_release_zero",
    "RL.C88_elements",
    "RL.C88_exact"
   ],
   "note": "false for shapes with a zero (C88_false); C88_debug and C88_release say what happens there Exactly when it holds: C88_exact (no dimension is 0)."
  },
  {
   "property": "C89",
   "status": "partial",
   "theorems": [
    "RL.C89_false",
    "RL.C89_partial",
    "RL.C89_train_partial",
    "RL.C89_wide_partial",
    "RL.C89_train_wide_partial",
    "RL.C89_exact",
    "RL.C89_loss"
   ],
   "note": "The full statement is false (C89_false): a matrix-product gradient of more than 32 elements is shuffled (C32). C89_partial and C89_train_partial hold for networks whose matrices have at most 32 elements, also at kinks; C89_wide_partial and C89_train_wide_partial if only the weights of the unit's layer, its output and the next weights have at most 32 elements, whatever the sizes of the other layers. C89_exact: the balance holds for all data and parameters exactly for these layers. C89_loss (scaling a unit does not change the loss) holds for all sizes."
  },
  {
   "property": "C90",
   "status": "proved",
   "theorems": [
    "RL.C90_exact",
    "RL.C90_witness"
   ],
   "note": "an equivalence; the direction from the limit is C50, the other one is shown with data for each kind of network"
  },
  {
   "property": "C91",
   "status": "partial",
   "theorems": [
    "RL.C91_false",
    "RL.C91_identity",
    "RL.C91_fit",
    "RL.C91_odd",
    "RL.C91_unsettled",
    "RL.C91_tanh",
    "RL.C91_partial",
    "RL.C91_exact"
   ],
   "note": "False as stated (C91_false). C91_identity: exact change of the bias of a last layer without activation, any depth and size; C91_fit: from an exact solution it moves by lr times the number of rows; C91_odd, C91_unsettled: with an odd number of rows every step moves it by at least lr, and the parameters have no limit; C91_tanh: one row and tanh. C91_partial: holds for networks that end with relu and get only negative values there. Exactly when it holds: C91_exact (any depth, any last activation)."
  },
  {
   "property": "C92",
   "status": "proved",
   "theorems": [
    "RL.C92_mirror",
    "RL.C92_loss",
    "RL.C92_kink"
   ],
   "note": "All sizes; C92_kink shows that the condition on the mirrored last layer is needed."
  },
  {
   "property": "C93",
   "status": "proved",
   "theorems": [
    "RL.C93_shift",
    "RL.C93_loss"
   ],
   "note": "All sizes, also at kinks."
  },
  {
   "property": "C94",
   "status": "partial",
   "theorems": [
    "RL.C94_false",
    "RL.C94_partial",
    "RL.C94_exact",
    "RL.C94_actual",
    "RL.C94_loss"
   ],
   "note": "False as stated (C94_false). C94_exact: holds exactly for networks whose first layer has at most 32 weights or one feature; C94_partial: any number of steps; C94_actual: which weights stay, for all sizes; C94_loss: the loss does not depend on these weights, for all sizes."
  },
  {
   "property": "C95",
   "status": "proved",
   "theorems": [
    "RL.C95_place",
    "RL.C95_fresh"
   ],
   "note": "for all sequences of operations; C95_place for any placement, C95_fresh for a program that starts among other tensors"
  },
  {
   "property": "C96",
   "status": "proved",
   "theorems": [
    "RL.C96_turns",
    "RL.C96_fails",
    "RL.C96_succeeds"
   ],
   "note": "operation by operation (sequential interleaving); threads inside one operation are C42"
  },
  {
   "property": "C97",
   "status": "proved",
   "theorems": [
    "RL.C97_resume",
    "RL.C97_loss",
    "RL.C97_detached",
    "RL.C97_work",
    "RL.C97_loose"
   ],
   "note": "Law-free element type. C97_resume: any new tensors with the same data, in any program; C97_loss: the same for the losses; C97_detached: deep_clone after every step; C97_work: constant number of gradient updates per step (compare C60); C97_loose: training preserves the hypotheses of C97_resume. These show one direction of success; that training with the histories does not fail where training without them succeeds is C98_detached."
  },
  {
   "property": "C98",
   "status": "proved",
   "theorems": [
    "RL.C98_steady",
    "RL.C98_shapes",
    "RL.C98_loop",
    "RL.C98_detached"
   ],
   "note": "Steps after the first one are compared with the first one; the exact criterion of C39 for backward is used for both. Zero-length dimensions are excluded by hypothesis."
  },
  {
   "property": "C99",
   "status": "proved",
   "theorems": [
    "RL.C99_exact",
    "RL.C99_loop",
    "RL.C99_rates",
    "RL.C99_dense",
    "RL.C99_batches"
   ],
   "note": "exact for the model with usize as Nat; tensors without zero-length dimensions and activations of the library"
  },
  {
   "property": "C100",
   "status": "proved",
   "theorems": [
    "RL.C100_stream",
    "RL.C100_keeps",
    "RL.C100_order"
   ],
   "note": "exact for the model with usize as Nat; tensors without zero-length dimensions and activations of the library"
  },
  {
   "property": "C101",
   "status": "proved",
   "theorems": [
    "RL.C101_forward",
    "RL.C101_loss",
    "RL.C101_gap",
    "RL.C101_step",
    "RL.C101_unique",
    "RL.C101_dense",
    "RL.C101_trainable",
    "RL.C101_matrix"
   ],
   "note": "Usual activations, shapes without zero-length dimensions."
  },
  {
   "property": "C102",
   "status": "proved",
   "theorems": [
    "RL.C102_dense",
    "RL.C102_shapes",
    "RL.C102_machine",
    "RL.C102_exact"
   ],
   "note": "shapes for any trainable sequence of batches, equivalence with overflow checks; hypothesis GradsFit: gradients from before have the shapes of their tensors"
  },
  {
   "property": "C103",
   "status": "partial",
   "theorems": [
    "RL.C103_partial",
    "RL.C103_generic",
    "RL.C103_false",
    "RL.C103_exact"
   ],
   "note": "Full statement refuted at kinks (C103_false). C103_partial: every run without kinks, all sizes, with a Lipschitz bound; C103_generic: almost all learning rates and parameters, any number of steps. C103_exact: for a last layer that is not relu, a learning rate other than 0 and no 0 into relu, it holds for all numbers of steps iff no output is ever the expected one"
  },
  {
   "property": "C104",
   "status": "partial",
   "theorems": [
    "RL.C104_elements",
    "RL.C104_total",
    "RL.C104_history",
    "RL.C104_array",
    "RL.C104_partial",
    "RL.C104_int",
    "RL.C104_false",
    "RL.C104_exact"
   ],
   "note": "False as stated, because the shape is not printed (C104_false). C104_partial: tensors of the same shape. C104_array: the elements always agree. C104_int: decimal integers. Exactly when tensors are printed alike: C104_exact."
  },
  {
   "property": "C105",
   "status": "proved",
   "theorems": [
    "RL.C105_tensors",
    "RL.C105_same",
    "RL.C105_views",
    "RL.C105_lost",
    "RL.C105_diagonal",
    "RL.C105_jvp"
   ],
   "note": "functional::add and the diagonal form of tanh_derivative, which nothing in the crate calls."
  },
  {
   "property": "C106",
   "status": "proved",
   "theorems": [
    "RL.C106",
    "RL.C106_step",
    "RL.C106_outlier"
   ],
   "note": "Real arithmetic, all sizes (C106_step, C106); bound for one changed place (C106_outlier)."
  },
  {
   "property": "C107",
   "status": "partial",
   "theorems": [
    "RL.C107_partial",
    "RL.C107_exact",
    "RL.C107_false",
    "RL.C107_loss"
   ],
   "note": "False as stated (C107_false); C107_exact: for which sizes it holds; C107_partial: any number of steps; C107_loss: the loss, all sizes."
  },
  {
   "property": "C108",
   "status": "partial",
   "theorems": [
    "RL.C108_false",
    "RL.C108_partial",
    "RL.C108_train",
    "RL.C108_formats",
    "RL.C108_floats"
   ],
   "note": "False as stated (C108_false: an element 0 under relu). C108_partial: all programs of public operations except mapping user functions, whose exact run meets no 0 under relu or abs; C108_train: any number of training steps. Arithmetic is any structure Numbers (comparisons and abs exact, bounded errors of the rest); binary formats, f64 and f32 among them, are such (C108_formats, C108_floats), with tanh rounded to nearest. Finite results are assumed. Gradients of bmm are added in the model's sequential order; other orders: C64."
  },
  {
   "property": "C109",
   "status": "proved",
   "theorems": [
    "RL.C109_local",
    "RL.C109_program",
    "RL.C109_operands",
    "RL.C109_freed"
   ],
   "note": "C109_local: one operation, for all states (not only reachable ones); C109_program: programs; C109_operands: every operand must exist; C109_freed: with reference counting, what is in the place of freed tensors does not matter."
  },
  {
   "property": "C110",
   "status": "proved",
   "theorems": [
    "RL.C110_step",
    "RL.C110_single",
    "RL.C110_last",
    "RL.C110_tanh",
    "RL.C110_sharp"
   ],
   "note": "C110_step: one step, any layer of any network; C110_single and C110_last: linear bounds after any number of steps; C110_tanh: polynomial bounds for all layers of tanh networks; C110_sharp: the bound for biases is attained."
  },
  {
   "property": "C111",
   "status": "partial",
   "theorems": [
    "RL.C111_partial",
    "RL.C111_false",
    "RL.C111_wide_partial",
    "RL.C111_exact"
   ],
   "note": "C111_false: three rows, each 11 times, through two layers of width 1. C111_partial: it holds, also at kinks, if the outputs of all layers but the last have at most 32 elements (for one layer always); missing: larger ones, for which it is false in general. C111_wide_partial: also if the number of elements of each hidden output for the single batch divides 32 or is a multiple of 32. C111_exact: for given sizes it holds for all data if and only if this is so for each layer but the last."
  },
  {
   "property": "C112",
   "status": "partial",
   "theorems": [
    "RL.C112_partial",
    "RL.C112_false",
    "RL.C112_exact"
   ],
   "note": "C112_false: two layers of width 1 without activation. C112_partial: it holds for a single layer with relu or without activation, of any size, also at kinks. C112_exact: for given sizes it holds for these networks only."
  },
  {
   "property": "C113",
   "status": "partial",
   "theorems": [
    "RL.C113_actual",
    "RL.C113_partial",
    "RL.C113_exact",
    "RL.C113_false"
   ],
   "note": "False as stated (C113_false). C113_actual: for all sizes it holds for the weights at the shuffled positions. C113_partial: for features whose weights the shuffle leaves where they are, for example if the first layer has at most 32 weights. C113_exact: exactly for these."
  },
  {
   "property": "C114",
   "status": "partial",
   "theorems": [
    "RL.C114_actual",
    "RL.C114_partial",
    "RL.C114_exact",
    "RL.C114_false"
   ],
   "note": "False as stated (C114_false). C114_actual: for all sizes it holds for the weights at the shuffled positions. C114_partial: if the first layer has at most 32 weights. C114_exact: exactly for these networks."
  },
  {
   "property": "C115",
   "status": "partial",
   "theorems": [
    "RL.C115_partial",
    "RL.C115_exact",
    "RL.C115_parity",
    "RL.C115_step",
    "RL.C115_false"
   ],
   "note": "False as stated (C115_false: tanh in the last layer). C115_partial: all networks whose last layer has relu or no activation. C115_exact: exactly for these. C115_parity and C115_step: which multiples, without activation."
  },
  {
   "property": "C116",
   "status": "partial",
   "theorems": [
    "RL.C116_actual",
    "RL.C116_step",
    "RL.C116_partial",
    "RL.C116_exact",
    "RL.C116_false"
   ],
   "note": "False as stated (C116_false). C116_actual: for all sizes it holds for the weights at the shuffled positions; C116_step: for every layer, a single step. C116_partial: if the first layer has at most 32 weights. C116_exact: exactly for these networks."
  },
  {
   "property": "C117",
   "status": "partial",
   "theorems": [
    "RL.C117_partial",
    "RL.C117_exact",
    "RL.C117_bias",
    "RL.C117_false"
   ],
   "note": "False as stated (C117_false): the gradient of more than 32 weights is put at shuffled positions, so the units exchange their gradients. Proved for at most 32 weights or one unit, which is exactly when it holds; the bias after one step for all sizes."
  },
  {
   "property": "C118",
   "status": "proved",
   "theorems": [
    "RL.C118_train",
    "RL.C118_output",
    "RL.C118_single",
    "RL.C118_limit"
   ],
   "note": "All sizes, also with more than 32 weights. C118_single: without hidden layer it is false. C118_limit: with expected values of at least 1, as in main, tanh outputs tend to 1."
  },
  {
   "property": "C119",
   "status": "proved",
   "theorems": [
    "RL.C119_up",
    "RL.C119_down",
    "RL.C119_main"
   ],
   "note": "All sizes, also with more than 32 weights. C119_main is the network of main with any drawn numbers."
  },
  {
   "property": "C120",
   "status": "proved",
   "theorems": [
    "RL.C120_collapse",
    "RL.C120_relu"
   ],
   "note": "C120_relu: the condition is needed."
  },
  {
   "property": "C121",
   "status": "proved",
   "theorems": [
    "RL.C121_scale",
    "RL.C121_negative"
   ],
   "note": "C121_negative: false for negative factors."
  },
  {
   "property": "C122",
   "status": "partial",
   "theorems": [
    "RL.C122_partial",
    "RL.C122_exact",
    "RL.C122_loss",
    "RL.C122_false"
   ],
   "note": "False as stated (C122_false). C122_exact: it holds exactly if the last layer has at most 32 weights or the number of outputs divides 32; C122_partial: any number of steps for these, other layers of any size; C122_loss: the loss, all sizes."
  },
  {
   "property": "C123",
   "status": "partial",
   "theorems": [
    "RL.C123_rate",
    "RL.C123_partial",
    "RL.C123_exact",
    "RL.C123_false"
   ],
   "note": "False as stated (C123_false). C123_exact: it holds exactly for the factors 1 and -1, whatever the sizes; C123_rate: what happens for all factors and sizes."
  },
  {
   "property": "C124",
   "status": "partial",
   "theorems": [
    "RL.C124_output",
    "RL.C124_partial",
    "RL.C124_exact",
    "RL.C124_false"
   ],
   "note": "False as stated (C124_false). C124_output: the outputs, all sizes; C124_partial: the training step, if the number of units divides 32, or the weights of the layer and its values for all rows are at most 32 each; C124_exact: with one hidden layer and one output exactly then."
  },
  {
   "property": "C125",
   "status": "proved",
   "theorems": [
    "RL.C125",
    "RL.C125_exact"
   ],
   "note": "All sizes; C125_exact: for a single layer without relu exactly if no weight is negative."
  },
  {
   "property": "C126",
   "status": "proved",
   "theorems": [
    "RL.C126"
   ],
   "note": "All sizes; a test shows that the bound is reached."
  },
  {
   "property": "C127",
   "status": "proved",
   "theorems": [
    "RL.C127",
    "RL.C127_reached"
   ],
   "note": "Both directions, all sizes."
  },
  {
   "property": "C128",
   "status": "proved",
   "theorems": [
    "RL.C128",
    "RL.C128_near",
    "RL.C128_exact"
   ],
   "note": "Lower bound for all batches, all sizes; C128_near: the bound is the best possible if the expected outputs are the same in all rows; C128_exact: when it is reached."
  },
  {
   "property": "C129",
   "status": "proved",
   "theorems": [
    "RL.C129"
   ],
   "note": "All sizes and places."
  }
 ]
}
