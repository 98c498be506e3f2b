{"id": "C01", "title": "get is row-major", "statement": "For every tensor built from a data vector and a shape, get at a full-length index whose every component is in range returns Ok of the element at the row-major position of that index (last dimension fastest).", "quantifier": "every element type, every shape of any rank, every data vector of the right length, every in-range index", "why_tests_cant": "the set of shapes and indices is unbounded; tests look at 2x2x2, 3x3 and 3x3x4", "anchors": ["src/tensor/utils.rs: global_index", "src/tensor/raw_tensor.rs: RawTensor::get, RawTensor::new"]}
{"id": "C02", "title": "get rejects out-of-range indices with Err and does not panic", "statement": "For every tensor with no zero-length dimension and every index vector whatsoever, get never panics: it returns Err exactly when a component aligned with a dimension of length other than 1 is out of range, or the index is shorter than the shape and one of the uncovered leading dimensions is longer than 1; otherwise it returns Ok.", "quantifier": "every well-formed tensor, every index vector of any length and any values", "why_tests_cant": "absence of panics and the exact rejection set range over all index vectors", "anchors": ["src/tensor/utils.rs: global_index", "src/tensor/raw_tensor.rs: RawTensor::get"]}
{"id": "C03", "title": "broadcasting read", "statement": "get aligns the index with the shape from the right: surplus leading index components are ignored, components that meet a length-1 dimension are ignored, missing leading components are allowed where the dimension is 1; the value returned is the element whose coordinate is the aligned component (0 on length-1 dimensions).", "quantifier": "every well-formed tensor, every index vector of any length", "why_tests_cant": "two doc-test literals exercise it; the rule ranges over all shapes and index lengths", "anchors": ["src/tensor/utils.rs: global_index", "src/tensor/rc_tensor.rs: RcTensor::get"]}
{"id": "C04", "title": "element addressing is a bijection", "statement": "Distinct in-range indices address distinct storage positions, and every storage position is addressed by some in-range index.", "quantifier": "every shape, every pair of indices, every position", "why_tests_cant": "needs all shapes and all pairs of indices", "anchors": ["src/tensor/utils.rs: global_index"]}
{"id": "C05", "title": "index iteration is complete, ordered and finite", "statement": "For a tensor with no zero-length dimension, iter_indices yields every in-range index exactly once, in row-major order, and then ends (also for rank 0: exactly the empty index).", "quantifier": "every shape with positive dimensions", "why_tests_cant": "tests check one 2x2x2 and one 2x3x2 shape; completeness and termination range over all shapes", "anchors": ["src/tensor/utils.rs: increment_index, IndexIterator", "src/tensor/tensor_like.rs: iter_indices"]}
{"id": "C06", "title": "flat/multi index conversion", "statement": "Converting a flat position to an index vector and back is the identity below the element count, the converse holds for in-range indices, and a flat position at or beyond the element count is rejected with Err.", "quantifier": "every shape with positive dimensions, every natural number", "why_tests_cant": "the unit test enumerates three shapes", "anchors": ["src/tensor/utils.rs: tensor_index, tensor_index_inplace, global_index"]}
{"id": "C07", "title": "constructors accept exactly consistent sizes", "statement": "new(array, shape) succeeds iff the array length is the product of the shape, and then stores both unchanged; new_with_filler(shape, v) always yields a tensor of that shape all of whose elements are v; scalar(v) has shape [] and elem() = v; elem() panics exactly on non-scalars.", "quantifier": "every array, shape, filler", "why_tests_cant": "ranges over all arrays and shapes", "anchors": ["src/tensor/raw_tensor.rs: new, new_with_filler, scalar, From<T>", "src/tensor/tensor_like.rs: elem, get_first_elem"]}
{"id": "C08", "title": "nested literals", "statement": "Building a tensor from a nested vector succeeds iff every level is non-empty and all siblings have equal shape; the outer length is prepended to the shape, and the element at index i::rest is the element of the i-th child at rest.", "quantifier": "every nesting depth, every length", "why_tests_cant": "tests use 2x3 and 3-level literals; depth and lengths are unbounded", "anchors": ["src/tensor/raw_tensor.rs: From<Vec<U>>, From<[U; N]>"]}
{"id": "C09", "title": "data length always matches the shape", "statement": "Every tensor a user can obtain through any sequence of public tensor operations holds exactly product(shape) elements.", "quantifier": "every finite history of public operations", "why_tests_cant": "an invariant over all operation histories", "anchors": ["src/tensor/raw_tensor.rs", "src/tensor/raw_tensor.rs: Default", "src/tensor/rc_tensor.rs", "src/tensor/tensor_like.rs: left_scalar_multiplication, right_scalar_multiplication"]}
{"id": "C10", "title": "addition broadcasts like numpy", "statement": "When a + b succeeds its shape is the numpy broadcast of the two shapes (right-aligned, longer of the two dimensions) and its element at every index is a's broadcast read plus b's broadcast read at this index, in that operand order.", "quantifier": "every pair of tensors or views with compatible positive shapes, every index, every element type (no algebraic laws assumed)", "why_tests_cant": "all pairs of shapes", "anchors": ["src/tensor/functional/element_wise_ops.rs: generic_binop_raw, add_raw, max_shape", "src/tensor/tensor_like.rs: broadcastable"]}
{"id": "C11", "title": "addition rejects exactly incompatible shapes", "statement": "For tensors without zero-length dimensions, a + b panics iff some right-aligned pair of dimensions differs with neither equal to 1.", "quantifier": "every pair of tensors", "why_tests_cant": "both directions range over all pairs of shapes", "anchors": ["src/tensor/functional/element_wise_ops.rs: generic_binop_raw", "src/tensor/tensor_like.rs: broadcastable"]}
{"id": "C12", "title": "subtraction and algebraic laws of elementwise arithmetic", "statement": "a - b equals a + (-b) elementwise with broadcasting; over a commutative ring a + b = b + a including shape, (a + b) + c = a + (b + c) when the operands share a shape, and a - a is the zero tensor of a's shape.", "quantifier": "every pair/triple of compatible tensors over a commutative ring", "why_tests_cant": "algebraic laws for all tensors", "anchors": ["src/tensor/rc_tensor.rs: Add, Sub, Neg", "src/tensor/raw_tensor.rs: Sub, Add, Neg"]}
{"id": "C13", "title": "elementwise multiplication", "statement": "For non-scalar operands a * b succeeds iff the shapes are identical (no broadcasting) and then multiplies element by element, in operand order, keeping the shape.", "quantifier": "every pair of non-scalar tensors with positive dimensions", "why_tests_cant": "all shapes and contents", "anchors": ["src/tensor/functional/misc.rs: element_wise_multiplication", "src/tensor/raw_tensor.rs: Mul"]}
{"id": "C14", "title": "scalar multiplication", "statement": "Multiplying by a scalar tensor on either side scales every element of the other operand, keeps its shape, and preserves operand order; this holds whether the other operand is a tensor or a view.", "quantifier": "every tensor or view, every scalar", "why_tests_cant": "all tensors, all views", "anchors": ["src/tensor/tensor_like.rs: left_scalar_multiplication, right_scalar_multiplication", "src/tensor/raw_tensor.rs: Mul"]}
{"id": "C15", "title": "unary operations act elementwise", "statement": "neg, abs, relu and tanh return a tensor of the same shape whose element at every index is the scalar function of the input's element at that index; relu maps a value to 0 iff it is below 0.", "quantifier": "every tensor or view of any shape (including zero-length dimensions for neg of tensors)", "why_tests_cant": "all shapes and contents", "anchors": ["src/tensor/functional/element_wise_ops.rs: generic_unary_op, tanh, relu, abs", "src/tensor/rc_tensor.rs: Neg"]}
{"id": "C16", "title": "sum adds every element once", "statement": "sum of a tensor or of a view is the rank-0 tensor holding the left fold, from zero, of all its elements in row-major order.", "quantifier": "every tensor, every view with positive dimensions", "why_tests_cant": "all shapes and contents", "anchors": ["src/tensor/raw_tensor.rs: sum", "src/tensor/tensor_view.rs: sum", "src/tensor/rc_tensor.rs: sum"]}
{"id": "C17", "title": "dot product", "statement": "dot of two operands of the same shape is the shape-[1] tensor holding the sum of the elementwise products; differing shapes panic. This holds for tensors and for views.", "quantifier": "every pair of tensors or views", "why_tests_cant": "all shapes and contents", "anchors": ["src/tensor/functional/misc.rs: dot_raw, dot, dot_no_derivative", "src/tensor/raw_tensor.rs: dot"]}
{"id": "C18", "title": "matrix product", "statement": "bmm of an m x k (or batch x m x k) left operand with a k x n right operand has shape m x n (batch x m x n) and element (b,i,j) equal to the left fold over kk = 0..k-1 of left(b,i,kk) * right(kk,j) starting from zero. Operands may be tensors or views.", "quantifier": "all sizes m,k,n,batch, all contents, any element type (no laws assumed, so floating point rounding included)", "why_tests_cant": "all sizes", "anchors": ["src/tensor/functional/misc.rs: bmm_raw", "src/tensor/tensor_like.rs: bmm, bmm_rc"]}
{"id": "C19", "title": "parallel matrix product is deterministic", "statement": "The result of bmm is the same for every order and interleaving in which the worker tasks run: no schedule changes any element, not even through floating-point reordering.", "quantifier": "all sizes, all interleavings of the task steps", "why_tests_cant": "the number of interleavings is unbounded and depends on the thread pool", "anchors": ["src/tensor/functional/misc.rs: bmm_raw (rayon::in_place_scope, split_at_mut)"]}
{"id": "C20", "title": "matrix product rejects exactly the inputs it cannot multiply", "statement": "bmm panics unless the left operand has rank at least 2, the right operand has rank exactly 2 and the inner dimensions agree; every accepted input is multiplied correctly.", "quantifier": "all pairs of tensors of any rank", "why_tests_cant": "all ranks and sizes", "anchors": ["src/tensor/functional/misc.rs: bmm_raw"]}
{"id": "C21", "title": "a view reads through to its tensor", "statement": "For a view made by view/slice with ranges s..e, an in-range view index reads the base tensor's element at index start + i in every dimension, and the view's shape is e - s in every dimension; an out-of-range component in a dimension where the base is longer than 1 panics.", "quantifier": "every base tensor, every valid list of ranges, every index", "why_tests_cant": "all shapes, ranges, indices", "anchors": ["src/tensor/tensor_view.rs: TensorView::new, get, index", "src/tensor/utils.rs: global_index"]}
{"id": "C22", "title": "view creation checks its ranges", "statement": "Creating a view panics iff the number of ranges differs from the rank or some range ends beyond its dimension; a range whose start exceeds its end cannot be created.", "quantifier": "every tensor and every list of ranges", "why_tests_cant": "all shapes and ranges", "anchors": ["src/tensor/tensor_view.rs: TensorView::new", "src/tensor/raw_tensor.rs: SliceRange::new, slice"]}
{"id": "C23", "title": "materialising a view keeps its elements", "statement": "For a view with positive dimensions, to_tensor returns a tensor of the view's shape whose get agrees with the view's get at every in-range index, compares equal to the view, and has the same sum.", "quantifier": "every view with positive dimensions", "why_tests_cant": "all shapes and ranges", "anchors": ["src/tensor/tensor_view.rs: to_tensor, sum, eq", "src/tensor/utils.rs: ElementIterator"]}
{"id": "C24", "title": "slicing a view composes", "statement": "Slicing a view with ranges relative to the view reads the element of the base at the composed offset (outer start + inner start + i).", "quantifier": "every base, every pair of nested range lists", "why_tests_cant": "all shapes and pairs of ranges", "anchors": ["src/tensor/tensor_view.rs: slice"]}
{"id": "C25", "title": "reshaping a view keeps the row-major element order", "statement": "reshape accepts exactly the shapes with the same element count and the reshaped view's elements, read in row-major order, are those of the original view.", "quantifier": "every view, every shape of equal element count", "why_tests_cant": "all shapes", "anchors": ["src/tensor/tensor_view.rs: reshape, get"]}
{"id": "C26", "title": "equality is shape plus elements", "statement": "Two tensors compare equal iff they have the same shape and the same element at every index, regardless of gradients and history; comparison of a view with a tensor or another view obeys the same rule, and equality is an equivalence relation when element equality is.", "quantifier": "every pair of tensors and views", "why_tests_cant": "all pairs", "anchors": ["src/tensor/raw_tensor.rs: PartialEq", "src/tensor/tensor_view.rs: PartialEq"]}
{"id": "C27", "title": "deep_clone detaches", "statement": "deep_clone returns an equal tensor with no gradient and no history; operating on the clone never changes the original's gradient.", "quantifier": "every tensor in every reachable state", "why_tests_cant": "all histories", "anchors": ["src/tensor/tensor_like.rs: deep_clone"]}
{"id": "C28", "title": "zero-length dimensions are never silently mis-read", "statement": "Adding, multiplying elementwise or iterating a tensor that has a zero-length dimension panics instead of returning a wrong value; the element-count loops (neg, sum, bmm with an empty inner dimension) succeed and return the empty/zero result.", "quantifier": "every shape with at least one zero dimension", "why_tests_cant": "all such shapes", "anchors": ["src/tensor/utils.rs: increment_index, IndexIterator, ElementIterator", "src/tensor/functional/element_wise_ops.rs: generic_binop_raw, generic_unary_op"]}
{"id": "C29", "title": "backward computes the mathematical gradient", "statement": "For every loss built from leaf tensors with add, sub, neg, relu, abs, tanh, bmm and sum, with sum as the last operation, after loss.backward() the gradient of every tensor x that the loss depends on equals, coordinate by coordinate, its previous gradient plus the partial derivative of the loss value with respect to this coordinate of x.", "quantifier": "every computation graph (any size, any sharing), any shapes, any real values away from the kinks of relu/abs", "why_tests_cant": "a statement about all graphs and all reals; numerical-difference tests use three literals", "anchors": ["src/tensor/autograd/jvp.rs: compute_jvp, ones", "src/tensor/rc_tensor.rs: backward, update_grad", "src/tensor/functional/element_wise_ops.rs: *_jvp", "src/tensor/functional/misc.rs: bmm_jvp"]}
{"id": "C30", "title": "gradient of a broadcast addition sums over the broadcast positions", "statement": "The gradient passed to an operand of a broadcast addition has, at each element of the operand, the sum of the upstream gradient over exactly the output positions that read this element, for every row of the upstream gradient.", "quantifier": "every pair of compatible shapes, every upstream gradient matrix", "why_tests_cant": "all shapes", "anchors": ["src/tensor/functional/element_wise_ops.rs: generic_binop_jvp, jvp_from_diagonal_broadcast, add_jvp"]}
{"id": "C31", "title": "gradient of sum propagates the upstream gradient", "statement": "The gradient that sum passes to its input repeats the upstream gradient at every element.", "quantifier": "every tensor, every upstream gradient", "why_tests_cant": "all shapes and gradients", "anchors": ["src/tensor/autograd/jvp.rs: ones", "src/tensor/rc_tensor.rs: sum"]}
{"id": "C32", "title": "gradient of the matrix product", "statement": "For C = A bmm B with upstream row gradient g, the gradient for A at (i,k) is sum_j g(i,j) B(k,j) and for B at (k,j) is sum_i A(i,k) g(i,j).", "quantifier": "all sizes, all contents over a commutative semiring", "why_tests_cant": "all sizes; the unit tests use matrices with at most 6 elements", "anchors": ["src/tensor/functional/misc.rs: bmm_jvp, SplitArrayWriter"]}
{"id": "C33", "title": "parallel matrix-product gradient does not depend on the schedule", "statement": "Every complete interleaving of the sender tasks, channels and segment writers of the bmm gradient produces the same arrays when element addition is commutative and associative; without these laws every cell still is a fold of its contributions in some order, none lost and none duplicated.", "quantifier": "all sizes, all interleavings", "why_tests_cant": "unbounded number of interleavings", "anchors": ["src/tensor/functional/misc.rs: SplitArrayWriter, bmm_jvp"]}
{"id": "C34", "title": "parallel matrix-product gradient always finishes", "statement": "The gradient of bmm terminates on every schedule with any number of pool threads at least one: some step is always possible until all messages are written, no schedule is infinite, and the segment bounds assertion never fires.", "quantifier": "all sizes, all interleavings, all thread counts >= 1", "why_tests_cant": "liveness over all schedules", "anchors": ["src/tensor/functional/misc.rs: SplitArrayWriter::start_then_join, get_writer"]}
{"id": "C35", "title": "backward terminates", "statement": "The recursion of backward ends on every graph that public operations can build.", "quantifier": "every reachable state, every root", "why_tests_cant": "all histories; the recursion has no explicit bound", "anchors": ["src/tensor/autograd/jvp.rs: compute_jvp"]}
{"id": "C36", "title": "backward touches only gradients of ancestors", "statement": "backward changes no tensor's data, shape or history, and changes the gradient of no tensor that is not an ancestor of the loss.", "quantifier": "every reachable state, every root, every tensor", "why_tests_cant": "frame property over all graphs", "anchors": ["src/tensor/autograd/jvp.rs: compute_jvp", "src/tensor/raw_tensor.rs: update_grad"]}
{"id": "C37", "title": "gradients accumulate until zeroed", "statement": "Calling backward on several losses leaves in each tensor the sum of the individual gradients (plus what was there); calling it again on the same loss adds the same gradient again; zero_grad removes the gradient so that the next backward starts afresh.", "quantifier": "every sequence of backward / zero_grad calls on every graph, over an additive commutative monoid", "why_tests_cant": "all histories", "anchors": ["src/tensor/raw_tensor.rs: update_grad, zero_grad", "src/tensor/rc_tensor.rs: backward"]}
{"id": "C38", "title": "a gradient has the shape of its tensor", "statement": "Whenever grad() returns a value it has the same shape as the tensor and as many elements.", "quantifier": "every reachable state, every tensor", "why_tests_cant": "invariant over all histories", "anchors": ["src/tensor/autograd/jvp.rs: compute_jvp", "src/tensor/raw_tensor.rs: sum, update_grad"]}
{"id": "C39", "title": "backward is accepted on every single-element result with a history", "statement": "backward panics on a tensor with other than one element and on a tensor without history; on a one-element tensor with a history it succeeds.", "quantifier": "every reachable state", "why_tests_cant": "all graphs", "anchors": ["src/tensor/rc_tensor.rs: backward", "src/tensor/functional/element_wise_ops.rs: abs_jvp", "src/tensor/functional/misc.rs: bmm_jvp, dot_jvp"]}
{"id": "C40", "title": "which operations are differentiable", "statement": "Results of add, sub, neg, sum, bmm, dot, relu, tanh and abs on tensors carry history to exactly their operands; results of multiplication, of the functions on RawTensors (+, -, bmm, dot_no_derivative, element_wise_multiplication, generic_unary_op, sum), and anything read through a view, carry none, so backward through them reaches no operand.", "quantifier": "every operand, every reachable state", "why_tests_cant": "all operands and states", "anchors": ["src/tensor/rc_tensor.rs: Add, Sub, Neg, Mul, sum, bmm_rc", "src/tensor/functional/misc.rs: dot", "src/tensor/tensor_view.rs: to_tensor", "src/tensor/raw_tensor.rs: Add, Sub, bmm, dot, sum"]}
{"id": "C41", "title": "gradient of dot", "statement": "dot(a, b).backward() adds b to a's gradient and a to b's gradient, and dot can be used inside a larger loss.", "quantifier": "every pair of equally shaped leaf tensors; every surrounding graph", "why_tests_cant": "all shapes and graphs", "anchors": ["src/tensor/functional/misc.rs: dot, dot_jvp", "src/tensor/autograd/jvp.rs: jvp_from_full_jacobians"]}
{"id": "C42", "title": "concurrent gradient updates are not lost", "statement": "When several threads run backward on losses that share a tensor, the tensor ends with the sum of all contributions, whatever the interleaving.", "quantifier": "every number of threads, every interleaving of lock sections", "why_tests_cant": "depends on schedules", "anchors": ["src/tensor/raw_tensor.rs: update_grad (read lock, then write lock)"]}
{"id": "C43", "title": "one gradient update per path", "statement": "backward performs exactly one gradient update of a tensor for every path from the loss to it; in particular the work on n-fold repeated doubling x+x is 2^n, not linear in the number of tensors.", "quantifier": "every graph", "why_tests_cant": "counts over all graphs", "anchors": ["src/tensor/autograd/jvp.rs: compute_jvp"]}
{"id": "C44", "title": "linear layer", "statement": "Linear::forward on an m x k batch with k x n weights and a bias of shape [n] or [1,n] returns activation(x W + b): before activation the element (i,j) is sum_kk x(i,kk) W(kk,j) plus b(j).", "quantifier": "all sizes and contents", "why_tests_cant": "all sizes", "anchors": ["src/nn/linear.rs: forward"]}
{"id": "C45", "title": "an MLP is the composition of its layers", "statement": "Mlp::forward applies the layers first to last; a batch of m rows with consistent layer sizes always succeeds and yields m rows of the last layer's width.", "quantifier": "any number of layers, all sizes", "why_tests_cant": "all depths and sizes", "anchors": ["src/nn/feed_foward.rs: forward"]}
{"id": "C46", "title": "parameter lists round-trip", "statement": "params() lists weights then bias for each layer first to last; update_params(params()) leaves the network unchanged, and update_params with a list of the right length makes params() return this list; too short a list panics.", "quantifier": "any number of layers, any list", "why_tests_cant": "all depths", "anchors": ["src/nn/feed_foward.rs: params, update_params", "src/nn/linear.rs: params, update_params"]}
{"id": "C47", "title": "an SGD step is p - lr * grad", "statement": "sgd_step replaces every parameter by the tensor of the same shape with elements p - lr * grad(p), in the same order, with no gradient, and panics iff some parameter has no gradient; activations and layer count are unchanged.", "quantifier": "every network, every step size, every state in which the gradients that are present have the shape of their parameter (backward leaves no others, except on the operand of a sum)", "why_tests_cant": "all networks and values", "anchors": ["src/optim/sgd.rs: sgd_step"]}
{"id": "C48", "title": "an SGD step releases the previous graph", "statement": "Parameters produced by sgd_step are fresh leaves: they hold no reference to earlier parameters and later backward calls do not reach earlier parameters.", "quantifier": "every number of training steps", "why_tests_cant": "a property of unbounded training histories", "anchors": ["src/optim/sgd.rs: sgd_step", "src/tensor/rc_tensor.rs: Sub"]}
{"id": "C49", "title": "tensors are immutable values", "statement": "No public operation other than update_grad, zero_grad and backward changes anything observable of an existing tensor; these three change gradients only.", "quantifier": "every finite history of operations, every tensor alive before it", "why_tests_cant": "all histories", "anchors": ["src/tensor/rc_tensor.rs", "src/tensor/functional"]}
{"id": "C50", "title": "end-to-end training step", "statement": "For an MLP with tanh/relu/identity activations and loss = sum |f(x) - y|, one forward, backward and sgd_step replaces every parameter coordinate p by p - lr * dLoss/dp.", "quantifier": "every depth, every size, all real weights away from kinks", "why_tests_cant": "all networks and reals", "anchors": ["src/main.rs: main", "src/optim/sgd.rs: sgd_step", "src/nn/feed_foward.rs", "src/tensor/autograd/jvp.rs"]}
{"id": "C51", "title": "a view broadcasts like the tensor it materialises to", "statement": "In a broadcast addition a view operand can be replaced by view.to_tensor() without changing the result.", "quantifier": "all left tensors, all views without zero-length dimensions", "why_tests_cant": "the read rule looks at the base dimension instead of the view dimension; only a view that narrows a longer dimension to exactly 1 and is then broadcast shows the difference", "anchors": ["src/tensor/utils.rs:197-212", "src/tensor/functional/element_wise_ops.rs:292-321", "src/tensor/tensor_view.rs:127-133"]}
{"id": "C52", "title": "an empty view contributes no elements", "statement": "Adding a view that has a zero-length dimension panics or yields a tensor without elements; it never yields a value computed from elements outside the view.", "quantifier": "all left tensors, all views with a zero-length dimension", "why_tests_cant": "needs an empty range over a length-1 dimension", "anchors": ["src/tensor/utils.rs:197-212", "src/tensor/functional/element_wise_ops.rs:292-321"]}
{"id": "C53", "title": "gradients of the unary operations follow the chain rule elementwise", "statement": "The gradient function of neg, relu, abs or tanh returns, at every element, the upstream gradient at that element times the derivative of the operation at the input element: -1, 0/1 by sign, -1/1 by sign, 1 - tanh(x)^2.", "quantifier": "all tensors without zero-length dimensions, all upstream gradient matrices of matching width", "why_tests_cant": "four different code paths (diagonal with broadcast, full Jacobian product) have to agree with one elementwise rule for all sizes", "anchors": ["src/tensor/functional/element_wise_ops.rs:38-110", "src/tensor/functional/element_wise_ops.rs:323-357", "src/tensor/autograd/jvp.rs:55-79"]}
{"id": "C54", "title": "a small training step decreases the loss", "statement": "If some partial derivative of the loss by a parameter coordinate is not zero, then for every small enough positive learning rate the loss computed by the forward pass after one training step is smaller than the loss computed before it.", "quantifier": "every depth and size of network with identity/relu/tanh activations, all real weights, inputs and targets away from kinks, all learning rates below a bound", "why_tests_cant": "quantifies over reals and over an interval of learning rates; small networks (as in tests) satisfy it while larger matrices do not", "anchors": ["src/main.rs: main", "src/optim/sgd.rs: sgd_step", "src/nn/feed_foward.rs", "src/tensor/autograd/jvp.rs"]}
{"id": "C55", "title": "rows of a batch do not influence each other", "statement": "If row i of one batch equals row i' of another, then the network's output for the first batch has in row i the same elements as its output for the second batch in row i', whatever the other rows are and however many there are.", "quantifier": "all networks of consistent sizes with elementwise activations, all batches, all element types (no law of + or *, hence also floats)", "why_tests_cant": "a relation between two runs on different inputs; quantifies over all other rows", "anchors": ["src/nn/feed_foward.rs:27-31", "src/nn/linear.rs:46-52", "src/tensor/functional/misc.rs: bmm_raw"]}
{"id": "C56", "title": "laws of the matrix product", "statement": "bmm is associative, distributes over + on both sides, lets scalars move out of either operand, and has the identity matrix as neutral element on both sides; the left operand may be a batch of matrices.", "quantifier": "all sizes, all entries of a semiring", "why_tests_cant": "relates nested calls for all sizes; a test only compares constants", "anchors": ["src/tensor/functional/misc.rs: bmm_raw", "src/tensor/functional/element_wise_ops.rs: generic_binop", "src/tensor/raw_tensor.rs:402-410"]}
{"id": "C57", "title": "sum is linear and independent of order", "statement": "The sum of a + b is the sum of a plus the sum of b, scalars and negation move out of the sum, and the sum depends only on the multiset of elements, not on order or shape.", "quantifier": "all shapes and entries of a semiring / commutative group / commutative monoid", "why_tests_cant": "relates several calls for all shapes and contents", "anchors": ["src/tensor/raw_tensor.rs:318-323", "src/tensor/raw_tensor.rs:402-410"]}
{"id": "C58", "title": "gradients of bmm are reproducible", "statement": "Two runs of bmm_jvp on the same inputs give bit-identical arrays even when addition is not associative (floats), whatever the schedule of the pool.", "quantifier": "all inputs, all numbers of workers, all schedules; addition commutative with neutral 0 but not necessarily associative", "why_tests_cant": "depends on the schedule of the worker threads; a test sees one schedule per run", "anchors": ["src/tensor/functional/misc.rs:140-202", "src/tensor/functional/misc.rs:258-326"]}
{"id": "C59", "title": "results of sum can be used inside of a loss", "statement": "If results of sum are used in further operations (added, subtracted, put through relu, multiplied as matrices, summed again) on the way to a one-element loss, loss.backward() adds to every coordinate of the gradient of every tensor the loss depends on the partial derivative of the loss.", "quantifier": "every computation graph with sums in any places, matrix factors of at most 32 elements, any real values away from kinks", "why_tests_cant": "all graphs and all reals; the tests only have sum as the last operation", "anchors": ["src/tensor/autograd/jvp.rs: ones, compute_jvp", "src/tensor/rc_tensor.rs: sum", "src/tensor/raw_tensor.rs: sum, update_grad"]}
{"id": "C60", "title": "the work of a training step stays the same", "statement": "loss.backward() in step n+1 of the training loop performs as many gradient updates as in step 1, and its recursion is as deep.", "quantifier": "every network with any number of layers and any activations that are public operations, every number of steps, every element type", "why_tests_cant": "the tests and main run two steps and look at values only; growth with the number of steps needs a statement about all n", "anchors": ["src/main.rs:78-93", "src/optim/sgd.rs:29-42", "src/tensor/autograd/jvp.rs:30-51"]}
{"id": "C61", "title": "shared parameters stay shared", "statement": "If two places of a network hold the same tensor as their parameter (weight tying), they hold one and the same tensor after sgd_step, so later steps keep them equal.", "quantifier": "every network, every pair of places, every state of gradients", "why_tests_cant": "no test shares a parameter; the first step hides the defect because the values still agree", "anchors": ["src/optim/sgd.rs:29-42", "src/nn/feed_foward.rs:33-47"]}
{"id": "C62", "title": "threads that share the pool do not disturb each other", "statement": "Any number of threads may call backward (bmm_jvp) at the same time: all calls share the global rayon pool, every call returns, and returns what it returns when it runs alone; a panic of one call affects only the thread that made it.", "quantifier": "every number of threads, every sequence of calls per thread with any inputs (also ones that panic), every number of workers, every placement of the threads outside of the pool or on its workers, every schedule", "why_tests_cant": "cargo test runs the tests in parallel and so does this by accident, but exercises few schedules; the blocking schedules depend on which worker takes which job", "anchors": ["src/tensor/functional/misc.rs:140-202", "src/tensor/functional/misc.rs:211-334"]}
{"id": "C63", "title": "rounding errors of forward computations", "statement": "Over floating point numbers, the results of sum, dot, bmm (plain and batched) and of whole networks differ from the results in exact arithmetic by at most a computable bound, as long as the result is finite: (1+u)^n - 1 times the sum of the absolute values of the n terms (plus an underflow term per product), propagated through the layers by the Lipschitz constants of the activations.", "quantifier": "every arithmetic that satisfies the standard model of rounding errors (f32 and f64 with round to nearest are shown to), all well-formed operands of every size, all networks", "why_tests_cant": "unit tests use small integers, for which floating point arithmetic is exact, and compare with exact equality", "anchors": ["src/tensor/raw_tensor.rs:318-329", "src/tensor/functional/misc.rs:351-360", "src/tensor/functional/misc.rs:46-138", "src/nn/linear.rs:1-108", "src/nn/feed_foward.rs:1-152"]}
{"id": "C64", "title": "rounding error of the matrix product's gradient does not depend on the schedule", "statement": "bmm_jvp adds the terms of a cell in the order in which they arrive. Over floating point numbers the result may depend on the schedule, but every finite cell has an error within the same bound as for sequential addition, and two runs differ by at most twice the bound.", "quantifier": "every arithmetic in the standard model of rounding errors, all sizes, every pool size, inside or outside of the pool, every schedule", "why_tests_cant": "tests use integers, so they cannot see reordering, and a rerun sees only one schedule", "anchors": ["src/tensor/functional/misc.rs:140-202", "src/tensor/functional/misc.rs:211-334"]}
{"id": "C65", "title": "rounding error of an SGD step", "statement": "Each finite coordinate of a parameter after sgd_step differs from p - lr*g by at most u|p| + (2u+u^2)|lr g| (plus an underflow term).", "quantifier": "every arithmetic in the standard model of rounding errors, all networks, all heaps, all learning rates", "why_tests_cant": "there is no test with values that are rounded", "anchors": ["src/optim/sgd.rs:29-40", "src/tensor/rc_tensor.rs:304-326"]}
{"id": "C66", "title": "tensors with history compute the values of the functions on data", "statement": "Every operation on RcTensors, on RawTensors and on views succeeds exactly if the function on plain data does, and its result holds the data of that function (subtraction: a + (-b), in this order). The result has no gradient, except sum (ones in the shape of its operand) and a clone of a RawTensor (the original's).", "quantifier": "all operations, all heaps (gradient: all reachable ones), all operands, also those for which the operation panics", "why_tests_cant": "tests look at single calls with fixed data, never at the same call with and without history", "anchors": ["src/tensor/rc_tensor.rs:181-372", "src/tensor/raw_tensor.rs:265-391", "src/tensor/tensor_view.rs:112-156"]}
{"id": "C67", "title": "no use after free, no leaks", "statement": "At every point of a program exactly the tensors are in memory that the program can still get at from the tensors it owns; counting references changes no result, and dropping never fails. (The first part is false: t.update_grad(t) makes a cycle that is never freed. It holds for programs that never call t.update_grad(g) with a g that refers to t, in particular for those that use only backward; what leaks elsewhere hangs on a cycle.)", "quantifier": "all programs of operations, clones, drops and reads of gradients", "why_tests_cant": "tests do not observe memory, and a leak needs particular programs", "anchors": ["src/tensor/rc_tensor.rs:28-29", "src/tensor/raw_tensor.rs:40-49", "src/tensor/raw_tensor.rs:303-313", "src/tensor/autograd/jvp.rs:30-51"]}
{"id": "C68", "title": "memory of training", "statement": "After training steps only the parameters and their gradients are in memory once everything else is dropped. (False: the history of the parameters keeps at least 3n tensors per parameter after n steps.)", "quantifier": "all networks, all numbers of steps, all programs that own the parameters", "why_tests_cant": "tests do not observe memory and train only for a few steps", "anchors": ["src/optim/sgd.rs:29-42", "src/tensor/rc_tensor.rs:304-326"]}
{"id": "C69", "title": "recursion depth of dropping a tensor", "statement": "Dropping a tensor needs a bounded number of nested calls of drop. (False: it nests as deep as the chain of tensors that only each other keep, and at most as deep as the number of tensors it frees; a long enough history overflows the stack.)", "quantifier": "all programs, all chains", "why_tests_cant": "only very long histories overflow the stack", "anchors": ["src/tensor/raw_tensor.rs:40-49", "src/tensor/autograd/jvp.rs:6-12"]}
{"id": "C70", "title": "memory of accumulated gradients", "statement": "When a program owns only tensors without history, nothing but these and their gradients is in memory. (False: a gradient is a sum with history, so after n contributions to the gradient of a tensor all of them and the n-1 intermediate sums stay in memory until zero_grad.)", "quantifier": "all programs, all numbers of contributions", "why_tests_cant": "tests do not observe memory", "anchors": ["src/tensor/raw_tensor.rs:307-313", "src/tensor/autograd/jvp.rs:44-45"]}
{"id": "C71", "title": "usize overflow", "statement": "With 64 bit usize arithmetic, with or without overflow checks, new accepts the same arguments as with unbounded numbers, and so do the other functions that compute with dimensions and indices. (False: without overflow checks new accepts an empty array for the shape [2^32, 2^32]; with overflow checks it rejects the empty array for [2^63, 4, 0]. It holds when the product of the dimensions that are not zero is below 2^64, which is so for all non-empty tensors that hold as many elements as their shape says.)", "quantifier": "both profiles, all arrays, all shapes, all indices", "why_tests_cant": "the shapes have products above 2^64", "anchors": ["src/tensor/raw_tensor.rs:154-203", "src/tensor/utils.rs:101-116", "src/tensor/utils.rs:177-247", "src/tensor/tensor_view.rs:47-79"]}
{"id": "C72", "title": "Failures do not depend on elements", "statement": "Whether a program of tensor operations or a training run succeeds, with which error or panic it fails, and the shapes, histories and gradient tensors of all its tensors depend on the shapes and the operations only, not on the elements, the initial parameters, the step size or the element type. More generally a relation between elements that is kept by the arithmetic and the functions used is kept by every program, gradients included.", "quantifier": "all pairs of programs with the same operations on tensors of the same shapes, all element types, all networks, all numbers of steps", "why_tests_cant": "compares all pairs of inputs of all element types", "anchors": ["src/tensor/raw_tensor.rs:154-203", "src/tensor/rc_tensor.rs", "src/tensor/autograd/jvp.rs", "src/nn/feed_foward.rs", "src/optim/sgd.rs:29-42"]}
{"id": "C73", "title": "Integer elements", "statement": "Without overflow checks a program on integer tensors computes the exact results and gradients modulo 2^w. (False for relu, which compares an overflown value with 0. It holds for all other operations: every element whose exact value is in range is exact even if something overflowed on the way, and with overflow checks every element computed without a panic is exact and the same in both profiles.)", "quantifier": "all widths, all programs, all elements", "why_tests_cant": "quantifies over all programs and all values that overflow on the way", "anchors": ["src/tensor/numeric.rs:27-35", "src/tensor/functional/element_wise_ops.rs", "src/tensor/functional/misc.rs"]}
{"id": "C74", "title": "Gradients of integer tensors", "statement": "For integer tensors without overflow checks, each element of the gradient computed by backward is the partial derivative of the loss, as a function of real numbers, reduced modulo 2^w; that derivative is an integer. For programs without relu and with the matrix sizes and sum positions for which gradients are derivatives (C29).", "quantifier": "all widths, all programs, all elements, all tensors that the loss depends on", "why_tests_cant": "relates a modular computation to a limit of real numbers", "anchors": ["src/tensor/numeric.rs:27-35", "src/tensor/autograd/jvp.rs", "src/tensor/rc_tensor.rs: backward"]}
{"id": "C75", "title": "What a panic leaves behind", "statement": "An operation that panics changes no tensor. (False: backward may have updated gradients before it panics. It holds for the data and history of all tensors, for the gradients of all tensors that the loss does not depend on, and for all operations other than backward. What a backward has done before its panic are gradient updates of tensors that the loss depends on. A program that catches panics and goes on only meets states that a program without panics can meet.)", "quantifier": "all programs, all operations, all tensors", "why_tests_cant": "quantifies over all programs and all places where backward can panic", "anchors": ["src/tensor/autograd/jvp.rs:30-51", "src/tensor/raw_tensor.rs:303-313", "src/tensor/rc_tensor.rs: backward"]}
{"id": "C76", "title": "Gradients where relu and abs have no derivative", "statement": "Where a loss has a derivative, backward computes it, also if elements that go into relu or abs are 0. (False: relu x - relu (-x) is x, but for x = 0 backward computes the gradient 2. It holds if the elements that go into relu or abs and are 0 have derivative 0, and therefore for all but countably many values of an element of a tensor, whatever the other elements are, and for Lebesgue-almost all elements of a tensor.)", "quantifier": "all losses with the conditions of C29 other than the one about kinks, all tensors, all elements", "why_tests_cant": "derivatives of real functions; the places where it fails are exceptional points of a continuum", "anchors": ["src/tensor/functional/element_wise_ops.rs:38-67", "src/tensor/functional/element_wise_ops.rs:323-360", "src/tensor/rc_tensor.rs:50"]}
{"id": "C77", "title": "Training of a linear layer converges", "statement": "Training of a layer without activation by the loop of main.rs: the smallest of the first N losses exceeds the loss of any other parameters by at most d^2 / (2 lr N) + lr G / 2, where d is the distance of the initial parameters from the others and G only depends on the input; with a suitable learning rate it exceeds it by at most d sqrt (G / N). (False for more than 32 weights: a layer with 33 weights gets worse with every step. It holds up to 32 weights, because what backward computes is a subgradient of the loss, also at its kinks.)", "quantifier": "all layers, inputs, expected outputs, initial parameters, learning rates and numbers of steps; real arithmetic", "why_tests_cant": "quantifies over all numbers of steps and all real parameters", "anchors": ["src/main.rs:78-93", "src/optim/sgd.rs", "src/tensor/functional/element_wise_ops.rs:323-360"]}
{"id": "C78", "title": "Almost all training runs meet no kink", "statement": "From almost all initial parameters (Lebesgue measure) every step of the training loop of main.rs is a step of gradient descent, p - lr * dLoss/dp for every number p, taken where the loss is differentiable. (True for the first step and any learning rate, for almost all learning rates for all steps, for a layer without activation for all learning rates; false for some learning rates: with 1/2 an open set of initial parameters leads in two steps to a hidden relu value of exactly 0. For matrices with more than 32 elements the steps are not steps of gradient descent, C50, but almost all runs meet no kink either.)", "quantifier": "all network sizes, activations, inputs and expected outputs; almost all real parameters and learning rates; all numbers of steps", "why_tests_cant": "measure zero: tests see finitely many parameters, and floating point tests cannot tell kinks", "anchors": ["src/main.rs:78-93", "src/optim/sgd.rs", "src/tensor/functional/element_wise_ops.rs", "src/nn/linear.rs"]}
{"id": "C79", "title": "A NaN is not hidden", "statement": "For every element type with elements that +, *, negation, abs and tanh pass on and that are not negative (as the NaNs of IEEE 754): if a tensor with such an element takes part in a computation, the result has such an element. So a NaN in a parameter, in the input or in the expected output makes the loss a NaN in this and in every later step of the training loop, and a parameter with a NaN keeps one. (True for non-empty tensors of up to three dimensions. False in general: bmm of a [1, 1, m, k] tensor ignores all rows but the first. The gradients do not show it: a NaN loss can have the gradient -1 for every parameter.)", "quantifier": "all element types with absorbing elements, all computations, all networks with identity, relu and tanh, all numbers of steps", "why_tests_cant": "tests do not put a NaN at every position of every computation", "anchors": ["src/tensor/functional/element_wise_ops.rs:38-70", "src/tensor/functional/misc.rs", "src/main.rs:78-93"]}
{"id": "C80", "title": "The order of the rows of a batch does not matter", "statement": "If two training runs start with the same parameters, and the rows of input and expected output of the second are those of the first in another order, then both have the same parameters after any number of steps, and the same losses. (True if the outputs of all layers but the last have at most 32 elements, whatever the size of the weights; the loss of given parameters never depends on the order. False in general: 33 rows through two layers of width 1, because the gradients of bmm are written to wrong positions, so rows are mixed.)", "quantifier": "all networks, batches, permutations of the rows, learning rates and numbers of steps; real arithmetic", "why_tests_cant": "quantifies over all batches and all permutations of their rows", "anchors": ["src/tensor/functional/misc.rs", "src/main.rs:78-93", "src/nn/linear.rs"]}
{"id": "C81", "title": "A batch adds up its rows", "statement": "What a training step on a batch adds to the parameters is the sum of what steps on its single rows would add to them, also at kinks. (True if the outputs of all layers but the last have at most 32 elements. False in general: for 33 rows through two layers of width 1 the sign can be the opposite one.)", "quantifier": "all networks, batches, parameters and learning rates; real arithmetic", "why_tests_cant": "quantifies over all batches and parameters", "anchors": ["src/tensor/functional/misc.rs", "src/optim/sgd.rs", "src/main.rs:78-93"]}
{"id": "C82", "title": "The order of hidden units does not matter", "statement": "If the parameters of two networks only differ by the order of the units of a hidden layer (columns of its weights, bias, rows of the next weights), then so do the parameters after any number of training steps on the same data, and the losses are the same. Units that start with the same parameters keep the same parameters. (True for matrices of at most 32 elements; the loss never depends on the order. False in general: with 11 inputs and 3 units the first step tells equal units apart.)", "quantifier": "all networks, hidden layers, permutations of units, data, learning rates and numbers of steps; real arithmetic", "why_tests_cant": "quantifies over all networks, permutations and numbers of steps", "anchors": ["src/tensor/functional/misc.rs", "src/nn/feed_foward.rs", "src/nn/linear.rs"]}
{"id": "C83", "title": "A relu unit that never reacts is never changed", "statement": "If the sum that a unit of the first layer feeds into relu is negative for every row of the input, then no number of training steps changes its weights or its bias. (True if the first layer has at most 32 weights; the other layers may have any size. False in general: with 11 inputs and 3 units the gradient of another unit is written to it.)", "quantifier": "all networks whose first activation is relu, all data, parameters, learning rates and numbers of steps; real arithmetic", "why_tests_cant": "quantifies over all networks, data and numbers of steps", "anchors": ["src/tensor/functional/misc.rs", "src/tensor/functional/element_wise_ops.rs:38-70", "src/main.rs:78-93"]}
{"id": "C84", "title": "Programs behave the same in the debug and release profiles", "statement": "A program (any sequence of operations, views, zero_grad and backward calls) has the same outcome, i.e. the same tensors, gradients, histories, error or panic, whether compiled in the debug profile (overflow checks and debug assertions on) or in the release profile, and this is the outcome with unbounded integers. (True if the debug profile ends neither with an integer overflow nor with a failed debug_assert. False in general: RawTensor::new accepts an empty array for the shape [2^32, 2^32] in release; and the gradient of the dot product of tensors of rank 3 that come out of relu is computed in release but fails a debug_assert in debug.)", "quantifier": "all sequences of operations on all tensors over any element type", "why_tests_cant": "quantifies over all programs; tests run in one profile", "anchors": ["src/tensor/raw_tensor.rs:140-251", "src/tensor/utils.rs", "src/tensor/functional/misc.rs", "src/tensor/functional/element_wise_ops.rs:130-259", "src/tensor/autograd/jvp.rs:24-70"]}
{"id": "C85", "title": "Programs whose tensors fit into the address space compute exactly the mathematical result, in both profiles", "statement": "If a program (any sequence of operations, views, zero_grad and backward calls) computes tensors with unbounded integers, every tensor it makes, gradients included, has a shape whose nonzero dimensions have a product below 2^64, inputs of tanh have fewer than 2^32 elements, and shapes given to reshape fit, then both the debug and the release profile compute exactly these tensors, gradients and histories: no index computation overflows, no debug_assert fails and no number wraps. Without the conditions it fails: new([], [2^32, 2^32, 0]) overflows in debug.", "quantifier": "all sequences of operations on all tensors over any element type", "why_tests_cant": "quantifies over all programs and over shapes far beyond what a test can allocate; an overflow in an intermediate index computation would only show for particular shapes", "anchors": ["src/tensor/utils.rs", "src/tensor/raw_tensor.rs:140-251", "src/tensor/functional/misc.rs", "src/tensor/functional/element_wise_ops.rs", "src/tensor/autograd/jvp.rs"]}
{"id": "C86", "title": "The program main runs to its end whatever it draws, in both profiles", "statement": "The program of main.rs (draw the parameters of a network and an input, then repeat: forward, sum of absolute differences, backward, sgd_step, zero_grad) never panics and never returns an error, for every element type, all drawn values (also NaN), every learning rate and number of steps, and all positive sizes of the layers and the input. Every tensor it ever makes is a scalar or has the shape of the input, of a parameter, or of the output of a layer. If these have fewer than 2^32 elements, the debug and the release profile make exactly the same tensors as unbounded integers; this is so for the sizes in main.rs. Over the reals the final parameters are the drawn ones after the given number of (shuffled) gradient descent steps.", "quantifier": "all element types, drawn values, learning rates, numbers of steps and network sizes", "why_tests_cant": "one run of main takes one stream of random numbers; the claim is for all streams, sizes and both profiles", "anchors": ["src/main.rs:10-96", "src/nn/linear.rs", "src/nn/feed_foward.rs", "src/optim/sgd.rs:29-42", "src/tensor/autograd/jvp.rs"]}
{"id": "C87", "title": "Debug output of a tensor ends and shows each tensor once", "statement": "`{:?}` of a tensor ends, and prints the tensor and every tensor it refers to (gradients and recorded inputs, directly or through others) exactly once. False: `x + x` prints `x` twice, n doublings print 2^(n+1) - 1 tensors, and a tensor that is its own gradient is printed until the stack overflows. True: what is printed is one tensor for each path of references from the tensor, in the order of the paths and nested as deep as the path is long; it ends if and only if the tensor does not refer to a cycle, which only `update_grad` called by the program can make, and needs as much stack as the longest path; a network after n training steps prints at least 3 n tensors per parameter.", "quantifier": "all programs and tensors", "why_tests_cant": "the size of the output is exponential in the number of operations in the worst case, and endless output cannot be observed by a test", "anchors": ["src/tensor/rc_tensor.rs:27-28", "src/tensor/raw_tensor.rs:39-49", "src/tensor/autograd/jvp.rs:5-12", "src/nn/linear.rs:6-14", "src/nn/feed_foward.rs:7-13"]}
{"id": "C88", "title": "Iterators called one by one", "statement": "The calls of `next` on `iter_indices()` return the indices of the shape in row-major order and then `None` for ever (also after further calls), for every shape and in both profiles; those on an `ElementIterator` the elements of the tensor or view in this order. False for shapes with a zero: with overflow checks the indices of the dimensions after the last zero are returned, preceded by zeros, and then every call panics; without overflow checks a zero counts as 2^64, so that none of the first 2^64 calls returns `None`. True for all shapes without a zero.", "quantifier": "all shapes, tensors and views, numbers of calls, both profiles", "why_tests_cant": "all shapes and all numbers of calls, among them 2^64", "anchors": ["src/tensor/utils.rs:7-116", "src/tensor/tensor_like.rs:143-145"]}
{"id": "C89", "title": "What feeds a unit and what reads it stay balanced", "statement": "For a hidden unit with relu or without activation, a training step changes the weights and bias that feed it and the weights that read it by amounts whose products with the parameters are the same; so over any training run the sum of the squares of the former minus the sum of the squares of the latter changes only by terms of second order in the learning rate. The loss does not change if the former are multiplied and the latter divided by the same positive number. The first part is false for weights of more than 32 elements: a weight of a unit that nothing reads is changed; it is true, also at kinks, if all matrices have at most 32 elements; and it is true for all data and parameters exactly if the weights of the unit's layer, the output of this layer and the weights that read it have at most 32 elements each. The last part is true for all sizes.", "quantifier": "all networks, units, data, parameters, learning rates, numbers of steps", "why_tests_cant": "an identity over the reals for all networks and runs", "anchors": ["src/main.rs:78-93", "src/tensor/functional/misc.rs:211-331", "src/tensor/functional/element_wise_ops.rs:38-70", "src/optim/sgd.rs:29-42"]}
{"id": "C90", "title": "Which networks are trained by gradient descent", "statement": "For a number of rows, widths and activations: every training step, for all heaps, data, learning rates and parameters without kinks, is a step of gradient descent of the loss exactly if all weights, and the outputs of all layers but the last one, have at most 32 elements. Otherwise there are data and parameters without kinks from which a step with any learning rate other than 0 leaves a parameter different from what gradient descent gives; so for the network of main.rs.", "quantifier": "all numbers of rows, widths, activations, data, parameters, learning rates", "why_tests_cant": "for all sizes: above the limit there is a counterexample for each, below it there is none", "anchors": ["src/main.rs:30-93", "src/tensor/functional/misc.rs:211-331", "src/optim/sgd.rs:29-42"]}
{"id": "C91", "title": "Training settles", "statement": "A training step leaves the parameters of a network that computes the expected outputs as they are; training with a fixed learning rate settles. (False: abs has slope 1 at 0. What happens instead: the bias of a last layer without activation moves by the learning rate times the number of rows with outputs not below the expected ones less the number of the others; with an odd number of rows it never stops moving, by at least the learning rate in each step; with one row and tanh in the last layer, as in main.rs, every step moves every bias of the last layer. A network that ends with relu and gets only negative values there is never changed.)", "quantifier": "networks of every depth and size, all parameters, data, learning rates and numbers of steps, in real arithmetic", "why_tests_cant": "all parameters; limits over infinitely many steps", "anchors": ["src/tensor/functional/element_wise_ops.rs: abs_jvp, relu_jvp", "src/optim/sgd.rs: sgd_step", "src/main.rs: main"]}
{"id": "C92", "title": "Mirrored networks are trained alike", "statement": "Mirroring the outputs of any layers without activation or with tanh (negating what feeds them and what reads them, for the input its data, for the last layer the expected outputs) does not change the loss and commutes with any number of training steps; if the last layer is mirrored, provided that no output is exactly the expected one on the way.", "quantifier": "networks of every depth and size, all parameters, data, learning rates and numbers of steps, in real arithmetic", "why_tests_cant": "all networks and any number of steps", "anchors": ["src/tensor/functional/element_wise_ops.rs: tanh, tanh_jvp, abs_jvp", "src/tensor/functional/misc.rs: bmm_jvp", "src/nn: Linear, Mlp", "src/optim/sgd.rs: sgd_step"]}
{"id": "C93", "title": "Shifted outputs are trained alike", "statement": "Adding the same values to the bias of a last layer without activation and to the expected outputs of all rows does not change the loss and commutes with any number of training steps.", "quantifier": "networks of every depth and size whose last layer has no activation, all parameters, data, learning rates and numbers of steps, in real arithmetic", "why_tests_cant": "all networks and any number of steps", "anchors": ["src/tensor/functional/element_wise_ops.rs: abs_jvp, add_jvp", "src/nn: Linear, Mlp", "src/optim/sgd.rs: sgd_step"]}
{"id": "C94", "title": "Features that are 0 in all rows leave their weights alone", "statement": "If a feature of the input is 0 in all rows, training never changes the weights that read it. (False for first layers with more than 32 weights and more than one feature; true for all others, whatever the size of the other layers.)", "quantifier": "networks of every depth, all parameters, data, learning rates and numbers of steps, in real arithmetic; exact characterisation by the sizes", "why_tests_cant": "all sizes, data and parameters", "anchors": ["src/tensor/functional/misc.rs: bmm_jvp", "src/nn: Linear, Mlp", "src/optim/sgd.rs: sgd_step"]}
{"id": "C95", "title": "What a program computes does not depend on the other tensors there are", "statement": "Running the same operations on tensors that sit elsewhere in memory, in any order and among any number of unrelated tensors, has the same outcome: the same error or panic, or tensors with the same data, gradients and recorded histories, the histories naming the corresponding tensors. No unrelated tensor is changed.", "quantifier": "all sequences of public operations, all element types and values, all placements of the tensors among others", "why_tests_cant": "a test fixes the tensors around the program; independence is a statement about pairs of runs for all surroundings", "anchors": ["src/tensor/rc_tensor.rs: RcTensor, backward", "src/tensor/autograd/jvp.rs: compute_jvp", "src/tensor/raw_tensor.rs: RawTensor"]}
{"id": "C96", "title": "Two programs taking turns compute what each computes alone", "statement": "If two programs each use their own tensors only, then carrying out their operations alternately in any order gives each program the tensors it makes alone, with the same data, gradients and histories; taking turns fails only where one of them fails alone, with the same error or panic.", "quantifier": "all pairs of programs, all orders of their operations, all element types, any tensors that exist before", "why_tests_cant": "exponentially many orders of the operations of two programs", "anchors": ["src/tensor/rc_tensor.rs: RcTensor, backward", "src/tensor/autograd/jvp.rs: compute_jvp"]}
{"id": "C97", "title": "The history of the parameters does not change what is learned", "statement": "Replacing the parameters of a network in training by new tensors with the same data (deep_clone, or tensors of another program into which they were saved) does not change any loss or any parameter of the further training: whenever training goes on with the former it does with the latter, and leads to the same data. In particular the training loop with a deep_clone of every parameter after every step learns the same parameters as the loop of main.rs, and unlike there every step needs the same number of gradient updates.", "quantifier": "all element types without any law of arithmetic, all networks with the activations of the library, all shapes, all numbers of steps and learning rates, all programs in which input, expected output and parameters are different tensors that are not computed from each other and have no gradients", "why_tests_cant": "a statement about pairs of runs of any length; in one of them backward walks through all former steps", "anchors": ["src/tensor/tensor_like.rs: deep_clone", "src/tensor/rc_tensor.rs: RcTensor, backward", "src/tensor/autograd/jvp.rs: compute_jvp", "src/nn/feed_foward.rs: update_params", "src/main.rs: main"]}
{"id": "C98", "title": "Training that survives its first step never fails", "statement": "Whether a training step fails depends only on the shapes of input, expected output and parameters and on the activations, not on the data, the learning rate or other tensors. If it succeeds once, then training succeeds for any number of steps with any learning rates, of any new tensors with these shapes in any program, although the parameters get longer and longer histories; the shapes of the parameters stay. The training loop of main.rs fails exactly if its first step fails, and with the error of this step; and the loop with a deep_clone of the parameters after every step fails exactly if that one does.", "quantifier": "all element types without any law of arithmetic, all networks with the activations of the library, all shapes without zero-length dimensions, all numbers of steps and learning rates, all programs in which input, expected output and parameters are new tensors", "why_tests_cant": "a test runs finitely many steps on finitely many shapes and data; here one successful step implies that no later one can fail", "anchors": ["src/main.rs: main", "src/tensor/rc_tensor.rs: RcTensor, backward", "src/tensor/autograd/derivative.rs: Derivative::compute_jvp", "src/optim/sgd.rs: sgd_step", "src/nn/feed_foward.rs: update_params"]}
{"id": "C99", "title": "Exactly which shapes can be trained", "statement": "A training step, and the training loop of main.rs with any positive number of steps and any learning rates, succeeds if and only if the shapes fit together: the input of every layer is a matrix, or a tensor of rank at least 3 all of whose dimensions are 1, with as many columns as the weights have rows; the bias can be broadcast against the product; and the target can be broadcast against the output of the last layer. In particular dense networks of any depth and any widths can be trained on batches of any height, and no network with a layer can be trained on a batch of rank 3 or more that has a dimension other than 1, although bmm accepts such batches in the forward pass.", "quantifier": "all element types without any law of arithmetic, all data, all networks with the activations of the library, all shapes without zero-length dimensions, all numbers of steps and learning rates, all programs in which input, expected output and parameters are new tensors", "why_tests_cant": "a test tries finitely many networks and shapes; a criterion that is both necessary and sufficient covers all depths, widths and ranks", "anchors": ["src/main.rs: main", "src/nn/linear.rs: forward", "src/nn/feed_foward.rs: forward", "src/tensor/functional/misc.rs: bmm_raw, bmm_jvp", "src/tensor/rc_tensor.rs: RcTensor, backward", "src/optim/sgd.rs: sgd_step"]}
{"id": "C100", "title": "Exactly which sequences of batches can be trained", "statement": "Training on a sequence of batches, with an input, a target and a learning rate for every step, succeeds if and only if the shapes of every batch fit the network as in C99; so success does not depend on the order of the batches, on how often a batch comes, or on the learning rates. It leaves the data unchanged and the parameters with the same shapes. Batches may have different heights, a batch may be its own target, layers may share parameters, data and parameters may be the same tensors, and the tensors may have gradients from before.", "quantifier": "all element types without any law of arithmetic, all data, all networks with the activations of the library, all finite sequences of batches, all shapes without zero-length dimensions, all programs in which data and parameters are tensors without history", "why_tests_cant": "a test runs finitely many sequences; here sharing of tensors, leftover gradients and the growing histories of the parameters are all shown never to make a later step fail", "anchors": ["src/main.rs: main", "src/nn/linear.rs: forward", "src/nn/feed_foward.rs: forward", "src/tensor/functional/misc.rs: bmm_raw, bmm_jvp", "src/tensor/rc_tensor.rs: RcTensor, backward", "src/optim/sgd.rs: sgd_step"]}
{"id": "C101", "title": "Exactly which inputs a network accepts", "statement": "The forward pass of a network succeeds with an output of a given shape if and only if every layer can multiply what it is given with its weights (a matrix, a batch of matrices, or a tensor of higher rank whose dimensions but the last two are 1) and its bias can be broadcast against the product; the loss of main.rs is computed if and only if moreover the target can be broadcast against the output. A dense network accepts matrices and batches of matrices of any height. What can be trained is accepted; on a matrix, with biases of rank at most 2, a training step succeeds if and only if its loss can be computed; otherwise exactly the shapes that are accepted and not trainable fail after the loss has been computed.", "quantifier": "all element types without any law of arithmetic, all data, all networks with the activations of the library, all shapes without zero-length dimensions, inputs and parameters of any history", "why_tests_cant": "there are infinitely many combinations of ranks and dimensions, and the equivalence also says that every other combination fails", "anchors": ["src/nn/linear.rs: forward", "src/nn/feed_foward.rs: forward", "src/tensor/functional/misc.rs: bmm_raw", "src/tensor/raw_tensor.rs: add", "src/main.rs: main"]}
{"id": "C102", "title": "Tensor sizes do not grow during training, and 64-bit numbers suffice", "statement": "Every tensor that exists after training on any sequence of batches is a scalar, or has the shape of a tensor from before, or that of the input, of a parameter, of the product or the output of a layer, of the target, or of the difference of output and target for one of the batches; gradients keep the shapes of their tensors, except gradients of scalars. If all these shapes have fewer than 2^32 elements, training with 64-bit usize yields the same graph and the same parameters as with unbounded numbers, with overflow checks and without; with overflow checks it succeeds if and only if the shapes of every single batch fit the network as in C99. For a dense network and batches of rows the shapes are those of the inputs, the parameters and the outputs of the layers.", "quantifier": "all element types without any law of arithmetic, all networks with the activations of the library, all shapes without zero-length dimensions, any number and sizes of batches and learning rates, shared parameters and gradients from before allowed", "why_tests_cant": "tensors near 2^32 elements do not fit in memory of a test machine, and a test runs a bounded number of steps", "anchors": ["src/main.rs: main", "src/optim/sgd.rs: sgd_step", "src/nn/linear.rs: forward", "src/nn/feed_foward.rs: forward", "src/tensor/rc_tensor.rs: backward", "src/tensor/functional/misc.rs: bmm_raw"]}
{"id": "C103", "title": "Small changes of the start change the result of training little", "statement": "If the learning rate, the input, the expected output and the initial parameters of a training run are changed a little, then the parameters after any number of training steps change little. False at kinks (a network whose output is the expected one steps in the opposite direction after an arbitrarily small change). True, with a change of the result of at most a constant times the change of the start, for every run that meets no kink; for almost all learning rates and initial parameters it holds after every number of steps for changes of the learning rate and the parameters.", "quantifier": "all networks of any depth and width (also those with shuffled gradients), all data, all numbers of steps, all real learning rates, all small changes", "why_tests_cant": "it is about all sufficiently small changes of all numbers of the start at once", "anchors": ["src/main.rs: main", "src/optim/sgd.rs: sgd_step", "src/tensor/functional/element_wise_ops.rs: abs_jvp", "src/tensor/functional/misc.rs: bmm_jvp"]}
{"id": "C104", "title": "Tensors printed alike are equal", "statement": "`{}` of a tensor shows the elements that `get` reads, in row-major order, in brackets and separated by commas. It never fails and never changes, whatever is done later. If the texts of single elements are legible (as decimal integers are), tensors printed alike have the same elements. That tensors printed alike are equal is false, since the shape is not printed; it is true for tensors of the same shape.", "quantifier": "all tensors of all shapes, all element types and element texts, all later histories of operations", "why_tests_cant": "it compares the texts of all pairs of tensors and excludes any later operation that changes a text", "anchors": ["src/tensor/rc_tensor.rs: Display for RcTensor"]}
{"id": "C105", "title": "The functions that nothing calls agree with those in use", "statement": "`functional::add` of two tensors is `+`. Of tensors or views of the same shape it is `+` of what `to_tensor` makes of them, so the gradient of a tensor that is only read through a view is lost: `backward` changes no tensor that existed before. `tanh_derivative` without the full Jacobian is the diagonal of the full one, which is zero elsewhere, and the gradient that `tanh` passes on is the incoming one times that diagonal, element by element.", "quantifier": "all graphs, all tensors and views of the same shape with positive dimensions, all element types (a commutative ring for the last part)", "why_tests_cant": "nothing calls these functions, and the claims are about all graphs and shapes", "anchors": ["src/tensor/functional/element_wise_ops.rs: add", "src/tensor/functional/element_wise_ops.rs: tanh_derivative"]}
{"id": "C106", "title": "Only the side on which an output misses matters for training", "statement": "A training step depends on the expected outputs only through which outputs of the network are below them: if two runs have the same parameters and input, and their expected outputs are on the same side of each output, then they have the same parameters after the step, however far away the expected outputs are; and after any number of steps, if this stays so. Another expected output in one place, however far away, changes each parameter by at most twice the learning rate times the derivative of that output that the program computes.", "quantifier": "all networks with tanh, relu or identity activations, all sizes, all numbers of rows, all real parameters, inputs and expected outputs, all learning rates, all numbers of steps; exact real arithmetic", "why_tests_cant": "it compares all pairs of expected outputs without a bound on their distance", "anchors": ["src/main.rs: main", "src/tensor/functional/element_wise_ops.rs: abs_jvp"]}
{"id": "C107", "title": "The order of the input features does not matter for training", "statement": "If the features of the inputs of two runs, and the weights that read them, only differ by their order, then so do the parameters after any number of steps, and the losses agree. As stated false for training (true for the loss): gradients of large weight matrices are put into wrong places. Training does not depend on the order exactly if the first layer has at most 32 weights, or reads one feature, or reads two features with at most 32 units or a multiple of 32 units.", "quantifier": "all networks with tanh, relu or identity activations, all sizes, numbers of rows, real data, parameters and learning rates, all numbers of steps, all orders of the features; exact real arithmetic", "why_tests_cant": "it compares training for all pairs of orders, and the exact condition quantifies over all sizes", "anchors": ["src/tensor/functional/misc.rs: bmm_jvp", "src/nn: Linear, Mlp", "src/optim/sgd.rs: sgd_step"]}
{"id": "C108", "title": "Rounding errors of whole programs, gradients and training are proportional to the precision", "statement": "For every program over exact real numbers there are constants C and \u03b4 such that the same program with any arithmetic whose operations have errors of at most t \u2264 \u03b4, from inputs with errors of at most B t, has the same outcome and, unless something overflows, the same graph, and all data and gradients are at most C t away from the exact ones. As stated false: where an element under relu or abs is exactly 0, an arbitrarily small error changes a gradient by a fixed amount. It holds for all programs in which exact arithmetic meets no such element, and for any number of steps of training of networks with relu, tanh and identity.", "quantifier": "all programs of public operations (without mapping user functions over elements), all sizes, all real inputs, all networks and numbers of steps, and all arithmetics with bounded rounding errors, among them all binary formats with rounding to nearest", "why_tests_cant": "it bounds the errors for all arithmetics and all close inputs at once; a test sees one format and one input", "anchors": ["src/tensor/functional/element_wise_ops.rs: relu, tanh, abs", "src/tensor/autograd/jvp.rs", "src/tensor/rc_tensor.rs: backward", "src/main.rs: main"]}
{"id": "C109", "title": "An operation depends on and changes only what its operands lead to", "statement": "What an operation does, including whether and how it fails, depends only on its operands and the tensors they lead to through gradients and histories. It changes only those, and creates tensors. In particular tensors that have been freed are never looked at, and two parts of a program that share no tensors cannot influence each other.", "quantifier": "all states, all operations, all programs, all contents of the tensors that the operands do not lead to", "why_tests_cant": "it compares each run with the runs from all other contents of the rest of the memory", "anchors": ["src/tensor/rc_tensor.rs", "src/tensor/autograd/jvp.rs"]}
{"id": "C110", "title": "Training moves parameters by bounded amounts", "statement": "A training step moves a bias of a layer by at most the learning rate times the number of rows, times the largest row sums of absolute weights of the layers after it, and a weight by as much with the absolute inputs of its layer added up instead of the number of rows; however far the outputs are from the expected ones, whatever the depth, also where the computed gradients are not the derivatives. So a single layer, or a last layer after tanh, moves at most linearly with the number of steps, and all parameters of a network with tanh in all layers but the last one grow at most polynomially: like t^(2^d) with d layers after it. The bound is attained.", "quantifier": "all networks with tanh, relu or identity activations, all sizes and depths, all real data, parameters and learning rates, any number of steps; exact real arithmetic", "why_tests_cant": "it bounds all steps of all runs for all data, including outliers that no test contains", "anchors": ["src/optim/sgd.rs: sgd_step", "src/tensor/functional/misc.rs: bmm_jvp", "src/tensor/functional/element_wise_ops.rs: abs, relu, tanh", "src/main.rs: main"]}
{"id": "C111", "title": "Repeating the rows of a batch is a larger learning rate", "statement": "Training on a batch that has all rows of another one r times gives the same parameters, after any number of steps, as training on this one with r times the learning rate. False as stated: the gradients of hidden layers are read at shuffled positions if a hidden output has more than 32 elements. It holds if the outputs of all layers but the last have at most 32 elements; for one layer there is no condition.", "quantifier": "all networks with tanh, relu or identity activations, all numbers of rows and repetitions, all real data, parameters and learning rates, any number of steps; exact real arithmetic", "why_tests_cant": "it compares two trainings for all data, sizes and numbers of steps; the trainings that differ need batches of more than 32 elements", "anchors": ["src/main.rs: main", "src/optim/sgd.rs: sgd_step", "src/tensor/functional/misc.rs: bmm_jvp", "src/tensor/rc_tensor.rs: backward"]}
{"id": "C112", "title": "The unit of the outputs does not matter", "statement": "If the expected outputs, the parameters and the learning rate are multiplied by a positive number, the parameters after any number of training steps are multiplied by it. False as stated. It holds, for given sizes, exactly for a single layer with relu or without activation.", "quantifier": "all networks with tanh, relu or identity activations, all sizes and depths, all real data, parameters, learning rates and factors, any number of steps; exact real arithmetic", "why_tests_cant": "it compares two trainings for all data, factors and numbers of steps; and that it fails for each other network needs data for each of them", "anchors": ["src/main.rs: main", "src/nn/feed_foward.rs: forward", "src/optim/sgd.rs: sgd_step", "src/tensor/functional/element_wise_ops.rs: abs, relu, tanh"]}
{"id": "C113", "title": "A feature that is the same in all rows acts like a bias", "statement": "If an input feature has the same value c in all rows of the batch, training, for any number of steps, changes each of its weights by c times what it changes the bias of the same unit. False as stated: the gradient of the weights is put at shuffled positions if there are more than 32. It holds for the weights at the shuffled positions, and exactly for those features whose weights the shuffle leaves where they are, for example if the first layer has at most 32 weights.", "quantifier": "all networks with tanh, relu or identity activations, all sizes, all real data, parameters and learning rates, any number of steps; exact real arithmetic", "why_tests_cant": "it is a relation between parameters for all data, sizes and numbers of steps; it fails only with more than 32 weights, and even then not for all features", "anchors": ["src/main.rs: main", "src/optim/sgd.rs: sgd_step", "src/tensor/functional/misc.rs: bmm_jvp", "src/nn/linear.rs: Linear::forward"]}
{"id": "C114", "title": "Linear relations between features carry over to their weights", "statement": "If the features of all rows of the batch satisfy a relation sum_r u_r * feature_r = c, then after any number of training steps the changes of the weights of each unit of the first layer satisfy sum_r u_r * change_r = c * (change of its bias). So if two features are equal, the difference of their weights never changes. False as stated: the gradient of the weights is put at shuffled positions if there are more than 32. It holds for the weights at the shuffled positions, and as stated exactly for first layers with at most 32 weights.", "quantifier": "all networks with tanh, relu or identity activations, all sizes, all relations, all real data, parameters and learning rates, any number of steps; exact real arithmetic", "why_tests_cant": "it is a conservation law for all data, sizes and numbers of steps; it fails only with more than 32 weights", "anchors": ["src/main.rs: main", "src/optim/sgd.rs: sgd_step", "src/tensor/functional/misc.rs: bmm_jvp", "src/nn/linear.rs: Linear::forward"]}
{"id": "C115", "title": "The output biases stay on a grid", "statement": "After N training steps on m rows each bias of the last layer is its start value plus a whole multiple, at most N * m, of the learning rate. False as stated for a last layer with tanh; it holds exactly for last layers with relu or without activation. Without activation the multiple has the parity of N * m, and in a single step it is the number of rows for which this output is too low minus the number of all other rows.", "quantifier": "all networks, all sizes, all real data, parameters and learning rates, any number of steps; exact real arithmetic", "why_tests_cant": "it restricts the parameters after any number of steps for all data and sizes; rounding hides it in f64", "anchors": ["src/main.rs: main", "src/optim/sgd.rs: sgd_step", "src/tensor/functional/element_wise_ops.rs: abs", "src/nn/linear.rs: Linear::forward"]}
{"id": "C116", "title": "Weights move in the span of their inputs", "statement": "After any number of training steps the weights of the first layer have changed by a linear combination of the rows of the batch, and the biases by the sum of its coefficients. In a single step the same holds for every layer with its inputs. False as stated: the gradient of the weights is put at shuffled positions if there are more than 32. It holds for the weights at the shuffled positions, and as stated exactly for first layers with at most 32 weights.", "quantifier": "all networks with tanh, relu or identity activations, all sizes, all real data, parameters and learning rates, any number of steps; exact real arithmetic", "why_tests_cant": "it restricts the parameters after any number of steps for all data and sizes; it fails only with more than 32 weights", "anchors": ["src/main.rs: main", "src/optim/sgd.rs: sgd_step", "src/tensor/functional/misc.rs: bmm_jvp", "src/nn/linear.rs: Linear::forward"]}
{"id": "C117", "title": "The outputs of a single layer are trained independently", "statement": "Training a network of one layer changes the weights and the bias of each output as training a layer that has only this output, with the expected values of this output. False as stated: the gradient of the weights is put at shuffled positions if there are more than 32, so the units exchange their gradients. It holds exactly for layers with at most 32 weights or with one unit. The bias after one step is that of the output alone for all sizes.", "quantifier": "all single layers with tanh, relu or identity activations, all sizes, all real data, parameters and learning rates, any number of steps; exact real arithmetic", "why_tests_cant": "it compares two training runs for all data and sizes; it fails only with more than 32 weights", "anchors": ["src/main.rs: main", "src/optim/sgd.rs: sgd_step", "src/tensor/functional/misc.rs: bmm_jvp", "src/nn/linear.rs: Linear::forward"]}
{"id": "C118", "title": "A network of zeros learns nothing but its output biases", "statement": "Training a network with at least one hidden layer whose weights and biases are all 0, except for the output biases, leaves them 0, whatever the data, the learning rate and the number of steps. The output biases change as if there were no input, and the trained network gives the same outputs for all inputs. Without hidden layer this is not so.", "quantifier": "all networks with tanh, relu or identity activations and at least one hidden layer, all sizes, all real data, output biases and learning rates, any number of steps; exact real arithmetic", "why_tests_cant": "it is about all data, sizes and numbers of steps; a test sees some runs", "anchors": ["src/main.rs: main", "src/optim/sgd.rs: sgd_step", "src/tensor/functional/misc.rs: bmm_jvp", "src/nn/linear.rs: Linear::forward", "src/nn/feed_foward.rs: forward"]}
{"id": "C119", "title": "Expected outputs that tanh never reaches", "statement": "If the outputs of a network are tanh and the expected values of an output are at least 1 in all rows, as in main, then every training step raises the bias of this output, N steps by at most N * lr * rows, and the loss never becomes 0; the same downwards for expected values of at most -1. In main each of the 8 output biases rises in both steps, together by at most 0.02, whatever is drawn.", "quantifier": "all networks with tanh outputs, all sizes, all real inputs, parameters and positive learning rates, all expected values out of reach, any number of steps; exact real arithmetic", "why_tests_cant": "it is about all data, sizes and numbers of steps; main draws one set of numbers and prints none of them", "anchors": ["src/main.rs: main", "src/optim/sgd.rs: sgd_step", "src/tensor/functional/element_wise_ops.rs: tanh, tanh_derivative"]}
{"id": "C120", "title": "A network without activations computes what a single layer computes", "statement": "For every network of layers without activation there are weights and a bias such that a single layer without activation gives the same outputs for all inputs. With a relu in between this is not so.", "quantifier": "all depths and sizes, all real parameters and inputs; exact real arithmetic", "why_tests_cant": "it is about all inputs of all networks, and says that one layer exists for all inputs", "anchors": ["src/nn/linear.rs: Linear::forward", "src/nn/feed_foward.rs: forward"]}
{"id": "C121", "title": "Relu networks without biases are homogeneous", "statement": "If the biases of a network are 0 and its activations are relu or none, then multiplying the inputs by a number s >= 0 multiplies the outputs by s. For negative numbers it is false.", "quantifier": "all depths and sizes, all real weights and inputs, all s >= 0; exact real arithmetic", "why_tests_cant": "it compares two runs for all inputs, weights and factors", "anchors": ["src/nn/linear.rs: Linear::forward", "src/nn/feed_foward.rs: forward", "src/tensor/functional/element_wise_ops.rs: relu"]}
{"id": "C122", "title": "The order of the outputs does not matter for training", "statement": "If the expected outputs of two training runs, and the weights and biases of the last layer, only differ by the order of the outputs, then so do the parameters after any number of steps. False as stated: the gradient of the weights is put at shuffled positions if there are more than 32. It holds exactly if the last layer has at most 32 weights or the number of outputs divides 32, as in main. The loss is the same for all sizes.", "quantifier": "all networks with tanh, relu or identity activations, all sizes, all real data, parameters and learning rates, all orders, any number of steps; exact real arithmetic", "why_tests_cant": "it compares two training runs for all data, sizes and orders; it fails only with more than 32 weights and numbers of outputs that do not divide 32", "anchors": ["src/main.rs: main", "src/optim/sgd.rs: sgd_step", "src/tensor/functional/misc.rs: bmm_jvp", "src/nn/linear.rs: Linear::forward"]}
{"id": "C123", "title": "The unit of the inputs", "statement": "If the inputs of two training runs differ by a factor s, and the weights of the first layer by its inverse, then this also holds after any number of steps. False as stated, for every size of the network: it holds exactly for the factors 1 and -1. Instead, multiplying the inputs by s acts like multiplying the learning rate of the weights of the first layer by the square of s, for all sizes and any number of steps.", "quantifier": "all networks with tanh, relu or identity activations, all sizes, all real data, parameters, learning rates and factors other than 0, any number of steps; exact real arithmetic", "why_tests_cant": "it compares two training runs for all data, sizes and factors", "anchors": ["src/main.rs: main", "src/optim/sgd.rs: sgd_step", "src/tensor/functional/misc.rs: bmm_jvp", "src/nn/linear.rs: Linear::forward"]}
{"id": "C124", "title": "A hidden unit that nothing reads", "statement": "If all weights of the next layer that read a hidden unit are 0, the outputs do not depend on what feeds this unit, for all sizes; and a training step does not change the weights and the bias that feed it. The second part is false as stated: it holds if the number of units of the layer divides 32, or if the weights of the layer and its values for all rows are at most 32 each; with one hidden layer and one output it holds exactly for these sizes.", "quantifier": "all networks with tanh, relu or identity activations with a hidden layer at any depth, all real data, parameters and learning rates; exact real arithmetic", "why_tests_cant": "it is for all data, parameters, learning rates and depths; the failing sizes need a layer of more than 32 weights whose width does not divide 32", "anchors": ["src/main.rs: main", "src/nn/linear.rs: Linear::forward", "src/tensor/functional/misc.rs: bmm_jvp", "src/optim/sgd.rs: sgd_step"]}
{"id": "C125", "title": "Networks without negative weights are monotone", "statement": "If no weight is negative, then a row of inputs that is at least as large in all entries gives outputs that are at least as large in all entries, in the same or another batch, whatever the biases. For a single layer without relu, this holds exactly if no weight is negative.", "quantifier": "all networks with tanh, relu or identity activations, all sizes, all real inputs, biases and non-negative weights; exact real arithmetic", "why_tests_cant": "it compares all pairs of inputs for all sizes and parameters", "anchors": ["src/nn/linear.rs: Linear::forward", "src/nn/feed_foward.rs: forward"]}
{"id": "C126", "title": "Outputs change at most in proportion to the inputs", "statement": "If the absolute values of the weights that feed a unit add up to at most L, for each unit of the network, then rows of inputs, in the same or another batch, that differ by at most e give outputs that differ by at most e times L to the power of the number of layers.", "quantifier": "all networks with tanh, relu or identity activations, all sizes, all real inputs and parameters; exact real arithmetic", "why_tests_cant": "it compares all pairs of inputs for all sizes and parameters", "anchors": ["src/nn/linear.rs: Linear::forward", "src/nn/feed_foward.rs: forward"]}
{"id": "C127", "title": "The values that outputs can have", "statement": "The outputs of a network are values of the activation of its last layer: between -1 and 1 without these two for tanh, not negative for relu. Each row of such values is the output of some network of the same sizes, for all inputs.", "quantifier": "all networks with tanh, relu or identity activations, all sizes, all real inputs and parameters; all rows of values; exact real arithmetic", "why_tests_cant": "it is for all inputs, parameters and sizes, and for each of infinitely many rows of values a network is given", "anchors": ["src/nn/linear.rs: Linear::forward", "src/nn/feed_foward.rs: forward"]}
{"id": "C128", "title": "The smallest loss", "statement": "The loss of a network is at least the sum of the distances of the expected outputs from the values of the activation of its last layer (for tanh the amount by which the absolute value exceeds 1, for relu the amount below 0), whatever the parameters and inputs. If the expected outputs are the same in all rows, then for networks of all sizes there are parameters that come as close to this bound as one likes; some parameters reach it exactly if the outputs are not tanh or all expected outputs are between -1 and 1.", "quantifier": "all networks with tanh, relu or identity activations, all sizes, all real data and parameters; exact real arithmetic", "why_tests_cant": "it bounds the loss for all parameters, and says that no larger bound holds", "anchors": ["src/main.rs: main", "src/nn/linear.rs: Linear::forward", "src/nn/feed_foward.rs: forward"]}
{"id": "C129", "title": "A layer that passes on its inputs", "statement": "Putting a further layer into a network, with weights 1 on the diagonal, all other weights and all biases 0, does not change the outputs, if the layer has no activation, or relu and comes after a layer with relu.", "quantifier": "all networks with tanh, relu or identity activations, all sizes, all places, all real inputs and parameters; exact real arithmetic", "why_tests_cant": "it compares networks of different depths for all inputs, parameters and sizes", "anchors": ["src/nn/linear.rs: Linear::forward", "src/nn/feed_foward.rs: forward"]}
