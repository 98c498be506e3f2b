# Formal model of rust_light in Lean 4

## Layout

| path | content |
| --- | --- |
| `lean/Verif/Model/*.lean` | executable model, function by function, each definition cites `/repo` file and lines |
| `lean/Verif/Spec.lean` | small specification vocabulary (row-major position, index enumeration, broadcasting) written without reference to the model |
| `lean/Verif/SpecRound.lean`, `lean/Verif/SpecValue.lean` | rounding model and error bounds (C63-C65); results of operations in terms of data (C66) |
| `lean/Verif/SpecMemory.lean` | which tensors are in memory, and which the program can get at (C67-C70) |
| `lean/Verif/SpecLocal.lean` | what the operands of an operation lead to (C109) |
| `lean/Verif/SpecParam.lean` | two runs of the same program on different elements, integer elements (C72-C74) |
| `lean/Verif/SpecBound.lean` | how large the weights of a network are (C110) |
| `lean/Verif/SpecInts.lean` | integer elements that go into `relu` (C73) |
| `lean/Verif/SpecConverge.lean` | distance of parameters, bound of gradients (C77) |
| `lean/Verif/SpecGeneric.lean` | parameters as a point of a finite dimensional space (C78) |
| `lean/Verif/SpecNanRanks.lean` | factors of which a matrix product reads only a part (C79) |
| `lean/Verif/SpecNan.lean` | elements that operations pass on, as NaNs (C79) |
| `lean/Verif/SpecUnits.lean` | order of the units of a layer (C82), what feeds and what reads a unit (C89) |
| `lean/Verif/SpecWindow.lean` | windows into a tensor (C14_exact, C17_exact) |
| `lean/Verif/SpecPlace.lean` | the same program at other places, two programs taking turns (C95, C96) |
| `lean/Verif/SpecDetach.lean` | tensors that are not computed from each other, training with a `deep_clone` of the parameters after each step (C97) |
| `lean/Verif/SpecSteady.lean` | tensors of the same shapes, training with a learning rate for every step (C98) |
| `lean/Verif/SpecMultiply.lean` | shapes that `bmm` multiplies (C20), inputs that a network accepts (C101) |
| `lean/Verif/SpecTrainable.lean` | shapes of a batch, of the layers and of the target that fit together (C99), training on a sequence of batches (C100) |
| `lean/Verif/SpecWork.lean` | shapes of the tensors that training makes, training on a sequence of batches with 64-bit numbers (C102) |
| `lean/Verif/SpecStable.lean` | starts of training that differ little (C103) |
| `lean/Verif/SpecText.lean` | printed lists, legible texts (C104) |
| `lean/Verif/SpecPrecision.lean` | arithmetic with errors of bounded size, runs that compare no element 0 (C108) |
| `lean/Verif/SpecShapes.lean` | operations that make a tensor whose data do not fit its shape, exactly (C09) |
| `lean/Verif/SpecGradShapes.lean` | operations that give a tensor a gradient of another shape, exactly (C38) |
| `lean/Verif/SpecMirror.lean` | mirrored and shifted networks (C92, C93) |
| `lean/Verif/SpecKink.lean` | losses for all values of an element, or of all elements, of a tensor (C76) |
| `lean/Verif/SpecMachine.lean` | shapes whose number of elements is a `usize` (C71), graphs and programs in which all do (C85) |
| `lean/Verif/SpecMain.lean` | activations by name for every element type, shapes of the tensors of `main`, which random numbers become the parameters (C86) |
| `lean/Verif/SpecDebug.lean` | paths of references from one tensor to another (C87) |
| `lean/Verif/SpecGraph.lean`, `lean/Verif/SpecNn.lean` | specification vocabulary for computation graphs (ancestors, paths, accumulated gradients) and for layers, networks and SGD steps |
| `lean/Verif/SpecGrad.lean` | what a recorded computation computes for other real inputs, and which losses have derivatives |
| `lean/Verif/SpecTrain.lean` | networks as real functions of their parameters, gradient descent |
| `lean/Verif/SpecPool.lean` | what a call of `bmm_jvp` may return when it runs alone |
| `lean/Verif/Lemmas/*.lean` | helper lemmas |
| `lean/Verif/RepoTests.lean` | the repository's own unit and doc tests replayed on the model (tests, not proofs) |
| `lean/Verif/Axioms.lean` | prints the axioms of every claimed theorem during the build |
| `lean/Verif/Props/*.lean` | the property theorems, one section per property, with examples showing that hypotheses are satisfiable |
| `MANIFEST.json`, `properties.jsonl`, `seeded/LOG.jsonl` | claims, properties, mutation log |

## Modelling decisions

* **Panics and `Err`** A Rust computation is `R α := Except Fail α`. `Fail.err e` is a Rust `Result::Err` (only `get`,
  `get_with_offset`, `global_index`, `tensor_index`, `set` return one), `Fail.panic p` is a panic with its cause. `unwrap` turns
  `err` into a panic. Message strings are dropped. `Model/Panic.lean` models operations once more with the heap that they leave behind
  when they panic (C75). Locks are not poisoned: nothing can panic while `grad` is locked for writing.
* **`usize`** is `Nat`. Products of dimensions are assumed not to exceed `usize::MAX`; `Model/Machine.lean` models `new`,
  `new_with_filler`, reads, views, `reshape` and `increment_index` once more with 64 bit arithmetic, with and without overflow checks,
  and C71 says when the two models agree. `Model/MachineOps.lean` does so for whole programs, with the `debug_assert`s, and C84 says
  that the models agree unless the debug profile ends with an overflow or a failed `debug_assert`. C85 says that this does not happen to a
  program that succeeds with unbounded numbers and whose tensors all fit, so that what is proved about `Nat` holds for `usize` there. The only subtraction that can underflow on
  reachable inputs, `dim - 1` in `increment_index`, is modelled as in the debug profile (overflow check on): it panics at `dim = 0`.
* **Integer elements** (`Model/Ints.lean`) are one more instance of the law-free element type: two's complement numbers for the release
  profile, integers with `none` for the panic of the debug profile. The debug profile is simplified: a panic ends the program, whereas
  the model computes on with `none`, which arithmetic keeps; C73 is about elements that are not `none`.
* **Element types** By C72 success, failures, shapes and graphs are the same for all element types, so what is proved about them over
  `ℝ` (C29, C50) or any other type holds for `f32` and `f64`.
* **Element type** is an arbitrary type `T` with `Zero/One/Add/Mul/Sub/Neg/LT/LE` operations *without laws*. Theorems that need
  laws say so (`AddCommMonoid`, `CommRing`, ...), so law-free theorems also hold for `f32`/`f64`. Gradient-is-derivative theorems
  are about `ℝ`. `Real::tanh/abs/powi` are operations of a class `RealFn`, instantiated at `ℝ` by Mathlib's functions.
* **Loops** over `IndexIterator`/`loop { ..; if !increment_index {break} }` are fuelled loops; fuel exhaustion is the distinguished
  panic `diverge`, and theorems show it never happens.
* **`TensorLike`** (generic trait) is an inductive `TL` with the two kinds of data-level implementations: tensors
  (`RawTensor` and `RcTensor` behave alike here) and `TensorView`.
* **Autograd graph**: an `Arc<RawTensor>` is a node id in a heap (list of nodes); a node has data, shape, gradient, and `grad_fn`
  = (input ids, kind). The Rust function pointer `jacobian_vector_product` is defunctionalised into `JvpKind`. A gradient is
  itself a node id, so sharing of gradient tensors and the history they get through `other_grad + &grad` are modelled. Nodes
  are never freed in this model.
* **Memory**: `Model/Memory.lean` runs the same operations with the strong count of every `Arc`; programs also clone, drop and read
  gradients. C67 shows that the results are those of the graph model, so everything else is proved without counts.
* **Concurrency**: `bmm_raw` and `bmm_jvp` have small-step machines with explicit schedules; the functional model used by the
  graph layer is one particular schedule, and theorems show every schedule yields the same result (for `bmm_jvp` this needs laws of addition: C33, C58).
  `update_grad`'s two lock sections are a third small machine.

### Assumptions about rayon and crossbeam (C19, C20, C33, C34, C62)

* `crossbeam::channel::unbounded`: `send` never blocks, messages of a channel arrive in order, `recv` (here: iteration over the
  receiver) blocks while the channel is empty and some sender exists, and ends when it is empty and no sender exists.
* rayon 1.x pool: `scope.spawn` from a thread outside of the pool appends to a FIFO injector queue; from a worker it pushes on the
  worker's own deque. A worker takes the newest job of its own deque, the oldest of another deque, or the oldest injected one; the
  machine allows any of these choices. A job runs on one worker until it ends; a job blocked in `recv` blocks its worker. The thread
  that called the scope runs other jobs while it waits only if it is a worker.
* A panicking job ends, drops its senders, and the panic is reported when the scope ends.
* Several scopes share the queues and workers of the pool (C62). A worker that waits for its scope runs jobs of any scope and looks at its
  own scope only between two jobs. Threads in the pool have different workers; what they do between two calls ends.
* One send, or one receive together with the addition into the segment, is one step. Segments are disjoint `&mut` slices, so finer
  interleavings of these are not observable.

### Assumptions about floating point (C63-C65)

* `Spec.Rounding` (`SpecRound.lean`) is the standard model: a sum has a relative error of at most `u`, a product a relative error of at
  most `u` and an absolute one of at most `eta` (underflow), `0 + x` and `-x` are exact; all of this only if the result is finite, and a
  result is finite only if the operands are.
* `Lemmas/Binary.lean` defines binary formats (precision, smallest exponent, largest number, ties to even, gradual underflow, overflow)
  over `ℝ` and proves that they satisfy this model; `binary64` and `binary32` are instances. Simplified: one value stands for all
  infinities and NaNs, one zero for both zeros. That the hardware implements IEEE 754 is assumed.
* Lean's own `Float` is opaque to the kernel and is not used.

### Assumptions about `Arc` and `Drop` (C67-C70)

* `Arc::clone` adds one to the strong count, a drop subtracts one; at zero the content is dropped at once, fields in the order of their
  declaration, by a nested call. There are no weak references and no own `Drop`.
* A tensor owns what is in `grad` and in the inputs of `grad_fn`. A view owns one reference to its tensor (a clone in the model).
* An operation owns its new tensors until it returns, and keeps the last one. References that a function takes and drops again before
  it returns do not free anything (the caller owns the operand) and are left out; so are tensors inside of the `jvp` functions, of which
  nothing is stored. The unit of memory is the tensor.
* Depth of drop counts nested drops of tensors; the bytes of a stack frame are not modelled.

### Assumptions about `RwLock` (C42)

* `read()` succeeds while no writer holds the lock, `write()` waits until no reader and no other writer holds it. Locks of different
  tensors are independent.
* The guard of `self.grad.read().unwrap()` in the scrutinee of `update_grad`'s `match` lives to the end of the `let` statement
  (temporary lifetime rules of Rust 2021), so it covers the addition and is released before `write()`.
* Storing the new gradient and releasing the write lock are one step: nobody can observe the state in between.
* The history of gradient tensors is left out of this machine, only their values are kept.

## Properties of the code that turned out false

Each has a `C.._statement`, a refutation `C.._false` by a concrete witness, and theorems about what does hold.

| id | what fails |
| --- | --- |
| C09 | `scalar * view` (also as method) makes a tensor whose array does not fit its shape; `RawTensor::default()` has shape `[]` and no element |
| C14, C17 | scalar multiples and dot products of views that do not cover their tensor |
| C20 | acceptance of batches of rank 4 and more by `bmm` |
| C24, C25 | slices and reshapes of views that do not start at 0 / are not contiguous |
| C29 | the gradient of a loss through `bmm` of matrices with more than 32 elements is not the derivative (see C32) |
| C31 | `sum` ignores the upstream gradient |
| C32 | `bmm_jvp` permutes the gradient of operands with more than 32 elements (`rchunks` segments numbered from the front) |
| C34 | `bmm_jvp` called on the only worker of a pool waits forever |
| C38 | `update_grad` takes gradients of any shape; `sum` pre-seeds its result with a gradient of the operand's shape |
| C39 | `backward` panics on one-element results of `bmm` and `abs`, and on `sum(dot)` |
| C41 | `dot` inside of a larger loss panics; so does `dot` of computed tensors that are no rows |
| C42 | `update_grad` releases the lock between reading and writing: concurrent updates are lost |
| C48 | parameters made by `sgd_step` keep the previous ones as recorded inputs |
| C50, C54 | a training step of a layer with more than 32 weights is not gradient descent and may increase the loss (see C32) |
| C51, C52 | views narrowed to one element are not broadcast; empty views of a length-1 dimension are read as its element |
| C58 | with two workers the order of additions in `bmm_jvp` depends on the schedule; exactly when: `C58_exact` |
| C59 | `sum a - sum b` gives `b` the gradient +1: the gradient function of `sum` ignores the gradient that comes from above |
| C60 | every training step adds three updates per parameter to the work of all later ones, and one level of recursion (consequence of C48) |
| C61 | `sgd_step` makes one new tensor per place: after a step shared parameters are separate, and differ after the second |
| C62 | calls of `bmm_jvp` on all workers of a pool at the same time may block each other forever |
| C67 | a tensor that is its own gradient (`t.update_grad(t)`), or another cycle, is never freed |
| C68 | parameters keep the tensors of all previous steps in memory (consequence of C48) |
| C69 | a long history is dropped by as many nested calls |
| C70 | a gradient keeps all contributions to it and all intermediate sums in memory |
| C71 | without overflow checks `new` accepts `[]` for `[2^32, 2^32]`; with them it rejects `[]` for `[2^63, 4, 0]` |
| C73 | `relu` of an overflown `i8` sum is 0 |
| C75 | `backward` of `sum x + dot a b` panics after it has updated the gradient of `x` |
| C76 | `relu x - relu (-x)` is `x`, but for `x = 0` its gradient is 2 |
| C77 | the loss of a layer with 33 weights is `1 + 3 lr t` after `t` steps; exactly the layers with more than 32 weights: `C77_exact` |
| C78 | learning rate 1/2, one input, hidden `relu`, two outputs: an open set of starts gets to hidden value 0 in two steps |
| C79 | the `bmm` of a `[1, 1, 2, 1]` tensor with a NaN in the second row has no NaN |
| C80 | 33 rows through two layers of width 1: exchanging two rows changes the sign of the first step |
| C81 | 33 rows through two layers of width 1: the step on the batch increases a weight that the steps on the rows decrease |
| C82 | 11 inputs, 3 units: the first step changes the weight of one unit as if it belonged to another one; three equal units become different (exactly which sizes: `C82_exact`) |
| C83 | 11 inputs, 3 units with `relu`: the weight of a unit that does not react is changed |
| C84 | `new` of an empty array with shape `[2^32, 2^32]`; `backward` of `dot` of tensors of rank 3 out of `relu`: a `debug_assert` fails in debug only |
| C87 | `{:?}` of `x + x` prints `x` twice; that of a tensor that is its own gradient does not end |
| C88 | `iter_indices` of shape `[0]` returns `[0]`; then it panics (debug) or goes on (release) |
| C89 | 11 inputs, 3 units with `relu`: the weight of a unit that nothing reads is changed; exactly which layers: `C89_exact` |
| C91 | a network that computes the expected outputs is moved away by the next training step (slope 1 of `abs` at 0); with an odd number of rows training never settles |
| C94 | weights of a feature that is 0 in all rows are changed if the first layer has more than 32 weights and more than one feature (see C32) |
| C103 | an arbitrarily small change of a bias turns the direction of a step of size 1 if the output is the expected one |
| C104 | `[1, 2]` of shape `[2]` and of shape `[1, 2]` are printed alike |
| C107 | 3 features, 11 units: renaming two features changes which weights are trained |
| C108 | `relu` of 0, summed: with the input `-t` the gradient is 0 instead of 1 |
| C111 | three rows, each 11 times, through two layers of width 1: the step with 33 rows increases the first weight, the step with 3 rows decreases it |
| C112 | two layers of width 1 without activation, everything doubled |
| C113 | 3 features, of which the first is 1, and 11 units: the step puts the gradients of the weights of the first feature one position further |
| C114 | 3 features, of which the first is 1, and 11 units |
| C115 | one tanh layer of width 1 with a large bias that gives exactly the expected output |
| C116 | 3 features, of which the first is 1, and 11 units |
| C117 | 3 features, 11 units |
| C122 | 11 features, 3 outputs |
| C123 | one feature, one unit, twice the input |
| C124 | 11 features, 3 units; the gradient of a read unit is put at a weight of an unread one |

## Trusted base

Lean 4.33 kernel; axioms `propext`, `Classical.choice`, `Quot.sound` only (checked with `#print axioms`, see `Verif/Axioms.lean`).
The reading of the Rust code and of std/itertools/rayon/crossbeam semantics recorded in the comments.

Not modelled: `usize` overflow in properties other than C71, C84, C85 (which says when it cannot happen) and C86, memory exhaustion, the text of `Debug` output (which tensors `{:?}` prints: C87; `{}` of a tensor: C104) and of single elements, the random
number generator (`Model/Main.lean` takes any stream of values) and `main.rs`' printing,
performance. Floating point: law-free theorems hold for `f32`/`f64` as they are; theorems
over `ℝ` (gradients, descent) are about exact arithmetic; C63-C65 are about rounding (above). Also not
modelled: the methods that are `todo!()` and so always panic (`dot` of `RcTensor` and `TensorView`, `update_grad` and
`zero_grad` of `TensorView`). A `RawTensor` result of a history-free function enters the graph only by `to_tensor`, so the model
applies `to_tensor` at once (`rawBinT`, `rawSubT`, `rawUnaryT`, `rawSumT`).

## Plan per property

| id | model | proof |
| --- | --- | --- |
| C01-C04 | `globalIndex`, `Raw.get` | loop of `globalIndex` = right-aligned fold; compare with spec `rowMajor` by induction on the shape |
| C05 | `incrementIndex`, `IndexIter` | odometer step = successor in `allIndices`, induction on shape |
| C06 | `tensorIndex` | induction on shape, div/mod |
| C07, C08 | `Raw.new`, `newWithFiller`, `fromVec` | direct; nested: induction on depth |
| C09 | op histories on the heap | invariant; refutation for scalar * view |
| C10-C12 | `genericBinopRaw` | loop over all indices writes each cell once; algebra pointwise |
| C13-C17 | `elementWiseMul`, scalar mult, `genericUnaryOp`, `sum`, `dotRaw` | iteration = `allIndices` = storage order |
| C18-C20 | `bmmRaw` + task machine | slots disjoint; invariant over steps |
| C21-C25 | `TensorView` | `globalIndex` with offset; refutations by witness for C24, C25 |
| C26-C28 | `eq`, `deepClone`, zero dims | direct |
| C29 | heap, `computeJvp` over `ℝ` | per-op adjoint identity + induction over the topological order, `HasDerivAt` |
| C30-C32 | `*_jvp` | loop invariants; C31 and C32 refuted by witnesses, exact characterisation and partial proved; C32_exact: for which sizes it holds |
| C33, C34 | channel machine, pool machine | invariant: remaining + queued + written = contributions; decreasing measure; progress |
| C35-C39 | `backward` | induction on node id (topological order invariant); C39_exact: the same induction with an equivalence at each node |
| C40, C41 | op constructors, `dotJvp` | direct |
| C42 | lock-section machine | refutation by schedule; atomic version proved; exactly: a run with and a run without a lost update differ by one contribution, a tensor with one updating thread is safe |
| C43 | `computeJvp` instrumented by path counting | induction |
| C44-C47 | `Linear`, `Mlp`, `sgdStep` | compose C10, C18, C14 |
| C48 | `sgdStep` iterated | refuted: exact growth of the history chain |
| C49 | all heap operations | frame lemma per operation, induction over histories |
| C50 | `trainStep`, `train` (loop of `main`); C29 + C45 + C47 | composition; derivatives of networks by recursion over the layers |
| C54 | C50; directional derivative of the loss | linear in the direction; slope argument; exactly for which networks: `C54_exact` (a weight of a large layer gets the gradient of another one), `C54_net_exact` (64 rows of two kinds: the computed gradient is the negative one) |
| C55 | `Mlp.forward` twice | value of a row by C45 is a function of that row |
| C56, C57 | `bmmRaw`, `addRaw`, `mulRaw`, `TL.sum` over semirings | entries as finite sums |
| C58 | pool machine | two executed schedules with a saturating addition; phases of the only worker; exactly: a second worker can hold back any one task (`C58_late`) |
| C59 | as C29, with `sum` inside of the graph | two parts of the result (constant sums; what the sums add), induction over the topological order |
| C60 | paths in the graph as the unit of work (C43) | recurrences for the number of paths per operation; framed through histories; induction over the steps |
| C61 | `sgdStep` | direct; witness for the refutation |
| C62 | pool machine with tagged jobs, several threads (`Model/PoolMany.lean`) | the invariant of C34 for the jobs of each thread; lexicographic measure; progress through the worker without a thread |
| C63, C65 | `Spec.Rounding`, C16-C18, C45, C47 | error of a fold by induction; composition with the value theorems; Lipschitz argument per layer |
| C64 | channel and pool machines | each cell is a fold of its terms in some order (`C33_cells`), the bound is the same for every order |
| C66 | `Op.run` | both sides in the same monadic normal form |
| C67 | `Mem`, `release`, `MemOp` | invariant: count = references of the program + of live tensors; measure for the recursion: sum of all counts; simulation with the graph model; leaks: a live tensor without owner in use lies on a cycle (finite descent) |
| C68, C70 | C67 and the graph of C48 / of `update_grad` | sets of ancestors that grow with every step |
| C71 | bounds of partial products by the product of the dimensions that are not zero | induction over the loops |
| C72-C74 | `Op.run`, `trainStep` on two element types | a relation between elements is kept by every model function (`Lemmas/Param*.lean`); residues modulo `2 ^ w`, exact or panicked, equal to a real integer |
| C75 | `computeJvpS`, `Op.runS` | what has been done is a list of gradient updates, by induction over the recursion; updates are operations |
| C76 | C29, C59 | zeros with a derivative other than zero are isolated, so countable on every line; continuity of all elements and Fubini for almost all elements of a tensor |
| C77 | C50 (`C50_actual`, valid at kinks) | the derivative along the operations is a subgradient of the convex loss; subgradient method: the distance to other parameters decreases by the excess of the loss; exactly: four rows on which the shuffled gradient changes nothing but a weight that does not matter |
| C78 | C50 (`C50_actual`) | values into `relu` and outputs have slope 1 in their bias, so kinks have measure zero; the steps are continuously differentiable elsewhere, with derivative `1 - lr H`, invertible for all but finitely many `lr`, so preimages of null sets are null sets |
| C79 | C10, C15, C16, C17, C18, C20, C48 | every operation on non-empty tensors of up to three dimensions uses every element of its operands; induction along the history; in training all tensors stay of this form |
| C80, C81 | C50, C55 | the derivative of an output by the parameters only depends on its own row while no hidden output is shuffled; so the derivative of the loss is a sum over the rows; exactly which sizes (C80_exact): those for which the shuffle of a gradient with one row per example renames the rows in the same way in each column |
| C82 | C50 | values and derivatives of a network commute with renaming units (reindexing a sum); then every step does; equal units: exchange them |
| C83 | C50 | the slope of `relu` is 0 at the unit in every row, so the derivatives by its weights are 0; the sum stays negative |
| C84 | model of all operations per profile | each step in the debug profile is an overflow, a failed `debug_assert`, or the step of the other model; induction along the program |
| C85 | the same | a successful step of the unbounded model whose result fits is the step of the debug model: running indices stay below the number of elements; gradients arriving at a node fit because the recursion succeeds |
| C86 | `mainRs` (`Model/Main.lean`), `mainRsU` (`Model/MachineTrain.lean`) | over `ℝ` the drawn tensors are ready for training (C50), and failure does not depend on the elements (C72); shapes are followed through each step; C84 and C85 step by step for `forward`, `sgd_step`, `backward` |
| C87 | `debugFmt` (`Model/Debug.lean`) | the output is the list of paths in lexicographic order (induction over the stack); a path without a cycle visits each tensor at most once |
| C88 | `IndexIter.calls`, `elemCalls` (`Model/Iter.lean`) | without overflow checks a zero is a dimension of size 2^64; with them the odometer stops at the last zero; positions in the list of all indices |
| C89 | C50, C54 | `f.slope z * z = f.fn z` for `relu` and the identity, so the derivative of the output is 0 in the direction that scales what feeds the unit by 1 and what reads it by -1 |
| C90 | C50, C54 | data and parameters for which only unit 0 of each layer is not 0, so that a derivative goes through one path; the last matrix with more than 32 elements, as position 0 of it is shuffled to another one |
| C91 | training loop, last layer | derivative of the loss in the direction of a bias of the last layer, for all sizes; refuted as stated, exact change of the bias, no limit for odd numbers of rows |
| C92 | training loop | induction on layers: the derivative in the mirrored direction is mirrored, also with shuffled factors; the proviso for the last layer is needed (C92_kink) |
| C93 | training loop, last layer | the derivative of the loss does not depend on the shift |
| C94 | training loop, first layer | derivative in the direction of a weight; for the other sizes a network with positive weights, where every contribution reaches the loss |
| C95 | heap, every operation, backward | simulation under a renaming of the tensors that stays fixed while new tensors are made; the bound on the recursion of `compute_jvp` does not matter (C35) |
| C96 | heap, every operation, backward | C95 for the program whose turn it is; the other one only waits, since its tensors are not at the places of the first |
| C97 | training loop, `deep_clone`, `update_params` | simulation between a heap where the parameters have a history and one where they have none: a partial bijection of the tensors outside of the histories; inside of them `compute_jvp` changes only gradients of tensors that are not used any more |
| C98 | training loop | invariant of the trained tensors: same shapes as at the start, all that they were computed from is well-formed, has gradients of its shape and no products; with it the exact criterion of C39 moves from the first step to all others |
| C99 | training loop | shapes of all intermediate tensors from the operations; the exact criterion of C39 for the loss reduced to the inputs of the layers; all parameters feed the loss and so get gradients of their shape; C98 for more steps |
| C100 | training loop | the step of C99 for tensors with histories of elementwise operations and with gradients that fit; a step keeps this for the data and gives it to the new parameters; induction on the sequence |
| C101 | forward pass, loss | C20_exact for the product, C09 for the bias; a computation that adds tensors to the heap and yields exactly the shapes of a predicate; composition; induction on the layers |
| C102 | training on batches, machine integers | shapes of C101 carried through loss, backward, optimizer and zero_grad; GraphFits of C85 follows; debug and release profiles composed |
| C103 | training loop | a change of the start is a point of a normed space on which a step is a map; continuously differentiable where nothing going into relu is 0 and no output is the expected one; iterates; Lipschitz bound; C78 for almost all starts; counterexample; exactly: at the first output that is the expected one, a small change of that expected output turns the step of the last bias |
| C104 | `Display` | the list printer of the standard library as a loop with a flag; texts without commas can be split uniquely; C49 for later operations; decimal integers from core lemmas; counterexample with two shapes |
| C105 | unused functions | `functional::add` as copies followed by `+`, C36 for the lost gradient; the diagonal from the loop lemmas of C53 |
| C106 | C50 | the computed gradient contains the expected outputs only in the signs of the misses; induction over the steps; a difference in one place leaves one term of the double sum |
| C107 | C50 | shuffling commutes with renaming rows exactly for the sizes in the condition; derivative in renamed directions; for other sizes a weight is changed in one order only |
| C108 | C63-C65 | run the program on pairs of a number and an error bound; the bounds of the finite graph give C, and δ is small enough that no compared element can be on the other side of 0 |
| C109 | C67, C72 | two heaps that agree on a set of tensors that is closed under gradients and inputs and contains everything new: every function keeps this, with the same outcome |
| C110 | C50 | the absolute derivatives add up to at most the product of row sums; shuffled positions keep the sum; C50_step_actual |
| C111 | C50, C80 | with small hidden outputs the gradient is the sum of the gradients of the rows (`lossTangent_rows`); the sum over repeated rows is r times the sum; counterexample with 33 rows; exactly (`C111_exact`): the shuffle of r copies is the shuffle of each copy only if they fit into one segment or the size of one divides 32 or is a multiple of it, and otherwise one row, seen through the last such layer, gives a slope that is not r times the other |
| C112 | C50 | one step commutes with the multiplication; for each other network parameters are given for which the slopes of a bias differ (`C112_exact`) |
| C113 | C50, C94 | a unit change of the weight at the shuffled position has the same effect on the first layer as c times a unit change of the bias; counterexample for a moved weight: an input that is 0 elsewhere, and weights that let the difference through (`through_ne`) |
| C114 | C50, C113 | the derivative that the program computes is linear (`lossTangent_sum`), and the weighted change of all weights at the shuffled positions acts like c times a change of the bias; a constant feature is such a relation, so C113 gives the counterexamples |
| C115 | C50, C91 | the derivative for a bias of the last layer is a sum of signs times slopes of the activation (`loss_last_bias`), and those of relu and identity are 0 or 1; for tanh a large bias has a slope below 1 / m |
| C116 | C50, C114 | the derivatives for the weights and the biases of a layer are made of the same numbers, one for each row and unit (`lossTangent_span`); C116 implies C114, which gives the counterexamples |
| C117 | C50 | the derivatives of the loss of a single layer in closed form (`single_weight`, `single_bias`); the shuffle sends the first weight of a larger layer to another row or unit (`alone_not`) |
| C118 | C45, C50 | hidden values are 0, so the last weights get no gradient, and the weights are 0, so nothing before them does (`blank_tangent`) |
| C119 | C50, C115 | the side on which an output misses does not change, so the step of the bias is a sum of slopes of tanh, which are in (0, 1] (`bias_up`) |
| C120 | C45 | the composition of affine functions is affine (`collapse`) |
| C121 | C45 | layer by layer (`value_scale`) |
| C122 | C50, C82 | whole rows are shuffled if the number of outputs divides 32 (`shuffle_row`); otherwise the first weight goes to another column (`C122_exact`) |
| C123 | C50, C112 | the derivatives for the weights of the first layer are multiplied by the factor, the others stay (`lossTangent_units`); some gradient is not 0 (`first_ne`) |
| C124 | C45, C50, C82 | the value and the derivatives of the unit are multiplied by the weights that read it (`value_unread`, `lossTangent_unread`); columns stay columns (`shuffle_column`) |
| C125 | C45 | the activations are monotone (`fn_mono`), induction over the layers (`value_mono`) |
| C126 | C45 | the activations are 1-Lipschitz (`fn_lipschitz`), induction over the layers (`value_lipschitz`) |
| C127 | C45 | the last layer applies its activation (`value_last`); the inverse of the activation gives the biases (`canReach_fn`) |
| C128 | C54, C127 | entry by entry (`floor_le`, `floor_near`) |
| C129 | C45 | the parameters after the place move by one layer (`layerFns_shift`, `value_passOn`) |
| C69 | `release` with depths | a chain stays on the worklist with its depth; a family of programs for the refutation |
