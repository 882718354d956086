# Formal model of NeuralDeepWorks/deepworks in Lean 4

The code under `/repo` is read as text; nothing is built or run. Everything below is
about the Lean development in `lean/Verif`.

## 1. Trusted base

* **Lean 4.33.0's kernel**, plus the three standard axioms `propext`,
  `Classical.choice`, `Quot.sound`. No axiom is declared here, there is no `sorry`,
  `admit`, `native_decide` or `bv_decide`. Every theorem depends on a subset of the
  three axioms above (the gate prints the set).
* **Mathlib** definitions used in statements (ℝ, `Finset.sum`, `HasDerivAt`,
  `HasFDerivAt`, `List.Perm`, ...).
* **The reading of the C++**: each definition cites the file and lines it models. The
  correspondence is by inspection.

### Modelling decisions that are trusted

| Topic | Decision |
|---|---|
| Floating point | Except in C98–C100, C102–C110, C113–C127, `float` arithmetic is modelled by an ordered field / ℝ (exact), without rounding, NaN, infinities and overflow. These model `float` (`Model/Floats`): signed magnitudes that may be infinite, NaN, a rounding of each operation and any order of summation, for the kernels of softmax, cross entropy, `Linear`, convolution, pooling, `Add`, `BatchNorm1D` and `BatchNorm2D`, the activations and dropout, all optimizers, the metrics and the positions that max pooling remembers. Trusted there: that the machine rounds like `Rounding` says (IEEE 754 binary32, default mode, no flushing of subnormal numbers) and that `exp`, `log` and `sqrt` satisfy `Libm`, `ExpFull` and `Sqrt`. In serialization a float is an opaque 4-byte pattern, so round-trip results are bit exact. |
| `int` / `size_t` | Mathematical integers. Where 32-bit overflow decides a result (element counts of tensors) the model makes it an explicit `ub` outcome. The `int` operations of the layers are modelled with overflow in `Model/IntArith` (C101), which says for which shapes they agree with mathematical integers. Elsewhere (ids, counters of loaders) overflow is assumed absent. |
| Undefined behaviour | A distinct outcome `ub` of the result type, never assumed away: out-of-range indexing, null dereference, access to freed memory, division by zero, overlapping `copy_n`, signed overflow of element counts. |
| Exceptions | A distinct outcome `throw`; state changes made before the throw persist (state-passing monad keeps the state on `throw`). |
| Hash maps | `unordered_map` is a list of entries with distinct keys; iteration order is an arbitrary permutation, quantified over. |
| ade topological sort | External library: *any* list that is a topological order of the built graph, quantified over. An executable one exists for non-vacuity. |
| Eigen | `Eigen::Map` expressions are modelled by their documented element-wise / matrix meaning on row-major buffers. |
| Random generator | Any sequence of values inside the distribution's documented range. |
| OpenMP | Iterations are sequences of atomic reads/writes on a shared memory; any interleaving is allowed. |
| Byte order | Little-endian, `int` 4 bytes, `size_t` 8 bytes, `float` 4 bytes (x86-64), as the code assumes by dumping raw memory. |
| Memory exhaustion | Only in loaders, where a size from the file may be huge: `resize` throws above a parameter `lim < 2^63`. Elsewhere not modelled. Writing a file never fails. |
| libpng / libjpeg | Not modelled; a decoder is a parameter giving height, width, channels and rows. |

### Not modelled
CMake files, the Python plotting helpers, GoogleTest code, `HAVE_*` build switches,
timing, memory exhaustion, `std::shared_ptr` reference counting other than the
"old block is released by allocate" effect, allocator failure, and locale handling.
Samples are modelled only where listed in section 3 (their networks, training and validation loops and
datasets); printing (but for the tables of the benchmarks and the progress of the samples) and timers are not.

## 2. Layout

* `Verif/Base/*` – outcome monad, list and arithmetic helpers.
* `Verif/Model/*` – the model: definitions only, each with `/repo` line references.
* `Verif/Spec/*` – small independent specifications used by property statements.
* `Verif/Lemmas/*` – helper lemmas.
* `Verif/Props/*` – the property theorems, one group per file, each followed by
  `example`s that instantiate the hypotheses on concrete non-trivial data, and by
  refutation theorems (`..._refuted`) where the code breaks the property.

A property that the code violates is kept in full view: the file states the full
property as a `def ... : Prop`, proves its negation from a concrete witness, and proves
the largest true part under the suffix `_partial`.

## 3. Per-property plan

| Id | What is modelled | How it is proved |
|---|---|---|
| C01 | `calculateStrides`, `init`, `allocate` on a heap of shared descriptors and blocks | strides = products of tails by induction on the shape; bijection by mixed-radix induction |
| C02 | same | case analysis of `init` (assert before any write) |
| C03 | `copyTo` element loop on blocks | loop invariant, frame lemma |
| C04 | `reshape` | case analysis; refutation with `{-2,-3}` on 6 elements |
| C05 | all tensor operations as a state machine | heap invariant preserved by every operation, induction on histories |
| C06 | blocks and pointers | freshness part of the invariant; view lemmas |
| C07 | `initializers.cpp` with generator outputs as parameter | loop invariant |
| C08 | `outShape` with truncating division | equals a count of window positions (spec by filter/card); refutation for kernel exceeding the padded input by less than the stride |
| C09 | `BaseOp::operator()` with `init` before `outShape` | decision table; refutation: `in_shape[1]` on rank 1 |
| C10 | `make_layer` table | round trip per layer kind |
| C11–C13 | expression tables, `unroll`, `build`, `initNodeId`, `createConfig` | DFS loop invariant with a well-founded measure; reachability spec; wiring under duplicate-free traversal; refutation `Add(x,f(x))` |
| C14–C17 | names, `checkNamesAreUnique`, `m_params`, `m_state` | list/multiset reasoning, decimal numeral injectivity |
| C18 | parameter flags | fold lemma |
| C19–C23, C69 | CPU backend loop over layers, memory map, `bind` | induction along the topological order; reverse accumulation invariant; chain rule in Mathlib |
| C24–C29 | linear, activations, softmax kernels | finite sums, Mathlib derivatives |
| C30–C35 | `im2col`, `col2im` pointer loops, convolution, max pooling | loop invariants on the moving pointer; adjointness by sum exchange; refutation for positive fill value |
| C36–C41 | pooling, batch norm, dropout | sums; derivative of the normalisation; refutations for BN2D buffers and dropout scaling |
| C42–C43 | Add, OpenMP loops | sums; interleaving semantics with disjoint footprints, over any element type and arithmetic (so also `float`) |
| C44 | layout conversions | index bijection |
| C45–C49 | loss, metrics | sums, argmax spec |
| C50–C53 | optimizers | pointwise equations, induction on steps |
| C54–C60 | byte streams, state/config readers and writers | parser/printer round trip by induction; total characterisation of truncated files; refutations |
| C61–C64 | data loader state machine | induction on pulls; refutations for shuffle epochs and batch size 0 |
| C65–C67 | path splitting, row copies into the tensor heap with the decoder as a parameter, shape printing | string induction; refutations `fclose(NULL)`, packed PNG rows |
| C56 | `Model` constructor, `save`, `load` and `make_layer` composed: layers are found by number, tensors by name | the rebuilt graph is the image of the saved one under a renaming of placeholders; the loader copies the saved state into it; refutations by execution |
| C68 | `createConfig` order | ids are increasing by construction, so kept iff given increasing; refutation `{out, hidden}` |
| C70 | node handles of unused inputs | every such construction is `ub null` (refutes the property) |
| C71 | generated names written into shared layer infos | frame theorem when all layers are named; refutation by an executed history |
| C72 | `fopen(path.data())` on a view into an array | exact file name; refutation by a view of a prefix |
| C74 | batch norm in evaluation mode | refutation with one sample; parameter gradients proved |
| C73 | decoder failures (`exit` of libjpeg, `longjmp` of libpng) | case analysis; refutations |
| C75 | `BaseOp::operator()` on the expression tables | case analysis with the invariant that an applied layer has its documented tensors; refutation `Linear` on a vector |
| C76 | histories of API calls from any state (`Later`) | what is recorded is only ever extended: induction on the history |
| C77 | histories with changes of the layers' tensors (`History.change`), `trained` | every layer's invariant splits into what depends on its tensors and what does not (`Sane`); the former is re-established from the tensors the layer shows |
| C78 | `Model/Training`: the samples' loop body as one program over the caller's tensors, the compiled model and the optimizer | reverse-mode theorem with a general loss of the output (`Lemmas/Chain`), derivative of the cross-entropy, and a correspondence of `params()` with the layers' tensors that makes `SGD::step` a change of the layers' parameters |
| C79 | `Geo.validate`, `windowOut`, layer objects over histories of calls | settings of the layer objects are invariant under every call; refutation: stride 0 |
| C80 | as C78, followed by a second `forward` and `CrossEntropyLoss::forward` | layers are affine in their parameters, hence differentiable in parameters and arguments together (`Lemmas/Joint`); reverse accumulation gives the derivative along a simultaneous change of all parameters (`Lemmas/Total`), along the step it is minus the sum of squares of the gradient |
| C81 | as C78, in a loop (`trainLoop`), with each optimizer and its state created from `model.params()` | the three optimizers are instances of one elementwise rule (`Lemmas/OptModel`); `OptState` says which entry of the optimizer's tables belongs to which parameter of which layer; induction on the rounds with `History` and `OptState` as the invariant |
| C82 | C56's rebuilt model together with the compiled model of C19–C21 and C77; the bytes of the file are read as numbers by `numbers` | the isomorphism of the rebuilt expressions (`Rebuilt`) carries `Built`: wiring, shapes, and for each layer the tensors named in `state()`, hence the function; then the values of both networks agree by induction along the wiring |
| C83 | nothing new: the compiled model of C19 and C77 | every function of `Computes` in evaluation mode maps sample `i` by itself (one lemma per layer); induction along the wiring; a model with `BatchNorm1D` shows that training mode is different |
| C84 | `pull` on the tensors of a program with a model (`pullInto`, shown to agree with the heap model of the data loader), and the validation loop of the samples (`validationLoop`) | C83 gives one prediction per sample, whatever its batch; induction on the rounds, the sum of the accuracies being the number of hits so far divided by the batch size |
| C85 | the main loop of the samples (`epochs`): both loaders, the model, the optimizer and the four tensors in one state (`Session`) | one round of any optimizer (`rule_round`, from C81); the function a layer computes in training is determined by its operation (`unique`), so `train(true)` brings back the network there was before the validation (`train_again`); induction on rounds and epochs; `Descends`: the gradients are constructed along the way, so that no assumption about kinks is needed |
| C86 | nothing new: the compiled model and the main loop of C85 | what the layers leave in their buffers is part of the layer contract (`Form`), carried through `forward` of any graph (`forward_averages`); every other call is shown to keep the buffers (`Keeps`); induction on rounds and epochs; the specification is the recursion `movingAverage`, with its closed form proved |
| C87 | the Iris dataset: `SplitLineByComma`, `getline`, the label map, the constructor and `pull` (`Verif/Model/Samples.lean`); a file is its characters, `atof` a parameter | the constructor on the text of a table is the loop over its rows (`irisDataset_table`), induction on rows; `pull` equals that of the abstract dataset of C61-C62; unknown species, short rows and missing files refute the full property |
| C88 | `normalize`, `HWC2CHW` and `pull` of the MNIST and CIFAR datasets on the heap, with the member `m_image` | loop invariants on cells (`chwLoop_spec`, `mapLoop_spec`, `copyRows_at`); same heap as the abstract dataset's `pull`, for CIFAR up to the memory of `m_image`, whose separation is an invariant (`Scratch`); pictures with the same number of bytes but another geometry refute the full property |
| C89 | the constructors of the three image datasets on what `directory_iterator` lists, `std::stoi`, the static label maps and counter | induction on the listing; an invariant of the static state over any sequence of constructions (`Reaches`, `DirsOk`); prefixes of names, unknown classes and the listing order refute the full property |
| C90 | `CPUBatchNorm1D::forward`, `CPUBatchNorm2D::forward` with separate trainable flags of gamma and beta | symbolic execution up to the check of the flags |
| C91 | `buildMNISTModel`, `buildIrisModel`, `buildCIFAR10Model`, `buildResnetModel` as programs over the expression API (`Model/SampleModels.lean`), batch size a variable | each program is evaluated symbolically to a table of steps (`IsNet`); a decidable check of the table (`Checked`, 52 steps at most) gives shapes for every batch size, well-formedness and single writers of gradients by induction over the steps; `Built` follows |
| C92 | the formulas of the four networks (`Spec/SampleForward.lean`), independent of expressions, layers and backend | `forward_evaluates_partial` gives the values of all placeholders; the step lemmas `v_*` turn each into its formula on rows or images, composed block by block |
| C93 | `Softmax` as an output of any model | `forward_evaluates_partial` and the formula of softmax |
| C94 | the test mode of the samples: `load`, `train(false)` and the validation loop | C82 gives the same forward pass, hence the same predictions (`predicts_same`), C83 the reported numbers |
| C95 | the sample networks with `save` and `load` | a decidable check of each table (names, attributes, tensor shapes) gives `Restorable` for every batch size |
| C96 | the training programs of the samples: network, loaders, optimizer, epochs | `Trains` for every network table that passes the check, from C81/C85, also through kinks (`Descends`); the descent is constructed by recursion over the rounds |
| C97 | training mode, `save`, `load` and test mode in a row | `Saves` (bytes of the tensors of the layer objects) gives `StateHolds` for the tensors in evaluation mode, which the validation of the last epoch used; then C82/C94/C95 |
| C98 | `float` with rounding, infinities and NaN; softmax kernel with any order of summation | induction over the summation: each term is a lower bound of the sum, their number an upper bound; monotone rounding |
| C99 | loss, its gradient, softmax gradient, `Linear` gradients and SGD step in `float`; one iteration of training | NaN and infinities followed through any summation by induction; bounds by exactly representable numbers; counterexamples for every rounding and for binary32 |
| C100 | sums of products in any order, with or without fused operations | induction with relative and absolute error, number of operations at most 3n − 1 and depth at most 2n |
| C101 | every `int` operation of the layers, one by one, with overflow as `ub` (`Model/IntArith`) | bounds on the pointer walks of `im2col`; both directions of the condition; refutation with 128×64×224×224 |
| C102 | the two backward passes of the loss in `float`, as in C99 | relative error of each operation; a sum of products with one term that is not zero is exact up to one rounding in every order |
| C103 | softmax in `float`, as in C98, with the accuracy of `exp` as a parameter | relative error of a sum of positive numbers in any order; t e^(-t) ≤ 1/e bounds the effect of rounding the differences |
| C104 | one iteration of training (`Iteration` of C99) in `float`, with the accuracy of `exp` and `log` as parameters; the exact loss and its derivatives in ℝ | softmax is Lipschitz in the logits, which C100 bounds; relative error of the probabilities; sums in any order for the gradients; the error of one SGD update |
| C105 | the two metrics in `float` (`Model/FloatCount`): the counter, the comparison with the label and the division | the counter is exact up to 2^24 hits; in binary32 it is `min hits 2^24`, by rounding 2^24 + 1 to even; full statement refuted |
| C106 | the layer of C35 with the remembered positions rounded to `float` (`stored`) | positions below 2^24 are exact, so C35's theorem applies; refuted with one window of 4096 × 4097 elements |
| C107 | `Model/FloatAct`: one element of each activation in `float`, `exp` with relative error ε | error of each operation, composed; overflow of `exp` in Sigmoid treated as a case of its own |
| C108 | the same, with NaN as input | case analysis; refuted for ReLU |
| C109 | `Model/FloatOptim`: one element of `SGDMomentum::step`, products fused or not | induction over the steps: the error of the velocity is a fixed point of the contraction `gamma` |
| C110 | one element of `Adam::step`; the bias corrections are parameters | induction over the steps: the averages stay in an interval; refuted with one large gradient, after which the variance is infinite in all later states |
| C111 | the training loop of `Props/Loop` on `Softmax(Linear(x))` | the logits are linear in the parameters, the loss is convex and its gradient is bounded by the loss (`Lemmas/Logistic`); the gradient of `Model::backward` is that gradient; telescoping over the rounds |
| C112 | as C111, with a sequence of batches | induction over the rounds with the squared distance to `s` |
| C113 | one element of `Adam::step` | errors of the operations composed; perturbation of the square root near zero |
| C114 | chains of layers in float, `CPUBackend::forward` | induction over the chain, a bound for sizes and errors per layer; Lipschitz constants of the activations |
| C115 | convolution, pooling, `BatchNorm2D` and branches in float | induction over the network; a convolution is a `Linear` layer on the windows, which are the contents of the buffer of `im2col` |
| C116 | `CPUBatchNorm1DForward` in training mode in float, one column | errors of mean and mean square; the root of a mean square is 1-Lipschitz; no centred element exceeds `sqrt(B)` deviations |
| C117 | same | refuted by a column of three equal numbers in binary32; exact for one row, error bound otherwise |
| C118 | the update of the running statistics in float | an invariant error bound for moving averages |
| C119 | the backward pass of a chain of layers in float | the exact backward pass is the derivative, by induction on the layers; error bounds forwards, then backwards |
| C120 | an iteration of the training loop in float, with softmax and cross entropy at the end | C119 with the error bounds of softmax and cross entropy for inexact logits; SGD parameter by parameter |
| C121 | the backward pass of networks on images with branches in float; the numbers added to an element of a gradient are a multiset, summed in any order | the exact formulas are the derivative along every curve, by induction on the network (elements that do not move may tie); `col2im` is the adjoint of `im2col`; error bounds for multisets |
| C122 | an iteration of training of an image classifier in float (`Model/FloatImageStep`): forward, loss, backward, `SGD::step`; `Linear` layers may read images | the derivative of the exact loss along every line from that of the outputs (C121), error bounds of the gradient at the outputs (C120), induction on the network for the step |
| C123 | the kernels of the gradients of batch normalization in float (`Model/FloatBatchNormBack`), for each column; every `auto` expression may be evaluated with another order of summation at each use; `2.0 / batch_size` is a `double` rounded to `float` | the gradient as a function of the centred column and the deviation: how much it changes with the errors of those that `forward` stored (C116), by the Cauchy–Schwarz inequality; then the rounding errors of the kernel step by step; the exact gradient is that of C39 |
| C124 | iterations of training as in C122 with `SGDMomentum` or `Adam` (`Model/FloatImageOptim`): the optimizer keeps a number or two for each element of the parameters | the errors of one update for a gradient with an error, with the change of the square root and of the quotient in Adam; for all elements by induction on the network; for all iterations by an invariant on what the optimizer keeps (C109, C110) |
| C125 | runs of the iterations of C104, each with any orders of summation; the loss to compare with is over the reals | gradient descent with an error in each parameter, on the convex loss of C111 (`Lemmas/LogisticNoise`): the distance to the parameters compared with is an invariant, which in turn gives the conditions of C104 for the next iteration; on one batch the loss rises by at most the gradient times the errors |
| C126 | the sums and averages of the loops of the samples (`Model/FloatMean`): additions in the order of the loop, an `int` converted to `float` as the divisor | an instance of the means in any order of C116; for accuracies an invariant: after `t` batches the sum is at most `t`, which is a `float`; C105 for each batch, C125 for the loss; the count of right rows is the whole number nearest to the printed one times the number of rows |
| C127 | the validation loop with the forward pass of a network in it (`Model/FloatValidate`, on `Model/FloatImage` and `Model/FloatMean`) | the probabilities are near the exact ones (C115), so a margin of twice the error decides what `maxCoeff` chooses; the counts of C126 are compared with those of the exact network |
| C128 | `operator<<` for shapes (`Model/Bench`), decimal digits by `Nat.digits` | a number ends at the first character that is no digit, so texts can be cut in one way; induction over the shape |
| C129 | headers and tables of the benchmarks (`Model/Bench`): characters per stream, `size_t` differences modulo 2^64, conversions between `int` and `size_t` | lengths of texts; numbers of digits from bounds of the values; witnesses for the wrong cases |
| C130 | `get_procent_diff` (`Model/Bench`) with infinities and NaN, the operations of type `double` exact | cases by the order of the two numbers; digits by division with remainder |
| C131 | the loop over the epochs of a benchmark (`Model/Bench`), given what each epoch measures: durations as integers, `size_t` sums modulo 2^64 | induction over the epochs; division with remainder |
| C132 | `DeepWorksException` (`Model/Exception`): blocks shared by copies, buffers of messages; use of what is gone is undefined | invariant (no buffer belongs to two blocks) over all histories |
| C133 | the first lines of `main` of the samples and `atoi` (`Model/Progress`); a missing argument is undefined | value of decimal digits; cases by the arguments |
| C134 | the loop over the batches of an epoch (`Model/Progress`): at which iterations a line is printed, `int` overflow and division by 0 undefined | induction over the batches; divisibility and gcd |
| C135 | what `ReadPngFile` and `ReadJpegFile` acquire and release on each way through the code (`Model/ImageRes`); to release what does not exist is undefined | counts of what exists; induction over rows and calls |
| C136 | the first lines of `main` of the benchmarks and the head of the loop over the epochs, with the conversions between `int` and `size_t` (`Model/BenchArgs`) | induction over the iterations; the loop is deterministic |
| C137 | `PrintDatasetInfo` and `PrintEpochInformation` (`Model/BenchInfo`), the texts of `float`s given | cutting the text at line breaks; lengths of padded texts |

## 4. How running a model is specified (C19-C23, C69)

The statements of these properties use the following specifications, from the bottom up.

* `Spec/Layers`, `Spec/Conv`, `Spec/Norm`, `Spec/LayerFn`: what each layer computes, as a
  function of parameters and arguments over ℝ, written with sums, means and maxima, not
  with loops.
* `Spec/LayerSpec` (`Computes`): which of these functions a layer of the model computes,
  given its attributes, the shapes and its tensors. The flag `ex` says whether its
  `backward` computes the derivative of that function (it does not for dropout and for
  batch normalisation in evaluation mode, which have their own
  refutations).
* `Spec/Network`: a network of such functions, its values (`Evaluates`), accumulated
  gradients (`Accumulates`) and the loss whose derivative is meant (`Varies`, `loss`).
* `Spec/Fits`: conditions on shapes and tensors under which all layers work. They are
  conditions on the user's program only; `built_exists` shows that they suffice for
  everything the theorems about running assume of a model (`Built`).
* `Spec/History`: every sequence of `compile`, `forward`, `backward`, changes of
  parameters, of trainable flags and of buffers, and use of the caller's own tensors. `session` shows that in every model
  every situation the theorems speak of is reached.

The link between `Model/Layers` etc. and these functions is `Contract` (what one layer
object does to the store, for all stores); `Props/Contracts*` prove it for every layer,
and the lemmas `Backend*`, `History` and `Passes` lift it to models by induction along
the order in which the layers run.

`BatchNorm2D` replaces the gradient of its input instead of adding to it.
`backward_general` describes this for every model (`kept`: what no later layer
replaces); C21 and C23 follow when nobody else uses that input, and fail otherwise.

## 5. Differentiability

`IsGradient`, `BackpropN` use Mathlib's `HasFDerivAt`. Layers with kinks (ReLU, LeakyReLU,
ELU with alpha different from 1, max pooling) are covered where their function is
differentiable; `backward_derivative_partial` asks for that in its hypothesis. `Spec/Smooth`
(`AvoidsKinks`) says on the values alone when it holds: no element of an argument of a ReLU is zero, the
elements of an argument of a max pooling are distinct. `layer_differentiable` proves it enough
for every layer, which gives `backward_derivative_smooth_partial`. The full C23 is refuted
with a residual block around a BatchNorm2D. At a kink the element-wise theorems
(C27) say what is added to the gradient.

## 6. The log of wrong programs

Each line of `seeded/LOG.jsonl` is one edit of the model in a scratch copy, followed by a rebuild.

* `first_failures` is what the rebuild reported: module and declaration of each error. In most runs the rebuild is stopped 20 to 75 seconds after the first
  error, and Lean does not build modules that import a broken one, so the list is not complete.
* `theorems_failed` is derived from it: the theorems of the claim, as listed in `MANIFEST.json`, that are in `first_failures` or whose
  proofs depend on a declaration that is. A theorem of the second kind was not compiled with the edit, as something it uses no longer
  compiles; whether another proof of it exists is not known.
* The dependencies are those of the present proofs, so the field can change when proofs do.
* `claim` is the claim the line is about. `designed_for` is present when the edit was written against another claim and the label was changed or extended
  afterwards, mostly because the rebuild reached no theorem of the first one. Such a line is evidence for `claim` only: it does not show that the
  theorems of `designed_for` reject the edit. In N07, SL1, FM13 and FM14 `theorems_failed` was written by hand; for the last two see the note.
* `survived` edits are explained in the same line, together with what was tightened.
