# Formal model of godeep in Lean 4: design

## 1. Trusted base

* Lean 4.33.0's kernel (every proof is re-checked by it; no `native_decide`, no `bv_decide`, no `sorry`, no own axioms).
* The axioms used by theorems are among `propext`, `Quot.sound`, `Classical.choice` (per-theorem list produced with `#print axioms`, section 6).
* The reading of the Go source into Lean: the definitions below `lean/Verif/Model/`.  Each one cites the file and lines it models.
* The specification definitions below `lean/Verif/Spec/`, against which the theorems are stated.

Nothing of the Go code was run.  The Go compiler, runtime, `encoding/binary`, `math`, `image` and `rand` packages are outside the model; what is assumed about them is said where they are used.

## 2. How Go is represented

| Go | Lean |
|---|---|
| element type `T` (float32, float64, int, int16, int32, int64) | a type with a `GoNum T` instance: operations **without any algebraic laws**. So a theorem over `GoNum` holds for IEEE floats and wrapping integers alike. Laws appear only as explicit hypotheses, or by choosing `T := ℚ/ℝ`/ordered field where a property is about real numbers |
| integer division by zero | `divPanics : T → T → Bool`, division aborts when it says so |
| `*number.Scalar[T]` | an address (`Nat`), 0 is nil; `Heap T` maps addresses to values and has an allocation counter |
| a call returning `error` | `Out σ α`: `ok a s`, `err e s` (state at the time of the return is kept), `panic` |
| `panic`, index out of range, nil dereference | the `panic` outcome |
| `uint` sizes and indices | `Nat` in the main model, and a separate `UInt64`-modelled copy of the index arithmetic with a theorem saying when both agree |
| slices that are only read after construction | `List` |
| pointers to tensors / layers | ids into a store, so sharing (DAGs) is represented |

## 3. Layers of the model

`Model/` – the code, each definition with the file and lines it models:

* `Go`, `Heap` – outcomes of calls, the number interface, scalar cells.
* `Tools`, `Tools64` – index arithmetic of `tools/tools.go`, over `Nat` and with 64-bit wrap-around.
* `Mat` – `TensorMat`: constructors, access, immediate operations (`tensor/*.go`).
* `Op`, `Context`, `Lazy`, `GraphOps` – package `operation`, the linked list of `context`, every lazily built tensor with its `builded` flag, `graph.NewGraph`/`Exec`/`Concat`/`Copy` (slices with capacity).
* `Layer`, `Net` – package `layer` (all layers: input, dense, flatten, softmax, norm, enorm, sub-tensor, conv2d, deconv2d, max-pooling, up-sampling, concat), package `model`: push, compile, back-propagation graph, predict, train, save, load. The state of a program is a `World`: tensor store, layers, models, random numbers still to come.
* `Bytes` – `Save`/`Load` of tensors, with what they use of `encoding/binary` and `io` (readers and writers that run out).
* `F16` – half precision bit patterns.  `Scalar` – package `scalar`: the three precisions behind one interface, over a machine whose float operations are a parameter.  `Float64` – finite float64 values as rationals with rounding to 53 bits.
* `Ctors` – the exported functions of package `tensor` that make lazily evaluated tensors.
* `Random` – random tensors and scalars, a draw is a parameter.  `Distant`, `Text`, `ModelText` – `tools.Distant`, the text of shapes, tensors and models.
* `Activation`, `Img`, `Bar` – leaf modules.

`Spec/` – the vocabulary of the theorems, without reference to strides, cells, flags or operation lists:
`Index` (shapes, indices), `Tensor` (`STensor`: shape and value at an index; `Holds`), `Expr` (meaning of a lazily built expression), `Calls` (meaning of a list of calls), `Random` (floats and draws), `Graph`, `Writes`, `Field`, `Half`, `Net` (`LSpec`, `netFn`: the function of a sequential network; `HasParams`; `Use`/`Steps`: everything a program may do with a compiled model), `Save`, `Train` (`trainStep`; `TSteps`; `Sample`).

`Lemmas/` – proofs.  `Props/` – the theorems `Cnn_…`, each with instances that meet its hypotheses.

### How histories are quantified

* Graphs: after `NewGraph`, *any* change of the heap that keeps allocated cells allocated may happen before `Exec` (`Spec/Graph`).
* Models: `Steps w0 w1 m a b` is any number of: uses of the model (`Predict`, also failing or aborting ones, `SetTrainable`, `Save`, `Load`, `ResetSave`, `ResetLoad`, arbitrary direct writes to weights), and *anything at all* done to tensors, layers and models that are not part of `m`.
* Training: `TSteps` adds `TrainOne` and `Train` calls with any samples, also rejected ones.
* Readers and writers: any byte sequence, any point at which the writer stops.
* Random numbers: `rnd` and `draw` are arbitrary functions, so theorems hold for every initialisation and every choice of samples.

### Claims the code does not satisfy

For these the negation is proved with a concrete program, and a `…_partial` theorem says what does hold.  Concrete programs over `Int` are evaluated by the kernel (`decide +kernel` on a fully concrete program; no domain is sampled).

## 4. Plan per property

* **C01 Multi-index and flat offset are inverse.** Tools model over Nat; induction over the shape list.
* **C02 Element addressing accepts exactly the valid indices.** GetIndex modelled with its error and panic branches; theorem is an exact three-way characterisation.
* **C03 Elements are laid out in row-major (lexicographic) order.** `allIdx shape` (spec, defined by nested enumeration) is proved strictly sorted lexicographically and equal to ReverseIndex mapped over 0..size-1.
* **C04 64-bit wrap-around in sizes and offsets.** Index functions over `BitVec 64`/`UInt64`; refinement theorem under no-overflow hypothesis; concrete overflow witness.
* **C05 Constructors build well-formed tensors.** Heap model; induction over allocation loop.
* **C06 Set writes one element and only that one.** Heap frame theorem using injectivity of the offset map.
* **C07 Copy is equal and independent.** Fresh cells: write sequences as lists of (address,value); invariance by induction.
* **C08 Bulk load and read-back.** Heap model, exact outcome incl. error branches.
* **C09 Bind makes elements shared.** Address sharing theorem.
* **C10 Immediate element-wise arithmetic.** Refinement to Spec tensors.
* **C11 Immediate scalar and unary maps.** Refinement to Spec tensors.
* **C12 Transpose reverses the index.** Refinement; involution from it.
* **C13 SubTensor selects a slab.** Refinement with exact success condition.
* **C14 Extended sub-tensor pads outside the source.** Code violates it at position = extent (off by one): negation proved with witness, exact characterisation, `_partial` for the ranges that work.
* **C15 Concat joins along a dimension.** Refinement under compatible shapes; negations for missing validation (immediate version: none; graph version: only first differing dim).
* **C16 Reshape keeps the flat order.** Graph version refined fully; immediate version correct only for equal sizes: exact characterisation and negation.
* **C17 Dot is contraction over the chosen dimensions.** Refinement; sum as explicit left fold.
* **C18 Whole-tensor and per-dimension reductions.** Refinement; order facts over linear orders.
* **C19 SoftMax output is a distribution.** Over a linear ordered field.
* **C20 Operation context is a FIFO.** Linked list queue model refined to list append.
* **C21 Executing a graph computes the expression.** Lazy store model, `build` by recursion on ids; block-structured operation list; main theorem by strong induction over nodes.
* **C22 A graph can be re-executed on new data.** Corollary of 21's semantic core, quantified over any leaf memory and repeated Exec.
* **C23 Executing does not disturb other tensors.** Footprint theorem: ops write only cells allocated in this build.
* **C24 A tensor is computed in the first graph only.** Theorem on built nodes: build is a no-op; concrete stale witness plus general statement.
* **C25 Graph building reports exactly the shape errors.** Well-shapedness predicate in Spec; build outcome characterisation by induction.
* **C26 A failed build is not retried.** Flag semantics.
* **C27 Graph and immediate operations agree.** Both refine the same Spec function.
* **C28 Execution aborts only on empty reductions or integer division by zero.** Exec outcome characterisation.
* **C29 Transfer and Fill write through.** Op semantics over heaps; for calls of `FillWith` and `CopyTo` followed by evaluation, in `Props/WriteCalls.lean`.
* **C30 Graph concatenation is sequential composition.** List append homomorphism.
* **C31 Graph views share cells with their source.** Address equalities.
* **C32 Tensor Save/Load round-trip.** Byte-level encode/decode of fixed-width words; induction over elements.
* **C33 SaveFull/LoadFull round-trip.** The code always fails (binary.Write of an int): negation proved; partial: what it does do.
* **C34 Truncated input when loading.** Same byte model, any prefix.
* **C35 Half precision widening is exact and round-trips.** Arithmetic on sign, exponent and fraction fields; rational value semantics (`Spec/Half`).
* **C36 Half precision narrowing rounds to nearest even.** BitVec/Nat arithmetic, rational value semantics.
* **C37 Half precision classification.** All patterns, arithmetic proof.
* **C38 Predict on dense models computes the network function.** For every model made by `sequential shape ls`, in every state reached by `Steps` (or `TSteps`): `Predict` returns a tensor holding `netFn ls pv x` for the current weights `pv`.  The compiled graph is characterised layer by layer (`FF…` lemmas), the footprint of every layer is kept apart from that of the others.
* **C39 Predict is repeatable and its result is independent.** Same invariant; results are fresh tensors (`UserTensor`) and stay so through `Steps`.
* **C40 Input shape is checked.** Outcome characterisation.
* **C41 One training step of a dense model.** The four graphs (reset, forward, error, back-propagation) of a dense model are characterised by induction over the layers, and executed symbolically; result refined to `trainStep` (`Spec/Train`), in every state reached by `TSteps`.
* **C42 Training steps do not leak into each other.** `Train` is a fold of `trainStep` over the drawn samples; two states with equal weights stay so.
* **C43 Momentum has an effect.** Dense: violated, negation (momentum buffers always 0).
* **C44 Frozen layers keep their weights.** From C41/C42; `SetTrainable` by induction over the chain of layers; it stops at a Concat and before the first layer: negations. In all programs (`Props/Frozen.lean`): the invariant of C88 also says that no call but `SetTrainable(true)` makes a layer trainable, so the layers of a frozen model keep their weights whatever else is called.
* **C45 Training reaches every trainable layer of branched models.** Violated: negation with a concrete model, and a frame theorem for models of *any* structure (`Lemmas/FitFrame`): only layers on the previous-layer path are written.
* **C46 The dense update is gradient descent.** Over ℝ with Mathlib's `HasDerivAt`: induction over the layers shows that the back-propagated errors are the derivatives of half the squared error (`back_deriv`); combined with C41 into a statement about `TrainOne`.
* **C47 Compile is idempotent.** Violated: second compile empties the graph; negation.
* **C48 Model Save/Load round-trip.** Byte model; `Save` and `Load` visit the layers in the same order, for models of any structure; weights as byte blocks. `C48_programs` states it for all states that programs reach, where the conditions on memory come from the invariant of C88.
* **C49 Saving twice.** Flag semantics by induction over chains; branched models violate: concrete model.
* **C50 Convolution layer computes cross-correlation.** Stated for `Predict` of a model with that layer; sums in the order of the code (so valid for floats), and as a sum over a field.
* **C51 Max-pooling output.** Same.
* **C52 Up-sampling repeats elements.** Same.
* **C53 Transposed convolution.** Same.
* **C54 Normalisation layer range.** Range theorem; claim for Norm is violated (range is [-1,1]): negation + real range.
* **C55 Activation derivatives.** Mathlib HasDerivAt; ELU derivative wrong for n>=0: negation + partial.
* **C56 Nearest-neighbour image scaling.** float64 index computation with 53-bit rounding; floor claim violated by rounding: negation and exact description.
* **C57 Bilinear image scaling.** Violated: exact success characterisation + negation; for the targets that work, the value of every pixel.
* **C58 Progress bar width.** Text model.
* **C59 Shape comparison.** List induction.
* **C60 Saving to a writer that fails.** Byte model with a writer of any capacity.
* **C61 Predict composes the layers of any sequential model.** As C38, by induction over the list of layers, for all layer kinds.
* **C62 Loading an image puts every pixel in the tensor.** A decoded image is its bounds and its colours at all positions (`Model/Picture.lean`; decoding is not modelled). The loops fill a new tensor (as C56). False of the code for images whose bounds do not start at (0, 0) (`C62_bounds_ignored`); proved for the others.
* **C63 Image to tensor and back is lossless for float elements.** Composition of C62 and C64; each of the 256 levels of a byte survives division, rounding and multiplication, by kernel evaluation over the whole finite domain of levels; sizes and positions by the loop invariants.
* **C64 ToImg reads the four channels of every position.** Induction over the positions.
* **C65 Loading with scaling.** Simple: the loops of both sides give the same tensor. Smooth: error bounds of C57 for a position and an interpolation, followed by rounding down. `C65_edge_darkens` shows what counting neighbours outside the image as 0 does.
* **C66 A Flatten layer changes shapes only.** Predictions: the functions computed are equal. Training: false, concrete pair of models evaluated by the kernel.
* **C67 Every sequential model that can predict can be trained.** False for some convolutions; concrete models evaluated by the kernel. For square kernels and equal strides: C68.
* **C68 One training step of a model with layers of any kind.** As C41, but the graph that each kind of layer adds is characterised separately (`GDense`, `GConv`, … in `Lemmas`: what it reads, what it writes, what it computes), and the chains of layers are composed by induction (`GExec`, `GFit`). Result refined to `learnStep` (`Spec/Learn`), in every state of a history `Learnt`.
* **C69 Training is gradient descent on the squared error, for layers of any kind.** Over ℝ with `HasDerivAt`. Induction over the layers, from the last to the first (`Follows`): what a layer passes back is minus the derivative of the loss with respect to its input, divided by a constant. Dense, convolution and deconvolution layers are affine with respect to input, weights and biases (`Lin`, `IsLin`). False of the code for Norm, SoftMax and Flatten: negations in `Props/NotGradient`, for every sample in every state.
* **C70 With a sigmoid at the end, training is gradient descent on the cross-entropy.** Same induction, with another start: the error target - prediction is minus the derivative of the cross-entropy with respect to the argument of the sigmoid.
* **C71 A small enough training step makes the error of the sample smaller.** All weights move along one curve with parameter alpha; its derivative at 0 is minus a sum of squares, 0 only if no weight moves (`Descends`).
* **C72 FromModels composes models.** False for models compiled before (`C72_used_before`). Positive part (`C72_joined_partial`): invariant over the compile loop of `FromModels` (`JInv`: the models compiled so far are one chain of layers, in which the input layer of a connected model is a layer that does nothing), `CompileBackPropagation` keeps everything a prediction uses (`compileBP_keeps`), then the theorem about predictions of compiled chains. Spec: `Spec/Joined.lean`.
* **C73 Joined models can be trained separately.** False: concrete models evaluated by the kernel. Frozen parts: frame theorem of C45 for all trainings of the joined models; for all programs that join models, from C44_frozen_program.
* **C74 Half-precision arithmetic rounds once.** The float32 operations of the machine are a parameter; assumed only: on finite operands they return a nearest float32 (`Rounds32`; a machine with this property is constructed). Rounding to single and then to half precision differs from rounding once only if the first rounding hits a midpoint between halves; sums and quotients of halves are never that close to a midpoint without being it (divisibility by powers of two), products are exact in float32.
* **C75 Cmp agrees with the order of the numbers.** Proved when the receiver is a double or no double is involved (`C75_cmp_partial`); false otherwise (`C75_double_argument`).
* **C76 Half-precision results of wider operands are rounded once.** False: witnesses just above a midpoint (`C76_from_double`, `C76_mixed_sum`); true for doubles that are exactly float32 numbers (`C76_exact_partial`).
* **C77 Preparing a model for training does not change its predictions.** Proved (`C77_predictions_kept`): every step of `CompileBackPropagation` keeps the scalars that exist, the finished tensors and the fields predictions use (`Lemmas/BPFrame.lean`), whether it ends with an error or not; the invariant of compiled models is preserved.
* **C78 Models with branches compute the function of their graph of layers.** Proved (`C78_branched`) for all graphs of layers of any kinds (`Spec/Branched.lean`), by an invariant of the depth-first traversals: `Build` counts the uses of each layer (`Lemmas/BranchBuild.lean`), `BuildFeedforward` extends the list of operations by those of one layer at a time (`Lemmas/BranchFF.lean`). Hypothesis: counting the uses of a layer in the type of the elements does not come back to 0.
* **C79 The elements of a random tensor lie in the range asked for.** The draws are a parameter (any `float64` numbers in [0, 1)); the three roundings are those of `Model/Float64.lean`. Rounding is monotone and exact on representable numbers, and a rounded length scaled by a draw and rounded again never exceeds the exact length (`flp_shrink`).
* **C80 Distant is a distance.** Over ℝ it is the distance of Euclidean space; symmetry is proved for rounding and wrapping arithmetic as well. False with wrap-around: `C80_zero_of_different`.
* **C81 The text of a tensor determines its shape and elements.** Text is a list of characters; the text of an element ends at the first comma or bracket, induction over the elements. `fmt.Sprint` of an element is a parameter; for `uint` it is decimal notation.
* **C82 A random scalar is drawn from the range asked for.** As C79 for `float64`. False otherwise: with `float32` a result above the range (`C82_scalarRand_float32_above`), with integers always the lower end (`C82_scalarRand_int_constant`).
* **C83 A program of tensor functions computes what its calls mean.** `Spec/Calls.lean` defines calls, the shapes and the values after a list of calls (`shapesAfter`, `valuesAfter`), without the model's tensor objects. Each call makes one unevaluated tensor whose meaning is that of the call (`call_makes`); induction over the calls; then C21. `SoftMax` means what the code computes (shift by the minimum, divide by the sum), not the exponential formula.
* **C84 Flatten gives the elements as a vector.** Proved for data tensors from C83. False of unevaluated tensors: `C84_flatten_pending`.
* **C85 The text of a model lists every layer once, in order.** `PushToString` written as a recursion over the layers; induction along the chain (or the graph) of a compiled model, whose layers have outputs of known shapes. Proved for compiled sequential models in any later state. For models with branches the exact text is proved, which repeats shared layers: `C85_repeated`. The values of the layer indices are left open, as Go leaves them open.
* **C86 A model made of blocks behaves as the model of the same layers.** The fields of type `Layer` (`FirstLayer`, `LastLayer`, `PreLayer`) hold layers or models; what they hold is kept beside the state (`Links` in `Model/Nested.lean`), with the layers that do the work in the state itself, because all methods but `SetTrainable` are passed on to them. Induction over the tree of parts: pushing them leaves the same state as pushing the layers one by one. A relation "agree on everything but other models" is kept by every method (`Lemmas/Sees.lean`), so all sequences of calls have the same results. `SetTrainable`: induction over the tree along the chain of previous layers gives the exact set of layers it reaches, which is not all.
* **C87 Input layers behind other layers do nothing.** An input layer with a previous layer passes on its output (`Via`, `Source` in `Lemmas/Stage.lean`: the layer that owns the output in use is found in any number of steps). Induction over the chain, for `Build` (`Lemmas/LBuild.lean`: the reference counters) and for feed-forward (`Lemmas/LFF.lean`): such a layer is compiled as a layer that computes the identity and has no operations. False of training, with a concrete model.
* **C88 Only training and loading change weights.** `Spec/Program.lean`: an alphabet of calls (`Act`), programs as sequences of calls with arguments that earlier calls returned (`Calls`, `Reached`), from a state in which nothing has been made. Invariant (`Lemmas/OwnInv.lean`): cells carry the layer whose weights or bias they are in; operations in contexts and graphs write to cells without a label only; tensors in the other fields of layers and models, and all tensors they are views of, have no labelled cells. Every function of the model keeps it and changes only what it may (`Own*.lean`), by induction over graphs of tensors, chains of layers, epochs and histories. The alphabet has the functions that make graphs and the methods that compute at once (`Lemmas/OwnNow.lean`: they make new cells and write to no others). Tensors made by `FillWith` and `CopyTo` write to another tensor when they are evaluated: the invariant has that tensor among those without labelled cells. Not in it: models used as layers of models (`Model/Nested.lean`) and `Bind`.
* **C89 Weights share no memory.** Read off the invariant of C88, which also says that the elements of weights and bias of a layer are all different and as many as the shapes say (`C89_elements`).
* **C90 Tensors that a program holds change only when it assigns to them.** The same invariant, with the elements of the tensor labelled by a layer number that the history never reaches. Results of `Concat` share elements with its arguments and results of `Reshape` can have nil elements, so they are left out of the tensors with elements of their own. The labels are combined with those of C88 before each call (`Own.merge`), so that a target of `FillWith` or `CopyTo` with other elements is seen to be one.
* **C91 Models that share no layers do not influence each other.** `Spec/Separate.lean` has programs of several parts that make calls in turns, each with layers and models of its own. Invariant over histories: the state has for each part a closed set of cells, tensors, layers and models, and one more closed set for the tensors and numbers that are exchanged; the sets are disjoint except for the nil pointer. Each method is shown to write only its set and to extend it only by what is new (`Lemmas/Side*.lean`). Predictions and training of a compiled model are then shown to depend on the set of its part and on the elements of the arguments only. For training the theorem assumes that it does not panic in the first state, because the recursion bound of the model depends on the number of all layers. Models that are not compiled yet are left out: compiling allocates, so results are the same only up to addresses. `C91_one_program` shows that a state that parts reach by turns is also reached by one program, so C88, C89, C90 and C92 hold of it.
* **C92 Layers start with random numbers, each tensor with its own.** The invariant over histories of C88 gets one more label for each cell: the draw and the position of the random number that the cell held first. No two cells have the same label, the cells of a weights or bias tensor have the labels (k, 0), (k, 1), … of one draw k, and a cell of a layer that no call trains or loads still holds that number. The order of the numbers within a draw is that of the elements. How the generator makes the numbers is not modelled: `rnd k i` is any function.
* **C93 Training with rate zero changes no weights.** Corollary of C68 (training computes `learnAll`): with the three laws of zero as hypotheses, `LSpec.learned` with rate zero gives the parameters it got, for each layer kind; induction over layers and over samples. The laws hold for integers, wrapping integers and real numbers, not for IEEE infinities and NaN.
* **C94 Using models does not change how they are made.** From the relation between states before and after a call that the invariant of C88 comes with (`Own.Le`), which speaks of connections, kinds of layers, trainable layers, first and last layers; calls that make layers and models directly.
* **C95 The shape of a tensor does not change.** Also from `Own.Le`: a node that is a plain tensor (not one that a graph computes) keeps its shape and the addresses of its elements. Tensors that a graph computes are left out, they get their elements when the graph is built (C24).

## 5. Not modelled

* Random number generation (arbitrary values instead), printing of progress and `String` methods other than that of tensors, float32/float64 arithmetic of infinities and NaN in package `scalar`, PNG/JPEG decoding and encoding, goroutines (the library starts none), garbage collection, memory exhaustion.
* IEEE rounding of the element arithmetic: it is abstract, so results hold for any arithmetic; the real-number properties (C19, C46, C54, C55, C69, C70, C71) are about exact arithmetic.
* float64 in `img`: no overflow, subnormals, NaN, fused multiply-add.
* Go slices kept by operations (`Args`) are copied; differs only if `Bind` is called between `BuildGraph` and `Exec`.
* Back-propagation is modelled for all layers. Its effect is proved for chains of layers (C68), except for convolutions whose kernel is not square or whose strides differ (concrete theorems only, C67) and for models with Concat layers (frame theorem C45).

## 6. Axioms

`axioms.txt` lists for every theorem of the manifest the axioms it depends on, as printed by Lean's `#print axioms`: a subset of `propext`, `Quot.sound`, `Classical.choice`.
