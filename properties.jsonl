{"id": "C01", "title": "Multi-index and flat offset are inverse", "statement": "For every shape, converting an in-range multi-index to its flat offset and back gives the same multi-index, and converting any offset below the number of elements to a multi-index gives an in-range index whose offset is that offset.", "quantifier": "all shapes (any rank, any extents), all in-range indices, all offsets below the size", "why_tests_cant": "the number of shapes/indices is unbounded; tests try a handful of shapes", "anchors": ["tools/tools.go:GetIndexMul", "tools/tools.go:GetIndex", "tools/tools.go:ReverseIndex", "tools/tools.go:GetDataSize"]}
{"id": "C02", "title": "Element addressing accepts exactly the valid indices", "statement": "Addressing an element succeeds exactly when the index has the tensor's rank and each component is below the extent; a component out of range is reported as an error, a wrong number of components aborts the program (panic), and a successful call never yields an offset outside the data.", "quantifier": "all shapes and all index tuples, of any length", "why_tests_cant": "the number of shapes/indices is unbounded; tests try a handful of shapes", "anchors": ["tools/tools.go:GetIndex", "tensor/tensor_mat.go:GetOperand"]}
{"id": "C03", "title": "Elements are laid out in row-major (lexicographic) order", "statement": "Offsets 0,1,2,... enumerate the in-range multi-indices in lexicographic order with the last component fastest, so flat data order means the same thing for every shape.", "quantifier": "all shapes, all pairs of indices", "why_tests_cant": "the number of shapes/indices is unbounded; tests try a handful of shapes", "anchors": ["tools/tools.go:GetIndexMul", "tools/tools.go:ReverseIndex"]}
{"id": "C04", "title": "64-bit wrap-around in sizes and offsets", "statement": "With 64-bit unsigned arithmetic, sizes, strides and offsets equal the mathematical ones whenever the number of elements the strides range over fits in 64 bits; otherwise sizes silently wrap (a 2^32 x 2^32 tensor is created with no elements).", "quantifier": "all 64-bit shapes and indices", "why_tests_cant": "tests cannot allocate tensors near 2^64 elements", "anchors": ["tools/tools.go:GetIndexMul", "tools/tools.go:GetDataSize", "tools/tools.go:GetIndex", "tools/tools.go:ReverseIndex"]}
{"id": "C05", "title": "Constructors build well-formed tensors", "statement": "NewZeros/NewOnes/NewFromValues give a tensor of the requested shape with exactly as many elements as the product of the extents; element i is 0, 1, or the i-th given value, missing values are 0 and surplus values are dropped. Every element is a distinct fresh cell.", "quantifier": "all shapes and all value slices (shorter, equal, longer)", "why_tests_cant": "the number of shapes/indices is unbounded; tests try a handful of shapes", "anchors": ["tensor/constructor.go:NewZeros", "tensor/constructor.go:NewOnes", "tensor/constructor.go:NewFromValues"]}
{"id": "C06", "title": "Set writes one element and only that one", "statement": "After a successful Set(v, idx), Get(idx) is v and Get of every other index, of this tensor and of every tensor not sharing that cell, is unchanged; a failing Set changes nothing.", "quantifier": "all tensors, values, index pairs, heaps", "why_tests_cant": "needs all pairs of indices and all aliasing patterns", "anchors": ["tensor/tensor_mat.go:Set", "tensor/tensor_mat.go:Get"]}
{"id": "C07", "title": "Copy is equal and independent", "statement": "Copy returns a tensor with the same shape and elements; any later sequence of writes to the copy leaves the original unchanged, and vice versa.", "quantifier": "all tensors and all later write sequences", "why_tests_cant": "histories of writes are unbounded", "anchors": ["tensor/tensor_mat.go:Copy"]}
{"id": "C08", "title": "Bulk load and read-back", "statement": "LoadData followed by GetData returns the data loaded; a length mismatch is an error that changes nothing. LoadFromTensor copies all elements when the shapes are equal and is otherwise an error that changes nothing.", "quantifier": "all tensors, data slices and source tensors", "why_tests_cant": "unbounded sizes; error path must leave every element alone", "anchors": ["tensor/tensor_mat.go:LoadData", "tensor/tensor_mat.go:GetData", "tensor/tensor_mat.go:LoadFromTensor"]}
{"id": "C09", "title": "Bind makes elements shared", "statement": "After Bind, the first min(len) elements of the receiver are the very cells of the argument, so each later write through one is seen through the other; remaining elements are untouched.", "quantifier": "all tensors and later writes", "why_tests_cant": "aliasing over histories", "anchors": ["tensor/tensor_mat.go:Bind"]}
{"id": "C10", "title": "Immediate element-wise arithmetic", "statement": "Add/Sub/Mul/Div of two tensors succeed exactly when the shapes are equal; the result has that shape and element idx is the operation on elements idx; inputs are unchanged and the result shares no cell with them.", "quantifier": "all tensors, element types, indices", "why_tests_cant": "the number of shapes/indices is unbounded; tests try a handful of shapes", "anchors": ["tensor/oper2.go:TensorMat.Add", "tensor/oper2.go:TensorMat.Sub", "tensor/oper2.go:TensorMat.Mul", "tensor/oper2.go:TensorMat.Div"]}
{"id": "C11", "title": "Immediate scalar and unary maps", "statement": "AddScalar/SubScalar/MulScalar/DivScalar, Neg, Abs and Activate keep the shape and map every element by the stated function, leaving the input unchanged and sharing nothing with it.", "quantifier": "all tensors, scalars, functions", "why_tests_cant": "the number of shapes/indices is unbounded; tests try a handful of shapes", "anchors": ["tensor/oper_scalar.go", "tensor/neg.go:TensorMat.Neg", "tensor/abs.go:TensorMat.Abs", "tensor/activate.go:TensorMat.Activate"]}
{"id": "C12", "title": "Transpose reverses the index", "statement": "The transpose has the reversed shape and its element at idx is the source's element at the reversed idx; transposing twice gives the original; it never fails on a well-formed tensor.", "quantifier": "all shapes of any rank, all indices", "why_tests_cant": "the number of shapes/indices is unbounded; tests try a handful of shapes", "anchors": ["tensor/transpose.go:TensorMat.Transpose", "tensor/transpose.go:TensorTanspose.BuildGraph", "tools/tools.go:GetInvertedIndex"]}
{"id": "C13", "title": "SubTensor selects a slab", "statement": "SubTensor(dim, from, to) succeeds exactly when dim is a dimension and from < to <= extent; element idx of the result is the source element with component dim shifted by from.", "quantifier": "all shapes, dims, ranges, indices", "why_tests_cant": "the number of shapes/indices is unbounded; tests try a handful of shapes", "anchors": ["tensor/sub_tensor.go:TensorMat.SubTensor", "tensor/sub_tensor.go:TensorSubTensor.BuildGraph"]}
{"id": "C14", "title": "Extended sub-tensor pads outside the source", "statement": "A sub-tensor range reaching past the source is filled with the fill value (0 for the graph version) at positions outside it.", "quantifier": "all shapes, dims, ranges", "why_tests_cant": "the failing boundary (position equal to the extent) is easy to miss", "anchors": ["tensor/sub_tensor.go:TensorMat.FOSubTensor", "tensor/sub_tensor.go:SubExtendedTensor"]}
{"id": "C15", "title": "Concat joins along a dimension", "statement": "When the shapes agree outside dim, the concatenation has the summed extent at dim, and its element idx comes from the first tensor if idx[dim] is below the first extent and otherwise from the second at idx[dim] minus that extent; shapes that differ elsewhere are rejected.", "quantifier": "all shapes, dims, indices", "why_tests_cant": "the number of shapes/indices is unbounded; tests try a handful of shapes", "anchors": ["tensor/concat.go:TensorMat.Concat", "tensor/concat.go:TensorConcat.BuildGraph"]}
{"id": "C16", "title": "Reshape keeps the flat order", "statement": "Reshape gives a tensor of the requested shape whose i-th flat element is the source's i-th, or 0 past the end of the source.", "quantifier": "all source and target shapes", "why_tests_cant": "the number of shapes/indices is unbounded; tests try a handful of shapes", "anchors": ["tensor/reshape.go:TensorReshape.BuildGraph", "tensor/reshape.go:TensorMat.Reshape", "tensor/reshape.go:Flatten"]}
{"id": "C17", "title": "Dot is contraction over the chosen dimensions", "statement": "DotAt(a,b,da,db) has the extents of a without da followed by those of b without db, and each element is the sum over k of a(...,k at da,...) * b(...,k at db,...); Dot uses the last dimension of a and the last-but-one of b; differing extents are an error.", "quantifier": "all shapes, all contraction dims, all indices", "why_tests_cant": "the number of shapes/indices is unbounded; tests try a handful of shapes", "anchors": ["tensor/dot_product.go:TensorMat.DotAt", "tensor/dot_product.go:TensorMat.Dot", "tensor/dot_product.go:TensorDotProduct.BuildGraph"]}
{"id": "C18", "title": "Whole-tensor and per-dimension reductions", "statement": "Sum/Avg/Max/Min combine all elements in flat order; DSum/DAvg/DMax/DMin(d) keep the first d+1 dimensions and combine, for each index prefix, exactly the elements with that prefix; over an ordered type Max/Min are attained and bound all elements.", "quantifier": "all shapes, dims, prefixes", "why_tests_cant": "the number of shapes/indices is unbounded; tests try a handful of shapes", "anchors": ["tensor/tensor_math.go", "tensor/dim_math.go", "operation/max_min.go", "tools/math.go"]}
{"id": "C19", "title": "SoftMax output is a distribution", "statement": "SoftMax keeps the shape; over an ordered field every output lies in [0,1] and they add up to 1 whenever not all inputs are equal; order of elements is preserved.", "quantifier": "all non-constant input tensors over an ordered field", "why_tests_cant": "all inputs", "anchors": ["tensor/softmax.go:TensorMat.SoftMax", "tensor/softmax.go:TensorSoftMax.BuildGraph"]}
{"id": "C20", "title": "Operation context is a FIFO", "statement": "The operations of a context are listed in exactly the order they were pushed, none lost or repeated, for any push sequence.", "quantifier": "all push sequences", "why_tests_cant": "unbounded sequences", "anchors": ["context/context.go:Push", "context/context.go:GetOps"]}
{"id": "C21", "title": "Executing a graph computes the expression", "statement": "For any expression built from the tensor operations over data tensors, with any sharing of subexpressions, building the graph and executing it leaves in the result tensor exactly the mathematical value of the expression on the data tensors' current elements (in the stated evaluation order of sums).", "quantifier": "all expression DAGs, all shapes, all element values and types", "why_tests_cant": "DAG shapes and sharing patterns are unbounded", "anchors": ["graph/graph.go:NewGraph", "graph/graph.go:Exec", "tensor/*.go:BuildGraph", "operation/*.go:Cal"]}
{"id": "C22", "title": "A graph can be re-executed on new data", "statement": "After changing data tensors' elements arbitrarily and executing again (any number of times) the result is the expression's value on the current data; executing twice in a row gives the same as once.", "quantifier": "all expression DAGs, all sequences of data updates and executions", "why_tests_cant": "unbounded histories", "anchors": ["graph/graph.go:Exec"]}
{"id": "C23", "title": "Executing does not disturb other tensors", "statement": "Executing a graph changes only elements of tensors computed in that graph: data tensors, and any tensor not built in that graph, keep their elements.", "quantifier": "all pure expression DAGs and all other tensors", "why_tests_cant": "the number of shapes/indices is unbounded; tests try a handful of shapes", "anchors": ["graph/graph.go:Exec", "tensor/*.go:BuildGraph"]}
{"id": "C24", "title": "A tensor is computed in the first graph only", "statement": "BuildGraph on an already built tensor adds nothing: a graph built later over an already built subexpression does not recompute it, so after changing data it yields a value based on the old subexpression value until the first graph is executed again.", "quantifier": "all DAGs and build histories", "why_tests_cant": "history dependent", "anchors": ["tensor/*.go:BuildGraph (builded)", "tensor/tensor_mat.go:SetBuild"]}
{"id": "C25", "title": "Graph building reports exactly the shape errors", "statement": "Building a graph for a fresh expression returns an error exactly when some subexpression is ill-shaped by the operation's documented rule; it never aborts.", "quantifier": "all expression DAGs", "why_tests_cant": "the number of shapes/indices is unbounded; tests try a handful of shapes", "anchors": ["tensor/*.go:BuildGraph"]}
{"id": "C26", "title": "A failed build is not retried", "statement": "After a failed BuildGraph every further BuildGraph of the same tensor reports success, adds no operation, and leaves the tensor without valid elements.", "quantifier": "all failing expressions", "why_tests_cant": "history dependent", "anchors": ["tensor/*.go:BuildGraph (builded)"]}
{"id": "C27", "title": "Graph and immediate operations agree", "statement": "For every operation and all well-shaped data, the graph version executed once gives the same shape and elements as the immediate version (for sums: provided 0 + x = x, the only difference in evaluation).", "quantifier": "all operations, shapes, data", "why_tests_cant": "the number of shapes/indices is unbounded; tests try a handful of shapes", "anchors": ["tensor/*.go"]}
{"id": "C28", "title": "Execution aborts only on empty reductions or integer division by zero", "statement": "For element types whose division never aborts, executing a built pure graph aborts exactly when some reduction in it ranges over no elements.", "quantifier": "all expression DAGs", "why_tests_cant": "the number of shapes/indices is unbounded; tests try a handful of shapes", "anchors": ["operation/*.go:Cal", "graph/graph.go:Exec"]}
{"id": "C29", "title": "Transfer and Fill write through", "statement": "Executing a graph with Transfer(from,to) makes to's elements equal from's at that point; with Fill(t,s) all elements of t equal s; sizes must match for Transfer or the build errors. The same holds of FillWith(t,s) and CopyTo(from,to), which return a tensor and write when that tensor is evaluated, not before.", "quantifier": "all tensors of equal size, all heaps", "why_tests_cant": "the number of shapes/indices is unbounded; tests try a handful of shapes", "anchors": ["tensor/copy.go", "tensor/fill.go", "tensor/fill.go:FillWith", "tensor/copy.go:CopyTo"]}
{"id": "C30", "title": "Graph concatenation is sequential composition", "statement": "Executing a graph extended with another's operations is executing the first then the other; copying a graph and extending the copy leaves the original's behaviour unchanged.", "quantifier": "all graphs, all heaps", "why_tests_cant": "unbounded op lists", "anchors": ["graph/graph.go:AddFromGraph", "graph/graph.go:NewFromGraph", "graph/graph.go:PushOperations"]}
{"id": "C31", "title": "Graph views share cells with their source", "statement": "Reshape, Transpose, SubTensor and Concat in a graph do not copy: a write to a view element is seen at the corresponding source element and conversely.", "quantifier": "all shapes and indices, all writes", "why_tests_cant": "the number of shapes/indices is unbounded; tests try a handful of shapes", "anchors": ["tensor/reshape.go", "tensor/transpose.go", "tensor/sub_tensor.go", "tensor/concat.go"]}
{"id": "C32", "title": "Tensor Save/Load round-trip", "statement": "For fixed-width element types, Save writes exactly width*size bytes and Load of those bytes into any tensor of the same size restores the elements exactly and consumes exactly those bytes; for platform-sized int elements Save of a non-empty tensor fails.", "quantifier": "all tensors, all element bit patterns", "why_tests_cant": "2^64 bit patterns and all sizes", "anchors": ["tensor/tensor_mat.go:Save", "tensor/tensor_mat.go:Load"]}
{"id": "C33", "title": "SaveFull/LoadFull round-trip", "statement": "Saving a tensor with its shape and loading it back restores shape and elements.", "quantifier": "all tensors", "why_tests_cant": "all shapes", "anchors": ["tensor/tensor_mat.go:SaveFull", "tensor/tensor_mat.go:LoadFull"]}
{"id": "C34", "title": "Truncated input when loading", "statement": "Loading from a stream with too few bytes returns an error; elements before the first incomplete one are loaded, the others keep their old value.", "quantifier": "all tensors, all stream lengths (crash points)", "why_tests_cant": "every truncation point", "anchors": ["tensor/tensor_mat.go:Load"]}
{"id": "C35", "title": "Half precision widening is exact and round-trips", "statement": "Widening any 16-bit float and narrowing it back gives the same 16 bits (signalling NaNs become quiet), and widening is exact in value.", "quantifier": "all 65536 half-precision bit patterns", "why_tests_cant": "the claim in the source comment is a finite table but value-exactness needs a number semantics", "anchors": ["scalar/f16.go:f16bitsToF32bits", "scalar/f16.go:f32bitsToF16bits"]}
{"id": "C36", "title": "Half precision narrowing rounds to nearest even", "statement": "Narrowing any finite 32-bit float gives a nearest half-precision value, ties to even, overflow to infinity at the right threshold; infinities stay, NaNs stay NaN.", "quantifier": "all 2^32 single-precision bit patterns", "why_tests_cant": "2^32 inputs against all 2^16 candidates", "anchors": ["scalar/f16.go:f32bitsToF16bits"]}
{"id": "C37", "title": "Half precision classification", "statement": "IsNaN, IsInf, IsFinite, IsNormal, IsQuietNaN and Signbit classify every pattern consistently (NaN/inf/finite partition all patterns).", "quantifier": "all 65536 patterns", "why_tests_cant": "finite but not tested at all", "anchors": ["scalar/f16.go"]}
{"id": "C38", "title": "Predict on dense models computes the network function", "statement": "Predict on a sequential model of dense layers returns act(W x + b) composed over the layers, with the weights the layers hold, and leaves the weights unchanged.", "quantifier": "all depths, widths, activations, weights, inputs", "why_tests_cant": "the number of shapes/indices is unbounded; tests try a handful of shapes", "anchors": ["model/model.go:Predict", "model/model.go:Compile", "layer/dense.go:BuildFeedforward"]}
{"id": "C39", "title": "Predict is repeatable and its result is independent", "statement": "Predicting any sequence of inputs returns for each input a result depending only on that input and the weights, and earlier results are never changed by later predictions.", "quantifier": "all sequences of predictions", "why_tests_cant": "histories", "anchors": ["model/model.go:Predict"]}
{"id": "C40", "title": "Input shape is checked", "statement": "Predict (after compilation) on a tensor whose shape differs from the model's input returns an error and changes nothing.", "quantifier": "all models and tensors", "why_tests_cant": "the number of shapes/indices is unbounded; tests try a handful of shapes", "anchors": ["model/model.go:Predict", "tensor/tensor_mat.go:LoadFromTensor"]}
{"id": "C41", "title": "One training step of a dense model", "statement": "TrainOne on a sequential dense model changes every trainable weight to w + momentum*m + alpha*dif*input, with dif = target - output at the last layer and the back-propagated, derivative-weighted sums (using the old weights) elsewhere; the returned loss is the sum of |target - output|.", "quantifier": "all depths, widths, weights, samples", "why_tests_cant": "the number of shapes/indices is unbounded; tests try a handful of shapes", "anchors": ["model/model.go:TrainOne", "model/model.go:ExecFit", "layer/dense.go:BuildBackpropagation", "layer/base.go:Fit"]}
{"id": "C42", "title": "Training steps do not leak into each other", "statement": "The effect of a training step depends only on the weights, the sample and the rates: error terms of earlier samples never contribute.", "quantifier": "all training histories", "why_tests_cant": "histories", "anchors": ["model/model.go:ExecFit", "layer/base.go:ResetFit"]}
{"id": "C43", "title": "Momentum has an effect", "statement": "The momentum argument of Train/TrainOne makes the previous weight change contribute to the next.", "quantifier": "all training histories", "why_tests_cant": "histories of at least two steps", "anchors": ["layer/dense.go:BuildBackpropagation", "layer/conv2d.go:BuildBackpropagation"]}
{"id": "C44", "title": "Frozen layers keep their weights", "statement": "A layer with trainable set to false keeps its weights and biases through any training; Model.SetTrainable applies to all layers of the model.", "quantifier": "all training histories, all models", "why_tests_cant": "histories", "anchors": ["layer/base.go:Fit", "model/model_layer.go:SetTrainable"]}
{"id": "C45", "title": "Training reaches every trainable layer of branched models", "statement": "In a model with Concat layers every trainable layer feeding the Concat is updated by training, and its error terms are reset between samples.", "quantifier": "all branched models", "why_tests_cant": "structure unbounded", "anchors": ["layer/concat.go", "layer/base.go:Fit", "layer/base.go:ResetFit"]}
{"id": "C46", "title": "The dense update is gradient descent", "statement": "For a dense network with linear output activation over the reals and derivative-correct hidden activations, the training step moves every weight by -alpha times the partial derivative of half the squared error.", "quantifier": "all depths, widths, smooth activations, weights, samples", "why_tests_cant": "calculus statement", "anchors": ["layer/dense.go:BuildBackpropagation", "model/model.go:CompileBackPropagation"]}
{"id": "C47", "title": "Compile is idempotent", "statement": "Compiling an already compiled model leaves its predictions unchanged.", "quantifier": "all models", "why_tests_cant": "history", "anchors": ["model/model.go:Compile", "layer/base.go:CheckFF"]}
{"id": "C48", "title": "Model Save/Load round-trip", "statement": "Saving a compiled model and loading into a compiled model of the same architecture gives a model with the same weights, hence the same predictions; every weight is written once.", "quantifier": "all sequential models and branched models, all weights", "why_tests_cant": "the number of shapes/indices is unbounded; tests try a handful of shapes", "anchors": ["layer/base.go:Save", "layer/base.go:Load", "layer/concat.go:Save", "layer/concat.go:Load", "model/model_layer.go"]}
{"id": "C49", "title": "Saving twice", "statement": "A model can be saved any number of times; after ResetSave a Save writes all weights again.", "quantifier": "all models, save histories", "why_tests_cant": "histories", "anchors": ["layer/base.go:ResetSave", "layer/base.go:Save", "layer/concat.go"]}
{"id": "C50", "title": "Convolution layer computes cross-correlation", "statement": "Conv2D output has extents (in-k)/stride+1 and output (f,x,y) is the activation of bias(f,x,y) plus the sum over channels and kernel positions of input times weight.", "quantifier": "all input/kernel/stride sizes that fit", "why_tests_cant": "the number of shapes/indices is unbounded; tests try a handful of shapes", "anchors": ["layer/conv2d.go:BuildFeedforward"]}
{"id": "C51", "title": "Max-pooling output", "statement": "MaxPool2D output (f,x,y) is the maximum over the window clipped to the input.", "quantifier": "all input and pool sizes", "why_tests_cant": "the number of shapes/indices is unbounded; tests try a handful of shapes", "anchors": ["layer/max_pool_2d.go:BuildFeedforward"]}
{"id": "C52", "title": "Up-sampling repeats elements", "statement": "UpSampling2D output (f,x,y) equals input (f, x/sx, y/sy).", "quantifier": "all sizes", "why_tests_cant": "the number of shapes/indices is unbounded; tests try a handful of shapes", "anchors": ["layer/up_sampling_2d.go:BuildFeedforward", "layer/up_sampling_2d.go:NewUpSampling2Dxy"]}
{"id": "C53", "title": "Transposed convolution", "statement": "Deconv2D output has extents (in-1)*stride+k and output (f,x,y) is the activation of bias plus the sum over all input positions and kernel offsets landing on (x,y).", "quantifier": "all sizes", "why_tests_cant": "the number of shapes/indices is unbounded; tests try a handful of shapes", "anchors": ["layer/deconv2d.go:BuildFeedforward"]}
{"id": "C54", "title": "Normalisation layer range", "statement": "Norm maps its inputs into [0,1] and ENorm into [-1,1].", "quantifier": "all non-zero inputs over an ordered field", "why_tests_cant": "all inputs", "anchors": ["layer/norm.go"]}
{"id": "C55", "title": "Activation derivatives", "statement": "For every activation, Derive is the mathematical derivative of Activate.", "quantifier": "all real arguments", "why_tests_cant": "calculus", "anchors": ["activation/*.go"]}
{"id": "C56", "title": "Nearest-neighbour image scaling", "statement": "SimpleScale of a 3-dimensional image never fails and pixel (d,x,y) is source pixel (d, floor(x*W/w), floor(y*H/h)); scaling to the same size is the identity.", "quantifier": "all image and target sizes", "why_tests_cant": "the number of shapes/indices is unbounded; tests try a handful of shapes", "anchors": ["img/simple_scale.go:SimpleScale"]}
{"id": "C57", "title": "Bilinear image scaling", "statement": "SmoothScale of a 3-dimensional image succeeds for every target size.", "quantifier": "all image and target sizes", "why_tests_cant": "boundary rows", "anchors": ["img/smooth_scale.go:SmoothScale"]}
{"id": "C58", "title": "Progress bar width", "statement": "Bar(progress,size) has exactly size characters for every progress in [0,1].", "quantifier": "all sizes and progress values", "why_tests_cant": "the number of shapes/indices is unbounded; tests try a handful of shapes", "anchors": ["tools/bar.go:Bar"]}
{"id": "C59", "title": "Shape comparison", "statement": "Shape equality check returns no error exactly for equal shapes and otherwise identifies the first differing dimension or a rank mismatch.", "quantifier": "all pairs of shapes", "why_tests_cant": "the number of shapes/indices is unbounded; tests try a handful of shapes", "anchors": ["tools/tools.go:Equals", "tools/tools.go:GetEqShapeErr"]}
{"id": "C60", "title": "Saving to a writer that fails", "statement": "If the writer stops accepting data after n bytes, Save returns an error exactly when the tensor needs more than n bytes, and what the writer received is exactly the first n bytes of the complete output.", "quantifier": "all tensors, all failure points", "why_tests_cant": "every failure point of every tensor", "anchors": ["tensor/tensor_mat.go:Save"]}
{"id": "C61", "title": "Predict composes the layers of any sequential model", "statement": "Predict on a compiled sequential model of any layers that fit together (Dense, Flatten, SoftMax, Norm, ENorm, SubTensor, Conv2D, Deconv2D, MaxPool2D, UpSampling2D in any order and number) returns a new tensor with the composition of the layers' functions under the current weights, leaves weights and all other tensors unchanged, and does return unless a layer divides integers or reduces over nothing.", "quantifier": "all lists of layers that fit together, all shapes, weights, inputs, histories of use", "why_tests_cant": "the number of architectures and shapes is unbounded; tests try a handful", "anchors": ["model/model.go:Predict", "model/model.go:Compile", "layer/dense.go:BuildFeedforward", "layer/conv2d.go:BuildFeedforward", "layer/flatten.go", "layer/softmax.go", "layer/norm.go", "layer/sub_tensor.go", "layer/max_pool_2d.go", "layer/up_sampling_2d.go", "layer/deconv2d.go"]}
{"id": "C62", "title": "Loading an image puts every pixel in the tensor", "statement": "LoadImage of a decoded image of width w and height h gives a new tensor of shape [4, w, h] whose element (c, x, y) is channel c (red, green, blue, alpha) of the pixel in column x and row y, counted from the corner of the image, divided by 65535 and converted to the element type.", "quantifier": "all decoded images: all sizes, bounds and pixel values; all element types", "why_tests_cant": "sizes, bounds and contents of images are unbounded", "anchors": ["img/image.go:LoadImage"]}
{"id": "C63", "title": "Image to tensor and back is lossless for float elements", "statement": "An image of 8-bit channels loaded with LoadImage into a tensor of float64 or float32 and converted back with ToImg is the same image. (For integer element types all levels but the highest become 0.)", "quantifier": "all sizes and all pixel values", "why_tests_cant": "depends on the rounding of n/65535*255 for every level, in a loop over images of any size", "anchors": ["img/image.go:LoadImage", "img/save.go:ToImg"]}
{"id": "C64", "title": "ToImg reads the four channels of every position", "statement": "ToImg of a tensor of shape [d, w, h] with d >= 4 gives an image of width w and height h in which channel c of pixel (x, y) is element (c, x, y) times 255 converted to a byte; it returns an error exactly for tensors that do not have three dimensions and for those that have pixels but fewer than four channels, and never panics.", "quantifier": "all tensors of all shapes", "why_tests_cant": "shapes and contents are unbounded", "anchors": ["img/save.go:ToImg"]}
{"id": "C65", "title": "Loading with scaling", "statement": "LoadSimpleScaled gives the same tensor as LoadImage followed by SimpleScale. LoadSmoothScaled succeeds for every target size; element (c, x, y) is the interpolation, rounded down to an integer channel value, of the colours at the four neighbours of the exact source position, up to rounding; neighbours outside the image count as whatever the image returns there. With the size of the image itself it gives what LoadImage gives.", "quantifier": "all decoded images that are not empty, all target sizes up to 2^52", "why_tests_cant": "all combinations of sizes; floating-point positions near pixel boundaries", "anchors": ["img/image.go:LoadSimpleScaled", "img/image.go:LoadSmoothScaled", "img/scale.go:SimpleScale"]}
{"id": "C66", "title": "A Flatten layer changes shapes only", "statement": "Putting a Flatten layer behind a layer whose output is already flat, or before a dense layer, changes neither what the model predicts nor what training does to the weights.", "quantifier": "all sequential models, weights, samples", "why_tests_cant": "all architectures and weights", "anchors": ["layer/flatten.go:BuildFeedforward", "layer/flatten.go:BuildBackpropagation", "layer/dense.go:BuildBackpropagation"]}
{"id": "C67", "title": "Every sequential model that can predict can be trained", "statement": "For every sequential model that compiles, CompileBackPropagation succeeds and TrainOne with an input and a target of the right shapes returns a loss.", "quantifier": "all sequential models, layer kinds, kernel sizes and strides", "why_tests_cant": "all architectures and sizes", "anchors": ["layer/conv2d.go:BuildBackpropagation", "model/model.go:CompileBackPropagation", "model/model.go:TrainOne"]}
{"id": "C68", "title": "One training step of a model with layers of any kind", "statement": "For a sequential model of dense, convolution, deconvolution, pooling, up-sampling, flatten, sub-tensor, normalisation and soft-max layers, TrainOne with a sample of the right shapes returns the sum of the distances between target and prediction and gives the weights and biases new values which depend only on the old ones, the sample, the rates, the trainable marks and the last changes of the biases of convolutions: the errors at the output are target minus prediction, they are passed back layer by layer with the old weights, and each trainable layer adds its step. A sample of wrong shapes is rejected and changes nothing. Train does this for each sample it draws, up to the first one of a wrong shape. Predictions in between use the current weights.", "quantifier": "all lists of layers and shapes that fit, with square kernels and equal strides in convolutions; all weights, samples and rates; all histories of uses and trainings before", "why_tests_cant": "all architectures, sizes, weights and call histories; scratch cells of one step must not leak into the next", "anchors": ["model/model.go:TrainOne", "model/model.go:Train", "model/model.go:CompileBackPropagation", "layer/conv2d.go:BuildBackpropagation", "layer/deconv2d.go:BuildBackpropagation", "layer/flatten.go:BuildBackpropagation", "layer/norm.go:BuildBackpropagation", "layer/max_pool_2d.go:BuildBackpropagation", "layer/up_sampling_2d.go:BuildBackpropagation", "layer/sub_tensor.go:BuildBackpropagation", "layer/softmax.go:BuildBackpropagation"]}
{"id": "C69", "title": "Training is gradient descent on the squared error, for layers of any kind", "statement": "For a sequential model of layers of any kind whose last activation is linear, TrainOne adds to every weight and bias of every trainable layer minus the learning rate times the partial derivative, with respect to it, of half the squared distance between target and prediction (plus the momentum term).", "quantifier": "all lists of layers and shapes that can be trained, all weights, samples and rates at which the derivative exists, all histories of uses and trainings before", "why_tests_cant": "derivatives of arbitrary compositions over all real weights and inputs", "anchors": ["model/model.go:TrainOne", "layer/dense.go:BuildBackpropagation", "layer/conv2d.go:BuildBackpropagation", "layer/deconv2d.go:BuildBackpropagation", "layer/max_pool_2d.go:BuildBackpropagation", "layer/up_sampling_2d.go:BuildBackpropagation", "layer/sub_tensor.go:BuildBackpropagation", "layer/flatten.go:BuildBackpropagation", "layer/norm.go:BuildBackpropagation", "layer/softmax.go:BuildBackpropagation"]}
{"id": "C70", "title": "With a sigmoid at the end, training is gradient descent on the cross-entropy", "statement": "For a sequential model of dense, convolution, deconvolution, max-pooling, up-sampling, sub-tensor and flatten layers whose last activation is the sigmoid, TrainOne moves every weight and bias of every trainable layer along the gradient of the binary cross-entropy between target and prediction: by minus the learning rate times the partial derivative, divided by a positive constant of the architecture that is 1 without Flatten layers (plus the momentum term for biases of convolutions).", "quantifier": "all lists of such layers and shapes that can be trained, all weights, samples and rates at which the derivative exists, all histories of uses and trainings before", "why_tests_cant": "derivatives of arbitrary compositions over all real weights and inputs", "anchors": ["model/model.go:TrainOne", "activation/sigmoid.go", "layer/dense.go:BuildBackpropagation", "layer/conv2d.go:BuildBackpropagation"]}
{"id": "C71", "title": "A small enough training step makes the error of the sample smaller", "statement": "For a sequential model of dense, convolution, deconvolution, max-pooling, up-sampling, sub-tensor and flatten layers (from the first layer with weights that learns), whose last activation is linear (or the sigmoid), training with one sample without momentum and with any learning rate that is small enough makes the squared distance (or the cross-entropy) between target and prediction for this sample strictly smaller, or changes no weight at all.", "quantifier": "all such models, weights, samples at which the layers have derivatives, choices of trainable layers, and all histories of uses and trainings before", "why_tests_cant": "existence of a bound on the rate for every model and sample", "anchors": ["model/model.go:TrainOne", "model/model.go:SetTrainable", "layer/dense.go:BuildBackpropagation", "layer/conv2d.go:BuildBackpropagation"]}
{"id": "C72", "title": "FromModels composes models", "statement": "The model that FromModels makes of models m1, ..., mk predicts mk(...m2(m1(x))) for every input x, where each mi(y) is what mi predicts with its weights. The same holds after any number of predictions.", "quantifier": "all lists of sequential models with layers of any kinds and shapes that fit, all weights, all inputs, models used before or not", "why_tests_cant": "it ranges over all models, weights and inputs, and over what was done with the models before they were joined", "anchors": ["model/model.go: FromModels, Compile, CompileBackPropagation, Predict", "layer/input.go: GetInputs, GetOutputs, BuildFeedforward, Build"]}
{"id": "C73", "title": "Joined models can be trained separately", "statement": "After FromModels(g, d), training one of the models changes the weights of that model only, and trains it as if it had not been joined; training the joined model does not change models frozen with SetTrainable(false).", "quantifier": "all models joined, all training calls with any samples and rates", "why_tests_cant": "it ranges over all training histories of models that share layers and graphs", "anchors": ["model/model.go: FromModels, CompileBackPropagation, ExecFit", "layer/base.go: Fit", "docs/gan.md"]}
{"id": "C74", "title": "Half-precision arithmetic rounds once", "statement": "Add, Sub, Mul and Div of two finite half-precision scalars (and SelfAdd, SelfSub, SelfMul, SelfDiv) give the exact sum, difference, product or quotient rounded to half precision: nearest value, ties to even, infinity from 65520 on, the sign of the exact result, although the code computes in float32 and rounds again.", "quantifier": "all pairs of finite half-precision numbers (divisor not zero), all machines whose float32 operations round to nearest", "why_tests_cant": "2^32 pairs for each operation, each compared with all candidates, on any machine", "anchors": ["scalar/f16.go:Add, Sub, Mul, Div, SelfAdd, SelfSub, SelfMul, SelfDiv", "scalar/scalar.go:Scalar"]}
{"id": "C75", "title": "Cmp agrees with the order of the numbers", "statement": "For scalars of any precisions that are finite numbers, a.Cmp(b) is CmpL, CmpE or CmpG exactly when a is less than, equal to or greater than b.", "quantifier": "all pairs of scalars of the three precisions", "why_tests_cant": "up to 2^128 pairs", "anchors": ["scalar/f16.go:Cmp", "scalar/f32.go:Cmp", "scalar/f64.go:Cmp"]}
{"id": "C76", "title": "Half-precision results of wider operands are rounded once", "statement": "Setting a half-precision scalar from a float64, or combining it with a scalar of higher precision, gives the exact value rounded to half precision.", "quantifier": "all float64 values, all pairs of a half and a float32", "why_tests_cant": "2^64 values; the wrong ones are rare", "anchors": ["scalar/f16.go:F16fromF64, S64, Add"]}
{"id": "C77", "title": "Preparing a model for training does not change its predictions", "statement": "CompileBackPropagation, whether it succeeds or returns an error, changes no element of any tensor and no weight; later predictions are the network function of the current weights, as if it had not been called.", "quantifier": "all sequential models of layers of any kinds, all states of the model, all later uses and inputs", "why_tests_cant": "unbounded models, states and inputs; the failing runs stop at any layer, with part of the training graph built", "anchors": ["model/model.go:CompileBackPropagation, Predict", "layer/*.go:BuildBackpropagation"]}
{"id": "C78", "title": "Models with branches compute the function of their graph of layers", "statement": "A model made with FromInOut from layers that form a graph (layers read by several others, Concat layers, layers that are not used) compiles, and after any sequence of uses Predict returns a new tensor holding what the graph of layers computes from the input and the current weights, changing no weight and no other tensor of the user; inputs of another shape are rejected and nothing changes.", "quantifier": "all graphs of layers of any kinds whose shapes fit, all output layers, all inputs, all weights, all histories of predictions, weight changes and work on other tensors", "why_tests_cant": "unboundedly many graphs; the compile-time traversal depends on how often each layer is shared and in which order it is reached", "anchors": ["layer/concat.go:NewConcat, Build, BuildFeedforward", "model/model.go:FromInOut, Compile, Predict", "layer/base.go:AddRef"]}
{"id": "C79", "title": "The elements of a random tensor lie in the range asked for", "statement": "NewRand(min, max, shape) returns a new tensor of that shape, and every element lies in [min, max], although subtracting, scaling and shifting the draw round; max itself can be returned.", "quantifier": "all draws, all ranges with min <= max whose ends are numbers of the element type (float64, float32, integers), all shapes", "why_tests_cant": "a draw next to 1 has probability 2^-53; the ends of the range and the rounding of each step vary independently", "anchors": ["tensor/constructor.go:NewRand"]}
{"id": "C80", "title": "Distant is a distance", "statement": "Distant returns an error exactly if the lengths differ; otherwise the result does not depend on the order of the arguments, is zero exactly if they are equal, and satisfies the triangle inequality.", "quantifier": "all pairs and triples of slices, all element types", "why_tests_cant": "unboundedly many lengths and values; sums of squares wrap around only for large differences", "anchors": ["tools/tools.go:Distant"]}
{"id": "C81", "title": "The text of a tensor determines its shape and elements", "statement": "Two tensors with the same String() have the same shape, the same number of elements, and elements that print the same way, position by position; different shapes have different ShapeStr.", "quantifier": "all tensors and shapes, all element types whose numbers print without comma and bracket", "why_tests_cant": "injectivity over all pairs of tensors", "anchors": ["tools/tools.go:ShapeStr", "tensor/tensor_mat.go:String"]}
{"id": "C82", "title": "A random scalar is drawn from the range asked for", "statement": "ScalarRand(min, max) returns a number in [min, max], and not always the same one.", "quantifier": "all draws, all ranges, all element types", "why_tests_cant": "draws next to 1 are too rare to be observed; all ranges", "anchors": ["number/constructors.go:ScalarRand"]}
{"id": "C83", "title": "A program of tensor functions computes what its calls mean", "statement": "Take data tensors and call Add, Sub, Mul, Div, AddScalar, …, Neg, Abs, Activate, SoftMax, Sum, Avg, Max, Min, DSum, …, Dot, DotAt, Concat, SubTensor, SubExtendedTensor, Reshape and Transpose on them and on each other's results, in any order and any number, reusing results freely. No call fails or changes an element. If the shapes a result depends on fit (and no reduction is over zero elements, and no padded range crosses the end of its tensor), NewGraph of that result succeeds, its shape is the one the calls define, and every successful Exec – after any change to the elements of the data tensors – leaves in it exactly the value the calls define for the elements at that time. Exec succeeds if the element type's division cannot abort.", "quantifier": "all lists of calls, all data tensors and shapes, all contents at each execution, all element types", "why_tests_cant": "Programs of calls are unboundedly many and share sub-expressions in arbitrary ways; tests use short fixed expressions.", "anchors": ["tensor/math.go", "tensor/oper2.go", "tensor/dot_product.go:Dot", "tensor/dot_product.go:DotAt", "tensor/concat.go:Concat", "tensor/sub_tensor.go:SubTensor", "tensor/sub_tensor.go:SubExtendedTensor", "tensor/reshape.go:Reshape", "tensor/transpose.go:Transpose", "graph/graph.go:NewGraph", "graph/graph.go:Exec"]}
{"id": "C84", "title": "Flatten gives the elements as a vector", "statement": "Flatten(t) is a vector holding all elements of t in order. This holds for data tensors. It is false of a tensor that another function of the package made and that no graph has evaluated yet: Flatten asks for its size when it is called, gets 0, and the result is an empty tensor of shape [0], without any error.", "quantifier": "all data tensors of all shapes and contents; all programs of calls that make an unevaluated tensor", "why_tests_cant": "Whether Flatten works depends on the history of the tensor, not on its shape or value; each test fixes one history.", "anchors": ["tensor/reshape.go:Flatten", "tensor/reshape.go:BuildGraph", "tensor/tensor_mat.go:GetSize"]}
{"id": "C85", "title": "The text of a model lists every layer once, in order", "statement": "String() of a model returns a header, one line for each layer of the model in the order of the data flow (index, index of the layers it reads, name of its kind, shape of its output) and a footer; it changes nothing, and the text determines the number of layers, their names and their output shapes. This holds for sequential models after Compile, at any later time. It is false in general: of a model that is not compiled, String panics; in a model with branches a layer is listed once for every path from it to the output, so that k layers can take 2^k - 1 lines. Layers made by NewDeconv2D and NewUpSampling2D are listed with the names of convolution and max pooling layers.", "quantifier": "all lists of layers of all kinds that fit together and all later states (predictions, training, saving, loading, new weights); all graphs of layers", "why_tests_cant": "The text depends on the whole structure of the model; the repetition of lines grows with the number of paths, which no fixed model shows.", "anchors": ["model/model.go:String", "model/model_layer.go:PushToString", "layer/base.go:PushToString", "layer/base.go:ResetPrinted", "layer/concat.go:PushToString", "tools/tools.go:ShapeStr"]}
{"id": "C86", "title": "A model made of blocks behaves as the model of the same layers", "statement": "Models can be pushed to models as if they were layers. Take a model made of an input layer, other layers and blocks (models, with or without an input layer of their own), to any depth. It behaves exactly as the model to which the same layers are pushed one by one, in the same order: every later sequence of calls of Compile, CompileBackPropagation, Predict, ResetIS, TrainOne, Train, String, Save, Load, ResetSave, ResetLoad and SetTrainable has the same results, errors and panics and leaves the same weights. False of SetTrainable: the loop in Model.SetTrainable stops before the first layer of a model because it takes it for an input layer, also in blocks. So the first layer of each block (the whole of a block that comes first in a block) is not reached, and goes on learning after the model has been frozen.", "quantifier": "all trees of blocks and layers of all kinds, all sequences of calls with all arguments and all changes to tensors between them", "why_tests_cant": "Nesting has no bound, and equality of behaviour is about all sequences of calls; a test compares one tree on one sequence.", "anchors": ["model/model.go:Push", "model/model_layer.go", "model/model_layer.go:SetTrainable", "model/model_layer.go:Connect", "layer/base.go:Connect", "layer/base.go:GetPrelayer"]}
{"id": "C87", "title": "Input layers behind other layers do nothing", "statement": "A block may have an input layer of its own, for example because it is also used alone. When it is pushed behind other layers, its input layer (and any other input layer that is pushed behind other layers, whatever its shape) has no effect: the model compiles, predicts and trains as it would without it. False of training: the input layer counts as one more layer that uses the output of the layer in front of it, and the gradient is divided by this count. So all layers in front of the input layer learn at half the rate (in the proved example; more input layers divide further).", "quantifier": "all models of layers that fit together with any number of input layers of any shapes between them, all weights, all inputs, any later state", "why_tests_cant": "The claim is about all stacks of layers and all weights and inputs; a test runs one model on one input.", "anchors": ["layer/input.go:BuildFeedforward", "layer/input.go:GetOutputs", "layer/input.go:BuildBackpropagation", "layer/base.go:Build", "model/model_layer.go", "model/model.go:Push"]}
{"id": "C88", "title": "Only training and loading change weights", "statement": "In any program, no call changes the shape or the values of the weights and the bias of a layer, except a call of Train or TrainOne of a model of which the layer is a trainable layer (reached from the last layer over previous layers), and a call of Load of a model to which the layer belongs. This holds for calls that return errors too. So the weights of a layer that is not trainable stay the same for as long as it is not trainable and nothing is loaded, whatever models share the layer and however these are compiled again, joined, trained, saved and used; and training one model leaves layers of other models alone.", "quantifier": "all programs: sequences of any length of calls of the tensor, graph, layer and model packages in any order, with any tensors, layers, models and scalars that earlier calls returned, with all arguments; all random numbers", "why_tests_cant": "It ranges over all histories of calls; a write through memory that is shared by mistake shows only after a particular sequence of calls.", "anchors": ["model/model.go", "layer/base.go:Fit", "layer/dense.go", "layer/conv2d.go", "layer/deconv2d.go", "tensor/copy.go", "tensor/tensor_mat.go"]}
{"id": "C89", "title": "Weights share no memory", "statement": "In any state that a program can reach, no element of the weights or the bias of a layer is an element of a tensor that a call returned to the program, a scalar that the program made or got as an element of a tensor, an element of the weights or the bias of another layer, or an element of the inputs, outputs, error terms or targets of any layer or model. The elements of the weights and the bias of a layer are all different, and as many as the shapes say. So assignments to tensors never reach weights, and no two layers are tied.", "quantifier": "all states reached by all programs (as in C88)", "why_tests_cant": "Aliasing arises from the order in which layers are built, connected and compiled; tests see only the orders they try.", "anchors": ["layer/dense.go:BuildFeedforward", "layer/conv2d.go:BuildFeedforward", "layer/deconv2d.go:BuildFeedforward", "tensor/reshape.go", "tensor/transpose.go", "tensor/concat.go", "tensor/sub_tensor.go", "model/model.go:Predict"]}
{"id": "C90", "title": "Tensors that a program holds change only when it assigns to them", "statement": "A tensor that a call returned with elements of its own (zeros, ones, given values, random values, a copy, a prediction, or the result of a method that computes at once other than Concat and Reshape) keeps its shape and its values for as long as the program does not assign to an element of it with Set, LoadData, LoadFromTensor, Fill, FillData or Load, on it or on a tensor that has one of its elements, or through the element itself, or makes with FillWith or CopyTo a tensor that assigns to it, to a tensor that has one of its elements, or to a tensor that is not a data tensor. No prediction, compilation, training (also with this tensor as an input or a target), evaluation of graphs, loading or joining of models changes it. In particular a prediction is not overwritten by the next one.", "quantifier": "all programs (as in C88), all points at which the tensor is made, all later histories", "why_tests_cant": "The claim is about all later histories of calls, not about the next call.", "anchors": ["model/model.go:Predict", "tensor/tensor_mat.go:Copy", "tensor/tensor_mat.go:LoadFromTensor", "tensor/constructor.go", "graph/graph.go:Exec"]}
{"id": "C91", "title": "Models that share no layers do not influence each other", "statement": "Let several parts of a program make calls in turns; they exchange tensors and numbers, but each has layers and models of its own. Whatever the other parts do (build, compile, train, predict, save, load, join and reset their models, compute with tensors, assign to tensors, also when their calls return errors), the layers, the models and the weights of a part stay as they are. A compiled model of the part then predicts for an input exactly what it would have predicted before, with the same elements, the same error or the same panic. A model of the part that is compiled for training, trained with TrainOne or Train on equal inputs and targets, gives the same loss and the same weights as it would have given before.", "quantifier": "all programs of any number of parts, all histories of calls (alphabet as in C88) in any interleaving, all random numbers, all inputs, targets, learning rates, numbers of epochs and batches and choices of samples", "why_tests_cant": "Interference through shared memory or global state shows only for particular interleavings of calls; the claim is about all of them.", "anchors": ["model/model.go:Predict", "model/model.go:TrainOne", "model/model.go:Train", "model/model.go:Compile", "layer/base.go", "context/context.go", "graph/graph.go"]}
{"id": "C92", "title": "Layers start with random numbers, each tensor with its own", "statement": "As long as no call trains or loads a layer, each of its weights and bias tensors holds the numbers that one draw of a random tensor (NewNormRand) gave, one for each element of its shape, whatever other calls the program makes and wherever in a program the layer gets its weights (Compile, the first Predict or the first training of a model that it is in). No draw is used for two tensors: neither the weights and the bias of one layer nor tensors of two layers start from the same draw. So with draws that differ no two tensors of weights or biases are equal before training.", "quantifier": "all histories of calls (alphabet as in C88) that do not train or load the layers spoken of, all layer kinds and connections, all random numbers", "why_tests_cant": "The values after one Compile show nothing about layers that get weights in other models, after other calls or in another order; and a test cannot tell from a sample of random numbers that no draw is used twice.", "anchors": ["layer/dense.go:BuildFeedforward", "layer/conv2d.go:BuildFeedforward", "layer/deconv2d.go:BuildFeedforward", "tensor/constructor.go:NewNormRand", "model/model.go:Compile"]}
{"id": "C93", "title": "Training with rate zero changes no weights", "statement": "If arithmetic is exact at zero (x + 0 = x, 0 * x = x * 0 = 0), TrainOne and Train with rate zero leave every weight and bias of the model as it is, whatever samples, numbers of epochs and batches they get and whatever training was done before, if the momentum is zero too or no layer of the model is a convolution or deconvolution. TrainOne still returns the loss of the sample.", "quantifier": "all sequential models whose layers fit, all earlier uses and trainings, all samples, epochs, batches and orders of samples, all element types with these laws", "why_tests_cant": "A test shows it for one model, one history and one sample; a remembered change of an earlier training that leaks into the next one shows only after particular histories.", "anchors": ["model/model.go:Train", "model/model.go:TrainOne", "layer/dense.go:BuildBackpropagation", "layer/conv2d.go:BuildBackpropagation", "layer/deconv2d.go:BuildBackpropagation"]}
{"id": "C94", "title": "Using models does not change how they are made", "statement": "No call but Connect, Push, FromModels and SetTrainable changes to which layer a layer is connected, whether it is trainable, or which layers are the first and the last of a model. No call at all changes the kind of a layer or the numbers it was made with (units, sizes of kernels, dimensions). Compiling, predicting, training, saving, loading (also when they return an error), making other layers and models, and everything done with tensors leave that as it is.", "quantifier": "all histories of calls (alphabet as in C88), all layers and models the program has", "why_tests_cant": "it ranges over all histories and over layers that are shared by any number of models", "anchors": ["layer/base.go:Connect", "layer/base.go:SetTrainable", "model/model.go:Push", "model/model.go:FromModels", "model/model.go:Compile", "model/model.go:Train"]}
{"id": "C95", "title": "The shape of a tensor does not change", "statement": "A tensor that a constructor, Copy, Predict or a method that computes at once returned keeps its shape, its number of elements and its element objects, whatever calls follow (also calls that assign to it, use it as an input or a target, or fail). Calls can change the values of its elements only.", "quantifier": "all histories of calls (alphabet as in C88), all tensors so made", "why_tests_cant": "it ranges over all histories; tensors are handed to graphs and models that keep references to them", "anchors": ["tensor/constructor.go:NewZeros", "tensor/constructor.go:NewFromValues", "tensor/tensor_mat.go:LoadData", "model/model.go:Predict", "tensor/reshape.go:Reshape"]}
