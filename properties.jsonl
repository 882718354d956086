{"id": "C01", "title": "Tensor layout is dense row-major", "statement": "For every shape without negative dimensions whose element count fits in an int, Tensor(shape) reports that shape, total() equal to the product of the dimensions, strides()[k] equal to the product of the dimensions after k, and the map from in-range multi-indices to sum(idx[k]*strides()[k]) is a bijection onto [0,total()).", "quantifier": "all shapes of any rank and any non-negative dimensions; all multi-indices", "why_tests_cant": "tests check a handful of shapes of rank <= 4; bijectivity is a statement about every index of every shape", "anchors": ["src/runtime/tensor.cpp: calculateStrides, Tensor::init, Tensor::allocate, total, strides, shape"]}
{"id": "C02", "title": "Dynamic shapes are rejected without side effects", "statement": "Tensor(shape) and allocate(shape) throw if and only if some dimension is negative (element count assumed representable), and when allocate throws, the tensor and every other tensor's shape, strides, total and data are exactly what they were.", "quantifier": "all shapes, all tensors, all prior histories of tensor calls", "why_tests_cant": "strong exception safety must hold from every reachable prior state, not just a freshly built tensor", "anchors": ["src/runtime/tensor.cpp: Tensor::init, Tensor::allocate"]}
{"id": "C03", "title": "copyTo copies exactly, or throws and changes nothing", "statement": "a.copyTo(b) throws exactly when shape or strides differ or b is empty, and then changes nothing; otherwise, for non-overlapping storage, afterwards b's elements equal a's elements, and no element outside b's buffer changes.", "quantifier": "all pairs of tensors in all reachable heaps", "why_tests_cant": "frame condition ranges over all other memory; tests compare one pair", "anchors": ["src/runtime/tensor.cpp: Tensor::copyTo"]}
{"id": "C04", "title": "reshape keeps the elements and refuses a different element count", "statement": "t.reshape(s) throws iff the product of s differs from total(), otherwise t reports shape s with matching row-major strides, the same data pointer, the same total, and no element changes; after a successful reshape every dimension is non-negative.", "quantifier": "all tensors and all target shapes", "why_tests_cant": "the set of shapes with a given product is unbounded and includes shapes with negative dimensions, which no test tries", "anchors": ["src/runtime/tensor.cpp: Tensor::reshape"]}
{"id": "C05", "title": "Tensor API histories are memory safe", "statement": "For every sequence of tensor API calls (construct, allocate, reshape, copyTo, fill, element read or write below total()) that passes no raw pointers, no call reads or writes outside a live buffer.", "quantifier": "all finite sequences of tensor operations", "why_tests_cant": "unbounded histories", "anchors": ["src/runtime/tensor.cpp", "src/initializers.cpp: zeros, constant"]}
{"id": "C06", "title": "Independently allocated tensors never alias; views alias exactly", "statement": "Writing any element of one tensor never changes an element of a tensor that was allocated separately; a copy of a tensor object shares elements with the original; a tensor made over a pointer into another tensor reads and writes exactly the addressed sub-range of it, and becomes invalid when the owner is reallocated.", "quantifier": "all reachable heaps, all pairs of tensors, all element indices", "why_tests_cant": "aliasing claims quantify over pairs in all heaps", "anchors": ["src/runtime/tensor.cpp: Tensor(const Shape&, float*), allocate", "include/deepworks/tensor.hpp: m_descriptor"]}
{"id": "C07", "title": "Initializers fill every element and nothing else", "statement": "zeros/constant set every element of the tensor to 0/value; uniform(lower,upper) leaves every element in [lower,upper); xavierUniform leaves every element in [-a,a) with a = sqrt(6)/(inp+out), where (inp,out) is (shape[0],shape[1]) for rank 2 and (total/shape[0],shape[0]) otherwise; nothing outside the tensor changes.", "quantifier": "all tensors, all generator outputs", "why_tests_cant": "must hold for every draw of the random generator and every tensor size", "anchors": ["src/initializers.cpp"]}
{"id": "C08", "title": "Convolution/MaxPooling output shape counts the window positions", "statement": "For a 4-D input and positive stride, the output height (width) of Convolution and MaxPooling is the number of window positions start = 0, stride, 2*stride, ... for which the whole kernel fits inside the zero-padded input, and batch/channel dimensions are input batch and (out_channels | input channels).", "quantifier": "all input sizes, kernels, paddings, strides", "why_tests_cant": "integer-division corner cases (kernel larger than padded input) are an infinite family", "anchors": ["src/expression/nn.cpp: Convolution::outShape, MaxPooling::outShape"]}
{"id": "C09", "title": "Shape-incompatible layer applications are rejected by an exception", "statement": "Applying a layer to a placeholder whose rank it does not support throws a DeepWorks exception, never undefined behaviour; applying it to a supported rank yields the documented output shape (ReLU, Softmax, BatchNorm1D, ELU, LeakyReLU, Sigmoid, Dropout: unchanged; Linear: {N, units}; GlobalAvgPooling: {N,C,1,1}; BatchNorm2D: unchanged; Add: the common shape, throws when they differ).", "quantifier": "all layer kinds, all attribute values, all input shapes", "why_tests_cant": "shape space is unbounded, order of init() and outShape() matters", "anchors": ["src/expression/nn.cpp: *::outShape, *::init", "include/deepworks/base_op.hpp: operator()"]}
{"id": "C10", "title": "make_layer rebuilds any layer from its type, name and attributes", "statement": "For every layer constructed through the public constructors, make_layer(type, name, attributes, inputs) yields a placeholder with the same shape and a layer with the same type, name, attributes, parameter names and parameter shapes; an unknown type throws.", "quantifier": "all 13 layer kinds, all attribute values, all inputs", "why_tests_cant": "round trip over unbounded attribute values", "anchors": ["src/expression/nn.cpp: make_layer, make_typed_layer, get_in"]}
{"id": "C11", "title": "A model contains exactly the layers its outputs depend on", "statement": "Model(ins, outs) terminates, and layers() holds exactly one layer for every layer application from which some output is computed, and nothing else.", "quantifier": "all expression graphs (any DAG built with the API), all choices of ins and outs", "why_tests_cant": "all DAGs; tests use four fixed networks", "anchors": ["src/model/graphbuilder.cpp: unroll, build", "src/model/model.cpp: Model::Impl::Impl"]}
{"id": "C12", "title": "Layers are listed in dependency order", "statement": "In layers() and cfg().sorted_ops every layer comes after all the layers whose outputs it consumes, and data ids are 0..n-1 without gaps or repeats, smaller for earlier data.", "quantifier": "all expression graphs and every valid topological order the sorter may choose", "why_tests_cant": "all DAGs and all sort orders", "anchors": ["src/model/model.cpp: initNodeId, createConfig, Model::Impl::Impl"]}
{"id": "C13", "title": "Each layer is wired to exactly its arguments", "statement": "For every layer of a model, inputs() (and cfg().sorted_ops[i].in_ids) are exactly the placeholders it was applied to, in argument order, and outputs() (out_ids) is exactly the one placeholder it produced - regardless of how often a placeholder is used, in which argument position, and in which order the outputs are given.", "quantifier": "all expression graphs", "why_tests_cant": "depends on DFS order over arbitrary DAGs with shared sub-expressions; no unit test shares an intermediate tensor in the failing order", "anchors": ["src/model/graphbuilder.cpp: unroll (reached_data), build", "src/model/model.cpp: initNodeId"]}
{"id": "C14", "title": "Layer names are unique or construction fails", "statement": "Model construction throws iff two of its layers end up with the same name; in a constructed model getLayer(name) returns the unique layer with that name for each layer, and throws for every other name.", "quantifier": "all expression graphs and all name assignments", "why_tests_cant": "all name assignments", "anchors": ["src/model/model.cpp: checkNamesAreUnique, getLayer"]}
{"id": "C15", "title": "Generated names never collide with each other", "statement": "Layers left unnamed receive names lower(type)+index, and two generated names in one model are never equal, whatever the layer types and however many layers there are.", "quantifier": "all models of any size", "why_tests_cant": "string concatenation with decimal numerals: needs injectivity for all indices", "anchors": ["src/model/model.cpp: initNodeId"]}
{"id": "C16", "title": "Model params() and state() hold every parameter and buffer exactly once", "statement": "For every constructed model, params() has precisely one entry layer.name+\".\"+param name for each parameter of each layer, state() precisely those plus one entry per buffer, each bound to that layer's own tensor; distinct (layer, tensor) pairs never share a key.", "quantifier": "all models, all user-chosen layer names (including names with dots)", "why_tests_cant": "key injectivity over arbitrary strings", "anchors": ["src/model/model.cpp: Model::Impl::Impl"]}
{"id": "C17", "title": "Applying one layer object twice inside a model is rejected", "statement": "If two distinct applications of the same layer object are both part of a model, construction throws, whether or not the layer was given a name.", "quantifier": "all expression graphs", "why_tests_cant": "depends on shared LayerInfo and name generation order over all graphs", "anchors": ["include/deepworks/base_op.hpp: operator()", "src/model/model.cpp: initNodeId, checkNamesAreUnique"]}
{"id": "C18", "title": "train(mode) sets exactly the trainable flags", "statement": "After model.train(m), is_trainable() of every parameter of the model equals m; data, gradients, buffers and parameters of other models are unchanged; the last call wins.", "quantifier": "all models, all sequences of train calls", "why_tests_cant": "all histories", "anchors": ["src/model/model.cpp: Model::train", "src/model/parameter.cpp"]}
{"id": "C19", "title": "forward evaluates the network", "statement": "After compile(), for every input, forward(inputs, outputs) leaves in each output tensor the value of the expression graph evaluated at the inputs, where every layer is applied once to the values of its argument placeholders; inputs are not modified (tensors pairwise non-aliasing).", "quantifier": "all wired expression graphs, all layer semantics, all inputs, all topological orders", "why_tests_cant": "all DAGs and all inputs", "anchors": ["src/runtime/cpu/cpubackend.cpp: CPUBackend::forward, bind"]}
{"id": "C20", "title": "forward is repeatable and needs compile", "statement": "For stateless layers the outputs of forward depend only on the inputs and parameters, not on earlier forward/backward calls or previous contents of the outputs; forward/backward before compile() throws and changes nothing.", "quantifier": "all call histories", "why_tests_cant": "unbounded histories of calls", "anchors": ["src/model/model.cpp: forward, backward, compile", "src/runtime/cpu/cpubackend.cpp"]}
{"id": "C21", "title": "backward sums the contributions of all consumers", "statement": "After backward, the gradient of every non-output placeholder is the sum over all its uses (layer, argument position) of that layer's input gradient computed from the complete gradient of the layer's output; no contribution is lost, duplicated, or computed from an incomplete gradient.", "quantifier": "all wired DAGs with arbitrary sharing, all gradients", "why_tests_cant": "ordering property over all DAGs", "anchors": ["src/runtime/cpu/cpubackend.cpp: CPUBackend::backward", "src/runtime/cpu/kernels/kernels.cpp: *InputGrad (+=)", "src/runtime/cpu/layers/cpubatchnorm2d.cpp: backward"]}
{"id": "C22", "title": "Parameter gradients after backward belong to that call only", "statement": "After backward, grad() of each Linear/Convolution/BatchNorm parameter is the gradient of the last forward/backward pair alone: it does not depend on previous contents of grad(), and running backward again with the same arguments gives the same gradients.", "quantifier": "all call histories, all prior gradient contents", "why_tests_cant": "histories; documentation/parameter.md claims the opposite (accumulation)", "anchors": ["src/runtime/cpu/cpubackend.cpp: backward", "src/runtime/cpu/layers/*: updateGradients"]}
{"id": "C23", "title": "backward computes the derivative of the network", "statement": "In exact arithmetic, for a network of layers whose forward functions are differentiable at the current values, the gradient left for each placeholder is the derivative of <grad_output, output> with respect to that placeholder (reverse-mode chain rule over the DAG).", "quantifier": "all wired DAGs, all differentiable layers, all inputs", "why_tests_cant": "derivative of arbitrary DAG compositions", "anchors": ["src/runtime/cpu/cpubackend.cpp: backward"]}
{"id": "C24", "title": "Linear forward is x W^T + b", "statement": "For every batch size, feature count and units, output[n][u] = sum_k input[n][k]*weight[u][k] + bias[u] where the input is flattened to {N, product of remaining dimensions}.", "quantifier": "all sizes and values (exact arithmetic)", "why_tests_cant": "all sizes", "anchors": ["src/runtime/cpu/kernels/kernels.cpp: CPULinearForward, CPULinearAddBias", "src/runtime/cpu/layers/cpulinear.cpp"]}
{"id": "C25", "title": "Linear gradients are the true derivatives", "statement": "The input gradient added, the weight gradient and the bias gradient written are the partial derivatives of <grad_output, output> with respect to input, weight, bias.", "quantifier": "all sizes and values", "why_tests_cant": "derivative identities for all dimensions", "anchors": ["src/runtime/cpu/kernels/kernels.cpp: CPULinearInputGrad, CPULinearWeightGrad, CPULinearBiasGrad"]}
{"id": "C26", "title": "Activation layers compute their documented functions", "statement": "Element-wise, ReLU(x)=max(0,x), LeakyReLU(x)=x if x>=0 else alpha*x, ELU(x)=x if x>=0 else alpha*(exp x - 1), Sigmoid(x)=1/(1+exp(-x)) in (0,1), at every element of every tensor.", "quantifier": "all reals, all sizes, all alpha", "why_tests_cant": "pointwise over all inputs incl. the kink", "anchors": ["src/runtime/cpu/kernels/kernels.cpp: CPUReLUForward, CPULeakyReLUForward, CPUELUForward, CPUSigmoidForward"]}
{"id": "C27", "title": "Activation gradients are the derivatives", "statement": "The amount added to grad_input[i] is grad_output[i]*f'(input[i]) at every point where f is differentiable (Sigmoid: from the stored output).", "quantifier": "all reals except kinks, all sizes", "why_tests_cant": "derivatives at every point", "anchors": ["src/runtime/cpu/kernels/kernels.cpp: CPUReLUInputGrad, CPULeakyReLUInputGrad, CPUELUInputGrad, CPUSigmoidInputGrad"]}
{"id": "C28", "title": "Softmax yields a probability vector per row", "statement": "Each output row equals exp(x_j)/sum_k exp(x_k), all entries are in (0,1], sum to 1, and adding a constant to a row does not change the result; exponent arguments never exceed 0.", "quantifier": "all batch sizes, all class counts >= 1, all real inputs", "why_tests_cant": "all inputs including huge ones", "anchors": ["src/runtime/cpu/kernels/kernels.cpp: CPUSoftmaxForward"]}
{"id": "C29", "title": "Softmax gradient is the Jacobian-transpose product", "statement": "The amount added to grad_input[i][j] is the partial derivative of <grad_output, softmax(x)> with respect to x[i][j].", "quantifier": "all sizes and reals", "why_tests_cant": "derivative identity", "anchors": ["src/runtime/cpu/kernels/kernels.cpp: CPUSoftmaxInputGrad"]}
{"id": "C30", "title": "im2col reads and writes in bounds and places every element", "statement": "For every image, kernel, padding >= 0, stride > 0 with the output size computed by the layer non-negative, im2col writes exactly rows*cols consecutive elements of the buffer, never reads outside the image, and element ((c*KH+kh)*KW+kw, r*Wout+q) is image[c][r*sh+kh-ph][q*sw+kw-pw] if that is inside and the fill value otherwise.", "quantifier": "all sizes, strides, paddings, dilations", "why_tests_cant": "pointer arithmetic over all geometries", "anchors": ["src/runtime/cpu/kernels/kernels.cpp: im2col"]}
{"id": "C31", "title": "col2im is the adjoint of im2col", "statement": "col2im adds to image[c][y][x] the sum of all buffer elements that im2col would fill from that pixel, stays in bounds, and <im2col(a), b> = <a, col2im(b)> for zero fill.", "quantifier": "all sizes and values", "why_tests_cant": "sums over all geometries", "anchors": ["src/runtime/cpu/kernels/kernels.cpp: col2im"]}
{"id": "C32", "title": "Convolution forward is cross-correlation with zero padding", "statement": "output[n][o][r][q] = bias[o] + sum_{c,kh,kw} weight[o][c][kh][kw] * input[n][c][r*sh+kh-ph][q*sw+kw-pw], out-of-range input taken as 0.", "quantifier": "all sizes, kernels, paddings, strides, values", "why_tests_cant": "all geometries", "anchors": ["src/runtime/cpu/kernels/kernels.cpp: CPUConvolutionalForward", "src/runtime/cpu/layers/cpuconvolution.cpp"]}
{"id": "C33", "title": "Convolution gradients are the true derivatives", "statement": "The input gradient added, and the weight and bias gradients written, are the partial derivatives of <grad_output, output>.", "quantifier": "all geometries and values", "why_tests_cant": "all geometries", "anchors": ["src/runtime/cpu/kernels/kernels.cpp: CPUConvolutionalInputGrad, CPUConvolutionalWeightsGrad, CPUConvolutionalBiasGrad"]}
{"id": "C34", "title": "MaxPooling output is the maximum of the window", "statement": "output[n][c][r][q] is the maximum of the input elements inside the window (positions outside the image are ignored), for all real inputs.", "quantifier": "all geometries and all real inputs, including negative ones with padding", "why_tests_cant": "tests use uniform inputs in [0,1) only", "anchors": ["src/runtime/cpu/kernels/kernels.cpp: CPUMaxPoolingForward (fill numeric_limits<float>::min())"]}
{"id": "C35", "title": "MaxPooling gradient goes to the maximising element", "statement": "Each output gradient is added to exactly one input element, one that attains the window maximum; overlapping windows add up; other elements receive nothing.", "quantifier": "all geometries and inputs", "why_tests_cant": "all geometries", "anchors": ["src/runtime/cpu/kernels/kernels.cpp: CPUMaxPoolingInputGrad"]}
{"id": "C36", "title": "GlobalAvgPooling averages each plane and spreads the gradient evenly", "statement": "output[n][c] is the mean of the H*W plane; grad_input[n][c][h][w] receives grad_output[n][c]/(H*W), which is the derivative.", "quantifier": "all sizes and values", "why_tests_cant": "all sizes", "anchors": ["src/runtime/cpu/kernels/kernels.cpp: CPUGlobalAvgPoolingForward, CPUGlobalAvgPoolingInputGrad"]}
{"id": "C37", "title": "BatchNorm in training mode normalises the batch", "statement": "In training mode each column of the normalised input has mean 0 and mean square var/(var+eps), output = gamma*(x-mean)/sqrt(var+eps)+beta, and running_mean/running_var become alpha*old + (1-alpha)*batch statistic.", "quantifier": "all batch sizes >= 1, all values, eps > 0", "why_tests_cant": "all inputs", "anchors": ["src/runtime/cpu/kernels/kernels.cpp: CPUBatchNorm1DForward"]}
{"id": "C38", "title": "BatchNorm in evaluation mode is a fixed affine map", "statement": "With training off, output = gamma*(x-running_mean)/sqrt(running_var+eps)+beta, running statistics are unchanged, each sample's output is independent of the other samples of the batch.", "quantifier": "all inputs, all histories of training", "why_tests_cant": "independence over all batches", "anchors": ["src/runtime/cpu/kernels/kernels.cpp: CPUBatchNorm1DForward", "src/runtime/cpu/layers/cpubatchnorm1d.cpp: forward"]}
{"id": "C39", "title": "BatchNorm gradients are the true derivatives of training-mode forward", "statement": "Input, gamma and beta gradients are the partial derivatives of <grad_output, output> including the dependence of mean and variance on the input.", "quantifier": "all sizes, values, eps > 0", "why_tests_cant": "calculus identity over all dimensions", "anchors": ["src/runtime/cpu/kernels/kernels.cpp: CPUBatchNorm1DInputGrad, CPUBatchNorm1DParamGrad"]}
{"id": "C40", "title": "BatchNorm2D is BatchNorm1D per channel", "statement": "BatchNorm2D on {N,C,H,W} normalises each channel over all N*H*W positions, for every sequence of forward calls, including calls whose batch size differs from earlier calls, without out-of-bounds access.", "quantifier": "all sizes, all sequences of batch sizes", "why_tests_cant": "histories with changing batch sizes are not tested", "anchors": ["src/runtime/cpu/layers/cpubatchnorm2d.cpp: forward, backward, updateGradients"]}
{"id": "C41", "title": "Dropout scales in training, is the identity in evaluation, and its gradient matches", "statement": "In training mode output[i] = input[i]/(1-p) if mask[i] >= p else 0 with mask in [0,1); in evaluation output = input; the gradient added is grad_output[i] times the derivative of the output with respect to the input in the mode forward ran in.", "quantifier": "all masks the generator may produce, all inputs, 0 <= p < 1, both modes", "why_tests_cant": "must hold for every random mask; no test compares the gradient", "anchors": ["src/runtime/cpu/kernels/kernels.cpp: CPUDropoutForward, CPUDropoutInputGrad", "src/runtime/cpu/layers/cpudropout.cpp"]}
{"id": "C42", "title": "Add sums its inputs and passes the gradient to both, even when both are the same tensor", "statement": "output = lhs + rhs; each input's gradient receives the whole output gradient once per use, so Add(x,x) gives x twice the gradient.", "quantifier": "all sizes and values, aliased and distinct gradient buffers", "why_tests_cant": "aliasing case", "anchors": ["src/runtime/cpu/kernels/kernels.cpp: CPUAddForward", "src/runtime/cpu/layers/cpuadd.cpp"]}
{"id": "C43", "title": "Parallel loops give the sequential result under every schedule", "statement": "The OpenMP loops of convolution forward, convolution input gradient and Add backward produce the sequential result for every assignment of iterations to threads and every interleaving of their memory accesses.", "quantifier": "all thread counts, all schedules, all interleavings", "why_tests_cant": "schedules cannot be enumerated by tests", "anchors": ["src/runtime/cpu/kernels/kernels.cpp: #pragma omp parallel for", "src/runtime/cpu/layers/cpuadd.cpp"]}
{"id": "C44", "title": "NCHW2NHWC and NHWC2NCHW are inverse permutations", "statement": "Each writes every element of its output exactly once within bounds, output[n][h][w][c] = input[n][c][h][w], and composing them in either order is the identity.", "quantifier": "all N,C,H,W and all contents", "why_tests_cant": "index arithmetic over all sizes", "anchors": ["src/runtime/cpu/kernels/kernels.cpp: NCHW2NHWC, NHWC2NCHW"]}
{"id": "C45", "title": "CrossEntropyLoss is the mean negative log-likelihood", "statement": "forward(predictions, target) = -(1/B) * sum_i log predictions[i][target[i]] for targets in [0, classes); it is >= 0 for probability rows; wrong ranks or sizes throw.", "quantifier": "all batch sizes >= 1, class counts, targets, predictions > 0", "why_tests_cant": "all sizes", "anchors": ["src/loss.cpp: CrossEntropyLoss::forward", "src/runtime/cpu/kernels/kernels.cpp: CPULog, CPUNLLLoss, MatchTargetTo1dMatrix"]}
{"id": "C46", "title": "CrossEntropyLoss::backward writes the gradient of the loss", "statement": "grad_output[i][j] = -1/(B*predictions[i][j]) if j = target[i] else 0, overwriting previous contents; it is the derivative of forward.", "quantifier": "all sizes, values, prior contents", "why_tests_cant": "all sizes", "anchors": ["src/loss.cpp: CrossEntropyLoss::backward"]}
{"id": "C47", "title": "CrossEntropyLoss never accesses memory outside its tensors", "statement": "For every target tensor of the right shape the loss either computes or throws; a class label outside [0, classes) does not lead to out-of-bounds access.", "quantifier": "all target values", "why_tests_cant": "labels range over all floats", "anchors": ["src/runtime/cpu/kernels/kernels.cpp: MatchTargetTo1dMatrix, CPUNLLLoss", "src/loss.cpp"]}
{"id": "C48", "title": "accuracy is the fraction of correct arg-max predictions", "statement": "accuracy(pred, true) is the number of rows whose first maximal column equals the label, divided by the row count, hence in [0,1]; it is 1 iff all rows match; invariant under strictly increasing transforms and under permuting the rows of both arguments together.", "quantifier": "all sizes >= 1, all values", "why_tests_cant": "all inputs", "anchors": ["src/metrics.cpp: accuracy"]}
{"id": "C49", "title": "accuracyOneHot agrees with accuracy on one-hot labels", "statement": "If y_true is the one-hot encoding of labels then accuracyOneHot(pred, y_true) = accuracy(pred, labels).", "quantifier": "all sizes, labels, predictions", "why_tests_cant": "all inputs", "anchors": ["src/metrics.cpp: accuracyOneHot"]}
{"id": "C50", "title": "SGD::step updates exactly the trainable parameters", "statement": "After step, every element of every trainable parameter is w - lr*g, everything else (frozen parameters, gradients, flags) is unchanged, independent of map iteration order; n steps with constant gradient give w - n*lr*g.", "quantifier": "all parameter maps, all values, all n, all iteration orders", "why_tests_cant": "unordered_map order and all histories", "anchors": ["src/optimizer.cpp: SGD::step"]}
{"id": "C51", "title": "SGDMomentum follows the velocity recurrence", "statement": "v_{t+1} = gamma*v_t + lr*g, w_{t+1} = w_t - v_{t+1} with v_0 = 0 per parameter; with gamma = 0 it equals SGD; velocities of frozen parameters do not change; a parameter added to the map after construction makes step throw.", "quantifier": "all histories of gradients and steps", "why_tests_cant": "unbounded histories", "anchors": ["src/optimizer.cpp: SGDMomentum"]}
{"id": "C52", "title": "Adam follows the bias-corrected recurrence", "statement": "m,v,t evolve by the documented recurrences, w -= lr*mhat/(sqrt(vhat)+eps); for a constant gradient g from t=0, mhat = g and vhat = g^2 at every step, and no step moves an element by more than lr.", "quantifier": "all histories, betas in [0,1), eps > 0", "why_tests_cant": "unbounded histories", "anchors": ["src/optimizer.cpp: Adam"]}
{"id": "C53", "title": "Learning-rate accessors round trip", "statement": "get_lr returns the constructor value or the last set_lr value, for every history of set_lr/step calls.", "quantifier": "all histories", "why_tests_cant": "histories", "anchors": ["src/optimizer.cpp: get_lr, set_lr"]}
{"id": "C54", "title": "State save/load round trip", "statement": "load_state applied to a dict with the same keys and shapes, on a file written by save_state, makes every tensor bit-identical to the saved one, whatever order the hash maps iterate in.", "quantifier": "all state dicts (any names, shapes, contents), all iteration orders", "why_tests_cant": "all dictionaries and orders", "anchors": ["src/serialization.cpp: save_state, load_state"]}
{"id": "C55", "title": "Config save/load round trip", "statement": "load_cfg on a file written by save_cfg returns an equal config (input ids, output ids, placeholder map, operations with names, types, attributes, ids).", "quantifier": "all configs with supported attributes, all iteration orders", "why_tests_cant": "all configs", "anchors": ["src/serialization.cpp: save_cfg, load_cfg, write_attribute, read_attribute"]}
{"id": "C56", "title": "Model save/load round trip", "statement": "load(save(m)) is a model with the same layers (names, types, attributes, wiring), the same inputs and outputs in the same order, and the same state contents.", "quantifier": "all models", "why_tests_cant": "all DAGs, multi-input and multi-output orders", "anchors": ["src/serialization.cpp: save, load", "src/model/model.cpp: Build, createConfig"]}
{"id": "C57", "title": "A file of the wrong kind is rejected", "statement": "load_state on a file written by save_cfg throws before changing any tensor, and load_cfg on a file written by save_state throws; load of a file that contains a config and a state reads the state from exactly where the config ends.", "quantifier": "all configs and state dicts", "why_tests_cant": "all contents", "anchors": ["src/serialization.cpp: SerializationKind, load, save"]}
{"id": "C58", "title": "load_state validates names and shapes and writes only inside the dict's tensors", "statement": "For every byte sequence whatsoever, load_state either succeeds or throws, writes only to elements of tensors in the dict, never changes shapes or keys; on the files it accepts every entry named an existing key with the same shape.", "quantifier": "all byte strings", "why_tests_cant": "all inputs (fuzzing only samples)", "anchors": ["src/serialization.cpp: load_state, read_sequence"]}
{"id": "C59", "title": "A truncated state file is not silently accepted", "statement": "If a file produced by save_state is cut off at any byte (crash during save), load_state throws.", "quantifier": "all state dicts, every crash point", "why_tests_cant": "every cut position of every file", "anchors": ["src/serialization.cpp: read_value, read_sequence, load_state (no stream state check)"]}
{"id": "C60", "title": "load_state is all-or-nothing", "statement": "If load_state throws, no tensor of the dict has been changed.", "quantifier": "all byte strings, all dicts", "why_tests_cant": "all inputs", "anchors": ["src/serialization.cpp: load_state"]}
{"id": "C61", "title": "Sequential DataLoader visits the dataset once per epoch in order", "statement": "With shuffle off and batch b >= 1 over n samples, successive pulls return batches of samples 0..b-1, b..2b-1, ..., floor(n/b) times true, then false once, then start over; the incomplete last batch is skipped.", "quantifier": "all n, b and all numbers of pulls", "why_tests_cant": "unbounded pull histories", "anchors": ["src/dataloader.cpp: DataLoader::pull, reset, seqIndices"]}
{"id": "C62", "title": "Shuffled batches contain distinct in-range samples; an epoch visits every sample at most once", "statement": "With shuffle on, every batch consists of b distinct indices in [0,n) and the number of batches per epoch is floor(n/b); no sample is returned twice within one epoch.", "quantifier": "all generator outputs, all n, b", "why_tests_cant": "all random draws", "anchors": ["src/dataloader.cpp: randomIndices, pull"]}
{"id": "C63", "title": "Batches are laid out sample by sample", "statement": "pull writes sample i of the batch to the i-th slice of X and y, the slices are disjoint, in bounds and cover the whole batch tensor; empty tensors are allocated to {b, sample shape...}; a tensor of another shape makes pull throw.", "quantifier": "all sample shapes, batch sizes, datasets", "why_tests_cant": "all shapes", "anchors": ["src/dataloader.cpp: makeShape, pull"]}
{"id": "C64", "title": "Every epoch ends", "statement": "For every dataset and batch size, repeatedly calling pull eventually returns false.", "quantifier": "all n and all batch sizes including 0", "why_tests_cant": "liveness over all configurations", "anchors": ["src/dataloader.cpp: pull"]}
{"id": "C65", "title": "ReadImage dispatches on the extension only", "statement": "ReadImage decodes as PNG iff the text after the last '.' (whole path if none) is png, as JPEG iff it is jpg or jpeg, and throws otherwise; for every path.", "quantifier": "all path strings", "why_tests_cant": "all strings", "anchors": ["src/io/image_reader.cpp: IsPngFile, IsJpegFile, ReadImage"]}
{"id": "C66", "title": "ReadImage stores pixels densely in HWC order or throws", "statement": "An empty tensor becomes {height,width,channels}; a non-empty one must have height*width*channels elements or the call throws; afterwards element (y,x,c) is the decoded byte, every element is written exactly once, no write is out of bounds; a missing file makes the call throw.", "quantifier": "all image sizes, all decoders' outputs", "why_tests_cant": "all sizes; missing-file path", "anchors": ["src/io/image_reader.cpp: ReadJpegFile, ReadPngFile"]}
{"id": "C67", "title": "Printing a shape is unambiguous", "statement": "Two different shapes are never printed as the same text by operator<<.", "quantifier": "all pairs of shapes", "why_tests_cant": "injectivity over all shapes", "anchors": ["include/deepworks/shape.hpp: operator<<"]}
{"id": "C68", "title": "Model inputs keep their order through the config", "statement": "cfg().input_ids and cfg().output_ids list the ids of inputs() and outputs() in the order the user gave them.", "quantifier": "all models with several inputs or outputs", "why_tests_cant": "depends on topological order", "anchors": ["src/model/model.cpp: createConfig"]}
{"id": "C69", "title": "backward leaves the caller's tensors alone", "statement": "backward does not modify the input, output and grad_output tensors passed to it.", "quantifier": "all models including those whose output placeholder is consumed by another layer", "why_tests_cant": "aliasing over all graphs", "anchors": ["src/runtime/cpu/cpubackend.cpp: backward, bind"]}
{"id": "C70", "title": "Inputs and outputs outside the network are rejected", "statement": "Constructing a model with an input that no output depends on, or with an output that no layer produces or consumes, throws an exception; it is never undefined behaviour.", "quantifier": "all expression graphs, all input and output lists", "why_tests_cant": "needs all graphs; undefined behaviour cannot be asserted by a test", "anchors": ["src/model/model.cpp: Model::Impl::Impl, build"]}
{"id": "C71", "title": "Constructing one model does not affect another", "statement": "Whether and how a model is constructed does not depend on which other models were constructed earlier over shared layers.", "quantifier": "all histories of model constructions", "why_tests_cant": "depends on arbitrary earlier constructions", "anchors": ["src/model/model.cpp: Model::Impl::Impl (generated names)"]}
{"id": "C72", "title": "ReadImage opens the file its path names", "statement": "ReadImage(path) opens the file whose name is exactly the characters of path, for every string_view, also one that is part of a longer string.", "quantifier": "all string views", "why_tests_cant": "depends on the memory after the view, which a test with literals never varies", "anchors": ["src/io/image_reader.cpp: ReadJpegFile, ReadPngFile (fopen(path.data()))"]}
{"id": "C73", "title": "An image that cannot be decoded makes ReadImage throw", "statement": "If the file exists but is not a valid image of its format (wrong signature, broken header, broken pixel data), ReadImage throws; the process goes on and nothing is undefined.", "quantifier": "all file contents", "why_tests_cant": "needs all corruptions, including truncation at every byte", "anchors": ["src/io/image_reader.cpp: ReadJpegFile, ReadPngFile"]}
{"id": "C74", "title": "BatchNorm gradients in evaluation mode are those of the evaluation map", "statement": "After forward in evaluation mode (training off), backward adds the derivative of <grad_output, output> with respect to the input of the fixed affine map that was applied, and the parameter gradients are the derivatives of that map.", "quantifier": "all batch sizes, all values, all running statistics, eps > 0", "why_tests_cant": "needs all values; the existing tests only run backward in training mode", "anchors": ["src/runtime/cpu/layers/cpubatchnorm1d.cpp: backward, updateGradients", "src/runtime/cpu/kernels/kernels.cpp: CPUBatchNorm1DInputGrad, CPUBatchNorm1DParamGrad"]}
{"id": "C75", "title": "A rejected layer application has no lasting effect", "statement": "If applying a layer to inputs throws, everything is as if the application had not been attempted. In particular a later application of the same layer to suitable inputs creates parameters that fit those inputs.", "quantifier": "all layers, all inputs, all histories of constructions", "why_tests_cant": "needs every way an application can fail, followed by every later use of the layer", "anchors": ["include/deepworks/base_op.hpp: BaseOp::operator()", "src/expression/nn.cpp: init, outShape"]}
{"id": "C76", "title": "An application stays what it was", "statement": "The placeholder returned by applying a layer object to placeholders is, whatever calls follow (further placeholders, layers and applications, models built, loaded or switched between training and evaluation, and calls that throw), the result of exactly that layer object applied to exactly those placeholders in that order; its shape never changes and no other application returns it.", "quantifier": "all histories of API calls after the application, all layers", "why_tests_cant": "immutability over every later history, including failing calls", "anchors": ["include/deepworks/base_op.hpp: operator()", "src/expression/call.cpp", "src/expression/placeholder.cpp", "src/model/model.cpp: Model, Build"]}
{"id": "C77", "title": "Switching between training and evaluation", "statement": "After any history of calls, train(false) makes forward compute the network in which batch normalisation uses the current running statistics and dropout is the identity: outputs then depend on the inputs and parameters only, repeated calls give the same outputs, and no forward changes the running statistics. train(true) returns to batch statistics and random masks. Switching changes no parameter and no running statistic, and running variances never become negative.", "quantifier": "all models, all histories of calls including earlier switches, all inputs", "why_tests_cant": "the mode interacts with everything that happened before; a test sees one history", "anchors": ["src/model/model.cpp: Model::train", "src/runtime/cpu/layers/cpubatchnorm1d.cpp: forward", "src/runtime/cpu/layers/cpubatchnorm2d.cpp: forward", "src/runtime/cpu/layers/cpudropout.cpp: forward"]}
{"id": "C78", "title": "One training iteration is one step of gradient descent", "statement": "For a model in training mode whose output is a batch of class probabilities, one pass of the samples' training loop (forward, CrossEntropyLoss::forward and backward, Model::backward, SGD::step) returns the cross-entropy of the network's output at the current parameters and replaces every trainable parameter p of every layer by p - lr * (derivative of that cross-entropy with respect to p), whatever was done with the model before. No tensor of the caller other than the prediction and gradient tensors is changed. (Away from kinks, without Dropout of non-zero rate (C41), for labels predicted with positive probability, and where the input of a BatchNorm2D is not used elsewhere: C23 says what happens there.)", "quantifier": "all models, all histories of calls, all inputs, labels, parameters and learning rates", "why_tests_cant": "composition of the whole library; a test compares a few numbers on one model", "anchors": ["samples/mnist/main.cpp: training loop", "samples/iris/main.cpp: training loop", "samples/cifar10/main.cpp: training loop", "src/optimizer.cpp: SGD::step", "src/loss.cpp: CrossEntropyLoss", "src/model/model.cpp: forward, backward, params"]}
{"id": "C79", "title": "Windows that make no sense are rejected", "statement": "A Convolution or MaxPooling whose kernel has a side below 1, whose padding is negative or whose stride is below 1 never computes anything: applying it or running a model with it throws, for every input and at every call.", "quantifier": "all kernels, paddings, strides, images, and all histories of calls", "why_tests_cant": "needs all geometries and all earlier calls", "anchors": ["src/expression/nn.cpp: MaxPooling::outShape, Convolution::outShape", "src/runtime/cpu/layers/cpuconvolution.cpp: validate", "src/runtime/cpu/layers/cpumaxpooling.cpp: validate"]}
{"id": "C80", "title": "A small SGD step lowers the loss", "statement": "Under the conditions of C78, unless all derivatives of the batch's loss with respect to the parameters are zero, there is a positive bound such that for every smaller positive learning rate, running the model again on the same inputs after one iteration gives predictions with strictly smaller cross-entropy than the value the iteration returned (and still a positive probability of every label).", "quantifier": "all models, all histories of calls, all inputs, labels and parameters", "why_tests_cant": "a limit statement about all small learning rates; a test sees one rate and one batch", "anchors": ["samples/mnist/main.cpp: training loop", "src/optimizer.cpp: SGD::step", "src/loss.cpp: CrossEntropyLoss", "src/model/model.cpp: forward, backward, params"]}
{"id": "C81", "title": "A training loop follows the optimizer's recursion on the losses of its batches", "statement": "For a model in training mode whose output is a batch of class probabilities, and SGD, SGDMomentum or Adam constructed from model.params(), a loop of any number of rounds (load the batch, set the learning rate, forward, CrossEntropyLoss::forward and backward, Model::backward, Optimizer::step) returns the cross-entropies of the batches at the successive parameters, and every trainable parameter follows the textbook recursion of the optimizer, driven by the derivatives of the loss of the current batch at the current parameters; the optimizer's state for one parameter never mixes with another's. Of the caller's tensors only those passed in the loop change. (Conditions of C78 in every round.)", "quantifier": "all models, all histories before the loop, all numbers of rounds, batches, learning rate schedules and hyper-parameters", "why_tests_cant": "unbounded loops through the whole library; a test runs a few rounds of one model and does not know the exact gradients", "anchors": ["samples/mnist/main.cpp: training loop", "samples/iris/main.cpp: training loop", "samples/cifar10/main.cpp: training loop", "src/optimizer.cpp: SGD, SGDMomentum, Adam", "src/loss.cpp: CrossEntropyLoss", "src/model/model.cpp: forward, backward, params"]}
{"id": "C82", "title": "A saved and loaded model makes the same predictions", "statement": "A model that save and load restore (C56) computes the same function afterwards: after any history of training, train(false), save of the model, and load in another process (which may have built other expressions before), compile of the loaded model succeeds and every forward leaves in the output tensors exactly the numbers the original model leaves there for the same inputs, whatever other calls were made in both processes that do not change parameters, whatever tensors are passed and whatever random numbers are drawn. In training mode the same holds for equal random numbers.", "quantifier": "all models restored by C56, all histories of training before saving, all states of the loading process, all histories of calls afterwards, all inputs", "why_tests_cant": "needs the composition of construction, training, serialization, reconstruction and execution for arbitrary graphs; a test compares the outputs of one model on one input", "anchors": ["include/deepworks/model.hpp: Model::Build", "include/deepworks/serialization.hpp: save, load", "src/serialization.cpp: save, load, save_state, load_state", "src/model/model.cpp: Build, state, train, forward", "src/runtime/cpu/cpubackend.cpp"]}
{"id": "C83", "title": "In evaluation mode the samples of a batch do not influence each other", "statement": "After train(false), what forward leaves in the output tensors for one sample of a batch depends on that sample of the inputs only: if two calls, after whatever histories without changes of parameters, get the same numbers for sample i of one batch and sample j of the other, they leave the same numbers for these samples, whatever the other samples are. In training mode this is not so: batch normalisation mixes the samples.", "quantifier": "all models whose inputs have the number of samples as first dimension, all histories, all pairs of batches and positions in them, all random numbers", "why_tests_cant": "needs, for every layer and every graph, that no index leaves its sample; a test compares a few batches of one model", "anchors": ["src/runtime/cpu/kernels/kernels.cpp", "src/runtime/cpu/layers/", "src/model/model.cpp: train, forward", "src/runtime/cpu/cpubackend.cpp: forward"]}
{"id": "C84", "title": "A validation loop reports the fraction of correctly classified samples", "statement": "After train(false), with a data loader of the model's batch size that does not shuffle, the loop of the samples (pull, forward, add metric::accuracy, count the rounds) ends after size / batch rounds, and the sum divided by the number of rounds is the fraction of the first batch * (size / batch) samples of the dataset for which the position of the first largest predicted number is the label, where the prediction for a sample is a function of that sample alone; each of these samples counts once and the last size % batch not at all. Afterwards the parameters are the same, the loader is at its start again, and of the caller's tensors only the three of the loop have changed.", "quantifier": "all models with one input and one output, all histories before the loop (in particular any training), all datasets not smaller than a batch, all batch sizes and parameters", "why_tests_cant": "an unbounded loop through data loader, model and metric; a test looks at a few batches and cannot tell whether a sample's verdict depends on its batch", "anchors": ["samples/mnist/main.cpp: validation loop", "samples/iris/main.cpp: validation loop", "samples/cifar10/main.cpp: validation loop", "src/dataloader.cpp: pull", "src/metrics.cpp: accuracy", "src/model/model.cpp: train, forward"]}
{"id": "C85", "title": "Validating between epochs does not disturb training", "statement": "In the main loop of the samples (per epoch: train(true); pull, forward, loss, backward and optimizer step for every batch; train(false); pull, forward and accuracy for every batch of the validation set; all with the same tensors) the parameters follow the optimizer's recursion over the batches of all epochs as if they were one training loop: no validation, no change of the mode and no end of an epoch shows in them or in the moments of the optimizer. The loss reported for an epoch is the mean of the cross-entropies of its batches at the parameters of that time; the accuracy is the fraction of validation samples classified correctly, in evaluation mode, with the parameters and running statistics after the last batch of the epoch. Both loaders start every epoch at their beginning, and of the caller's tensors only the four of the program change.", "quantifier": "all models with one input and one output, all three optimizers and their parameters, all datasets not smaller than a batch, all shufflings and random numbers, any number of epochs, all histories before", "why_tests_cant": "an unbounded history alternating between two modes, two loaders and an optimizer with state; a test runs a few batches and cannot tell a small disturbance from rounding", "anchors": ["samples/mnist/main.cpp: main", "samples/iris/main.cpp: main", "samples/cifar10/main.cpp: main", "samples/cifar100/main.cpp: main", "src/dataloader.cpp: pull", "src/optimizer.cpp", "src/loss.cpp", "src/metrics.cpp: accuracy", "src/model/model.cpp: train, forward, backward"]}
{"id": "C86", "title": "The running statistics of batch normalisation are moving averages over the training batches", "statement": "After compile the running mean of every batch normalisation layer is 0 and its running variance 1 (as initialized). Each forward in training mode replaces them by alpha times the old value plus (1 - alpha) times the mean and the (biased) variance of the features of this batch at the layer's input: over samples for BatchNorm1D, over samples and positions for BatchNorm2D. Nothing else changes them: not forward in evaluation mode, backward, an optimizer step, train(true/false) or operations on the caller's tensors. So after any number of epochs of the samples' main loop they are the exponential moving averages over all training batches so far, in their order, whatever was validated in between; the weight of the initial value is alpha to the number of batches.", "quantifier": "all models, all batch normalisation layers in them, all values of alpha, all histories, all numbers of epochs and batches, all data", "why_tests_cant": "an accumulated quantity over an unbounded history of calls in two modes; a test compares one or two updates of a single layer", "anchors": ["src/runtime/cpu/kernels/kernels.cpp: CPUBatchNorm1DForward", "src/runtime/cpu/layers/cpubatchnorm1d.cpp", "src/runtime/cpu/layers/cpubatchnorm2d.cpp", "src/expression/nn.cpp: BatchNorm1D::init, BatchNorm2D::init", "src/model/model.cpp: train, forward, backward", "samples/mnist/main.cpp: main"]}
{"id": "C87", "title": "The Iris dataset contains the rows of its CSV file", "statement": "Constructing IrisCSVDataset on a CSV file with a header line gives a dataset whose size is the number of rows and whose sample i consists of the first four numbers of row i, with the number of its species (setosa 0, versicolor 1, virginica 2) as label; this does not depend on a final line feed or on other datasets the program has read, and pull(i) writes exactly these five numbers. A row that is malformed, a species that is unknown and a file that cannot be opened are reported.", "quantifier": "every table of text, every number parser, every earlier history of the label map, every sample number and every pair of target tensors", "why_tests_cant": "A test reads one fixed file; that parsing loses, merges or relabels no row must hold for every table, and the behaviour on short lines depends on memory contents.", "anchors": ["samples/iris/utility.cpp:SplitLineByComma", "samples/iris/utility.cpp:IrisCSVDataset::IrisCSVDataset", "samples/iris/utility.cpp:IrisCSVDataset::pull"]}
{"id": "C88", "title": "The image datasets put the pixels of the picture into the batch", "statement": "pull(i, X, y) of the MNIST and CIFAR datasets writes the picture of entry i into X, every byte divided by 255: for MNIST in the order of the file, for CIFAR as element (c, y, x) = channel c of the pixel in row y and column x. It writes the label into y and nothing else the program can see, whatever was pulled before. A picture that has not the expected dimensions makes it throw without writing.", "quantifier": "every directory content, picture, sample number, earlier sequence of pulls and placement of the tensors in memory", "why_tests_cant": "Whether the transposition hits every pixel exactly once and leaves neighbouring samples of the batch alone depends on index arithmetic for all pixels and all slices of a batch, which a test on one picture does not settle.", "anchors": ["samples/mnist/utility.cpp:Dataset::pull", "samples/mnist/utility.cpp:normalize", "samples/cifar10/utility.cpp:CIFAR10Dataset::pull", "samples/cifar10/utility.cpp:CIFAR10Dataset::HWC2CHW", "samples/cifar100/utility.cpp:CIFAR100Dataset::pull", "samples/cifar100/utility.cpp:CIFAR100Dataset::HWC2CHW"]}
{"id": "C89", "title": "The label of a picture is the number of its directory", "statement": "The image datasets contain every file in every subdirectory of the root exactly once per listing, labelled by its directory: MNIST by the number that is its name, CIFAR-10 by the number of the class that is its name, CIFAR-100 by a number that is the same in all datasets of a program, different for different names and less than the count of names. A name that is not a number or not a class is reported, and the numbers do not depend on the order in which the file system lists the directories.", "quantifier": "every directory tree, every listing order, and every sequence of datasets constructed before and between in the same program, including failed ones", "why_tests_cant": "The static label map makes the labels depend on the whole history of the process and on the unspecified order of directory iteration, which no test can enumerate.", "anchors": ["samples/mnist/utility.cpp:Dataset::Dataset", "samples/cifar10/utility.cpp:CIFAR10Dataset::CIFAR10Dataset", "samples/cifar10/utility.cpp:label2digit", "samples/cifar100/utility.cpp:CIFAR100Dataset::CIFAR100Dataset", "samples/cifar100/utility.cpp:dir2label_"]}
{"id": "C90", "title": "Batch normalisation refuses parameters of different modes", "statement": "If gamma and beta of a batch normalisation layer have different trainable flags, forward throws instead of choosing one of the two modes, for BatchNorm1D and BatchNorm2D, whatever the input.", "quantifier": "every shape, input, parameter value and running statistic, both layers", "why_tests_cant": "A test that sets both flags together never sees the check; which of the two flags decides is visible only for the mixed combinations.", "anchors": ["src/runtime/cpu/layers/cpubatchnorm1d.cpp", "src/runtime/cpu/layers/cpubatchnorm2d.cpp"]}
{"id": "C91", "title": "The models of the samples can be built, compiled and trained", "statement": "buildMNISTModel, buildIrisModel, buildCIFAR10Model and buildResnetModel succeed for every batch size and give models with one input and one output; for positive batch sizes whose tensors have at most 2^31-1 elements, every layer of the compiled model computes its documented function, no two layers write the gradient of the same value (the residual connections go to one addition and one layer each), and everything proved about forward, backward and the optimizers applies to them.", "quantifier": "every batch size, every correct topological sort, all tensors of the right shapes as parameters and running statistics", "why_tests_cant": "The samples are run with one batch size and fixed initial numbers; that 52 layers with residual connections fit together for every batch size cannot be seen from that.", "anchors": ["samples/mnist/main.cpp: buildMNISTModel", "samples/iris/main.cpp: buildIrisModel", "samples/cifar10/main.cpp: buildCIFAR10Model", "samples/cifar100/main.cpp: buildResnetModel", "benchmarks/mnist/benchmark_dw.hpp", "benchmarks/cifar10/benchmark_dw.hpp"]}
{"id": "C92", "title": "The models of the samples compute the networks they are named after", "statement": "forward of the four models of the samples leaves in the output tensor the value of an explicit formula of the input and the parameters: softmax(norm(relu(X W^T + b)) V^T + c) for MNIST and Iris; two times convolution, pooling, relu, then three affine maps with batch normalisation for CIFAR-10; a stem, six residual blocks (two of which halve the image and have a convolution as shortcut), the mean over the pixels and an affine map for CIFAR-100. In training mode batch normalisation uses the statistics of the batch, in evaluation mode the running statistics.", "quantifier": "every batch size, every input, all parameters and running statistics, both modes, every history before the call", "why_tests_cant": "A test compares a few numbers of one input; a wrong argument of a layer (say the shortcut taken after the activation) gives plausible numbers and a model that still trains.", "anchors": ["samples/mnist/main.cpp: buildMNISTModel", "samples/iris/main.cpp: buildIrisModel", "samples/cifar10/main.cpp: buildCIFAR10Model", "samples/cifar100/main.cpp: buildResnetModel", "src/model/model.cpp: forward", "src/runtime/cpu/cpubackend.cpp: forward"]}
{"id": "C93", "title": "An output of a Softmax layer is a table of probabilities", "statement": "After forward, an output tensor computed by a Softmax layer contains in every row positive numbers that sum up to 1, whatever network comes before it.", "quantifier": "every model, every output computed by Softmax, all inputs, parameters, modes, random numbers and histories", "why_tests_cant": "The sum over every row for every input of every network cannot be sampled.", "anchors": ["src/runtime/cpu/layers/cpusoftmax.cpp", "src/runtime/cpu/kernels/kernels.cpp: CPUSoftmaxForward", "src/model/model.cpp: forward"]}
{"id": "C94", "title": "A saved model is as accurate as it was when it was trained", "statement": "A program trains a model for any number of epochs, validates it, saves it; another program loads the file, switches to evaluation mode and validates. With the same data the second program prints the accuracy the first one printed last: the same sum of accuracies over the same number of batches, and exactly the fraction of correctly classified samples in full batches. With other data both models report the same numbers too.", "quantifier": "every restorable model with one input and one output, every history of training, every dataset and batch size, all random numbers on both sides, every previous content of the tensors used", "why_tests_cant": "It combines training, running statistics, evaluation mode, saving, loading in another process and validation; a test on one model would miss a statistic that is not saved or a layer rebuilt in another order when it happens not to change the predicted classes.", "anchors": ["samples/mnist/main.cpp: main", "src/serialization.cpp: load", "src/serialization.cpp: save", "include/deepworks/model.hpp: train", "src/metrics.cpp: accuracy"]}
{"id": "C95", "title": "The models of the samples survive saving and loading", "statement": "The models of the MNIST, Iris, CIFAR-10 and CIFAR-100 samples can be saved at any time and loaded in another process: load returns normally, has read the file to its end, and gives a model with the same layers under the same names, the same wiring and the same tensors.", "quantifier": "every batch size up to the limit of int, every correct topological sort on both sides, every content of the tensors, every order of the hash maps, everything done in the loading process before", "why_tests_cant": "Generated names depend on the topological order, which may differ between the two processes; a test sees one order.", "anchors": ["samples/mnist/main.cpp: main", "samples/iris/main.cpp: main", "samples/cifar10/main.cpp: main", "samples/cifar100/main.cpp: main", "src/serialization.cpp: load", "src/serialization.cpp: save"]}
{"id": "C96", "title": "The training programs of the samples do gradient descent", "statement": "The training mode of the MNIST, Iris and CIFAR-100 samples (SGDMomentum) and of the CIFAR-10 sample (Adam): from whatever parameters the model has, the parameters after each round are those of the optimizer's rule applied to numbers that are the gradients of the mean cross entropy of the batches in all rounds that do not meet a kink of ReLU or max pooling; each epoch prints the mean of its losses and the fraction of the validation samples that the model with the parameters of that moment classifies correctly in evaluation mode; every loop ends and nothing throws.", "quantifier": "every batch size up to the limit of int, every dataset of the right shapes, every shuffling, any number of epochs, every learning rate and other constant of the optimizer, all initial parameters and running statistics, every use of the model before", "why_tests_cant": "It quantifies over the data, the shuffling and the number of epochs; a test can only see that the loss of one run goes down.", "anchors": ["samples/mnist/main.cpp: main", "samples/iris/main.cpp: main", "samples/cifar10/main.cpp: main", "samples/cifar100/main.cpp: main", "src/optimizer.cpp", "src/model/model.cpp"]}
{"id": "C97", "title": "A trained and saved model tests as it was validated", "statement": "A sample trains a model for one or more epochs, printing loss and accuracy of each, and saves it. The test mode of the sample, in another process, loads that file completely and prints for the same validation set the accuracy the training printed last. Nothing in between throws or runs forever.", "quantifier": "the networks of the four samples with every batch size up to the limit of int, and every other model that can be saved; every dataset and shuffling, any number of epochs, the three optimizers with any constants, any earlier use of the model, every correct topological sort on both sides, every order of the hash maps, any expressions and uses of the model in the second process", "why_tests_cant": "Training, the two layer modes, running statistics, file format, name generation and the loop of test mode all have to fit together, for every course of the training.", "anchors": ["samples/mnist/main.cpp: main", "samples/iris/main.cpp: main", "samples/cifar10/main.cpp: main", "samples/cifar100/main.cpp: main", "src/serialization.cpp: save", "src/serialization.cpp: load", "src/model/model.cpp"]}
{"id": "C98", "title": "Softmax of finite floats gives floats between 0 and 1", "statement": "With float arithmetic as it is (rounding, infinities, NaN), Softmax applied to finite numbers returns finite numbers between 0 and 1, never NaN, and the output for a largest number of a row is at least 2^-25. However large the inputs are, nothing overflows.", "quantifier": "every batch size, up to 2^24 classes, all finite inputs, every order in which the sum may be evaluated, every exp that is 1 at 0 and between 0 and 1 on negative numbers", "why_tests_cant": "The dangerous inputs are large or far apart, and the order of the sum depends on the vector instructions; a test sees some inputs on one machine.", "anchors": ["src/runtime/cpu/kernels/kernels.cpp: CPUSoftmaxForward"]}
{"id": "C99", "title": "Loss and gradient of finite logits are finite", "statement": "Cross entropy loss and its gradient with respect to the inputs of Softmax are finite, not infinite and not NaN, if these inputs are finite. So training on finite data does not turn finite parameters into NaN.", "quantifier": "every batch size up to 2^17, up to 2^24 classes, all finite inputs and all labels, every order of summation, with or without fused operations", "why_tests_cant": "It fails only on inputs that are far apart, as they occur late in training or with large inputs; a unit test uses small numbers.", "anchors": ["src/loss.cpp: CrossEntropyLoss::forward", "src/loss.cpp: CrossEntropyLoss::backward", "src/runtime/cpu/kernels/kernels.cpp: CPUSoftmaxInputGrad", "src/runtime/cpu/kernels/kernels.cpp: CPUNLLLoss", "src/optimizer.cpp: SGD::step"]}
{"id": "C100", "title": "Rounding errors of Linear are bounded", "statement": "An output of Linear with n inputs, computed with floats, differs from the exact value by at most ((1+u)^(2n+1)-1) times the sum of the magnitudes of its terms plus 3n(1+u)^(2n+1) times half of the smallest float, u = 2^-24. It is finite if there are up to 2^22 inputs and this sum is at most 2^120. Two executions that add in different orders differ by at most twice that.", "quantifier": "every number of inputs, outputs and rows, all finite inputs, weights and biases, every order and bracketing of the sums, with any of the products fused", "why_tests_cant": "The order depends on the block sizes, threads and vector instructions that Eigen chooses; a test compares with a tolerance on some inputs.", "anchors": ["src/runtime/cpu/kernels/kernels.cpp: CPULinearForward", "src/runtime/cpu/kernels/kernels.cpp: CPULinearAddBias"]}
{"id": "C101", "title": "Layers do not overflow int on tensors that exist", "statement": "Whenever input, output and parameters of a layer exist as tensors, that is int can count their elements, the forward and backward passes compute no int outside its range (which is undefined behaviour).", "quantifier": "all layers, all shapes with positive dimensions, kernels, paddings and strides whose sum with the image size fits int, all batch sizes", "why_tests_cant": "The sizes that overflow need gigabytes of memory, so no unit test uses them, and the result of an overflow is not predictable.", "anchors": ["src/runtime/cpu/layers/cpuconvolution.cpp: CPUConvolution::forward", "src/runtime/cpu/layers/cpumaxpooling.cpp: CPUMaxPooling::forward", "src/runtime/cpu/kernels/kernels.cpp: im2col", "src/expression/nn.cpp: Convolution::outShape"]}
{"id": "C102", "title": "The gradient of the classification loss is right up to rounding", "statement": "With float arithmetic, the gradient of the mean cross entropy with respect to the inputs of Softmax, as the two backward passes compute it from the probabilities p of the forward pass, differs from the exact (p - onehot) / B by at most 8u/B, u = 2^-24; where the class is not the label also by at most 5u times its own size plus half of the smallest float.", "quantifier": "every batch size B up to 2^24, up to 2^24 classes, all finite inputs and all labels, every order of summation, with or without fused operations", "why_tests_cant": "The code divides by p, multiplies by p again and subtracts; whether this loses accuracy depends on the size of p, and a test compares with a tolerance on some inputs.", "anchors": ["src/loss.cpp: CrossEntropyLoss::backward", "src/runtime/cpu/kernels/kernels.cpp: CPUSoftmaxInputGrad"]}
{"id": "C103", "title": "Softmax is accurate up to rounding", "statement": "With float arithmetic, the rows of the result of Softmax with n classes sum to 1 up to 1.2 n u, u = 2^-24, and each entry differs from the exact softmax of the same inputs by at most 2 (n + 1) u + 3 e, where e is the relative error of exp. With C102, the gradient of the classification loss is that of the exact loss at the same inputs up to (2 (n + 5) u + 3 e) / B.", "quantifier": "every batch size, up to 2^20 classes, all finite inputs however large and far apart, every order of summation, every exp with a relative error up to 2^-10 (apart from results below the smallest float)", "why_tests_cant": "Rounding the differences of large inputs loses digits before exp is applied; that it does not matter is a fact about all inputs. A test compares with a tolerance on some inputs.", "anchors": ["src/runtime/cpu/kernels/kernels.cpp: CPUSoftmaxForward", "src/runtime/cpu/kernels/kernels.cpp: CPUSoftmaxInputGrad", "src/loss.cpp: CrossEntropyLoss::backward"]}
{"id": "C104", "title": "A training step in float is a step of gradient descent up to rounding", "statement": "For a classifier made of Linear and Softmax, trained with CrossEntropyLoss and SGD on a batch of B rows of n inputs and k classes with float arithmetic: the reported loss is finite and differs from the exact mean cross entropy by at most (80 B + 1.3 k + 2.2 (2n+1) S + 250) u + 2.5 e + 76 e'. Each parameter w after the step is finite and differs from w - lr * (the exact partial derivative of the exact loss by w) by at most u |w| + |lr| A ((4 B + 2 k + 7 (n+1) S + 14) u + 3 e) plus three halves of the smallest float. Here u = 2^-24, e and e' are the relative errors of exp and log, A is the largest input (1 for biases) and S bounds the logits without cancellation.", "quantifier": "all B and k up to 2^18, n up to 2^15, all finite inputs, weights, biases and learning rates up to 2^60 with S at most 30, all labels, every order of summation, with or without fused operations", "why_tests_cant": "Errors of five kernels accumulate and the gradient is computed by dividing and multiplying by probabilities; a test sees a few numbers and compares with a tolerance.", "anchors": ["src/runtime/cpu/kernels/kernels.cpp: CPULinearForward", "src/runtime/cpu/kernels/kernels.cpp: CPULinearWeightGrad", "src/runtime/cpu/kernels/kernels.cpp: CPUSoftmaxInputGrad", "src/runtime/cpu/kernels/kernels.cpp: CPUNLLLoss", "src/loss.cpp: CrossEntropyLoss", "src/optimizer.cpp: SGD::step"]}
{"id": "C105", "title": "Accuracy counts every row", "statement": "With float arithmetic, accuracy and accuracyOneHot return the number of rows whose largest prediction is in the column of the label, divided by the number of rows, rounded once: the result is at most 1, is 1 exactly if all rows are right and 0 exactly if none is.", "quantifier": "all batch sizes, all numbers of classes, all predictions (any column may be reported if several are largest) and labels", "why_tests_cant": "The hits are counted in a float and the labels are floats; from some size on float cannot hold all whole numbers, and a test has few rows.", "anchors": ["src/metrics.cpp: accuracy", "src/metrics.cpp: accuracyOneHot"]}
{"id": "C106", "title": "Max pooling finds the chosen pixels again", "statement": "MaxPooling remembers in a float tensor which element of each window was the largest. The backward pass adds each gradient to the pixel that the forward pass chose, and writes nothing outside its buffers.", "quantifier": "all batches, channels, images, kernels, paddings and strides, all pixels and gradients", "why_tests_cant": "The remembered positions are whole numbers rounded to float; a test uses small kernels.", "anchors": ["src/runtime/cpu/kernels/kernels.cpp: CPUMaxPoolingForward", "src/runtime/cpu/kernels/kernels.cpp: CPUMaxPoolingInputGrad", "src/runtime/cpu/layers/cpumaxpooling.cpp: CPUMaxPooling"]}
{"id": "C107", "title": "Activations are accurate", "statement": "With float arithmetic, finite inputs give finite outputs and gradients in ReLU, LeakyReLU, ELU, Sigmoid and, for a probability below 1, Dropout. ReLU is exact, LeakyReLU rounded once, Dropout rounded twice. ELU differs from its definition by at most (2.1 u + 1.1 e) |alpha|, Sigmoid by at most (2.1 u + 1.1 e) times its value, and the gradient of Sigmoid from the exact derivative by at most (3 u + 1.1 e) |g|, apart from numbers below 2^-125. Sigmoid lies between 0 and 1 also where exp overflows. u = 2^-24, e is the relative error of exp.", "quantifier": "all floats x, slopes alpha up to 2^120 (2^60 backwards) and gradients g up to 2^60", "why_tests_cant": "exp overflows for large negative inputs and 1 - y cancels near 1; a test looks at a few inputs of ordinary size.", "anchors": ["src/runtime/cpu/kernels/kernels.cpp: CPUReLUForward", "src/runtime/cpu/kernels/kernels.cpp: CPULeakyReLUForward", "src/runtime/cpu/kernels/kernels.cpp: CPUELUForward", "src/runtime/cpu/kernels/kernels.cpp: CPUELUInputGrad", "src/runtime/cpu/kernels/kernels.cpp: CPUSigmoidForward", "src/runtime/cpu/kernels/kernels.cpp: CPUSigmoidInputGrad", "src/runtime/cpu/kernels/kernels.cpp: CPUDropoutForward"]}
{"id": "C108", "title": "NaN is not hidden", "statement": "If an input of a layer is NaN, for example after training has diverged, the outputs that depend on it are NaN, so that the user sees it.", "quantifier": "the layers Linear, ReLU, LeakyReLU, ELU and Sigmoid, all parameters and other inputs", "why_tests_cant": "Tests use ordinary numbers; comparisons with NaN are false, and a select takes the other branch without an error.", "anchors": ["src/runtime/cpu/kernels/kernels.cpp: CPUReLUForward", "src/runtime/cpu/kernels/kernels.cpp: CPULeakyReLUForward", "src/runtime/cpu/kernels/kernels.cpp: CPUELUForward", "src/runtime/cpu/kernels/kernels.cpp: CPUSigmoidForward", "src/runtime/cpu/kernels/kernels.cpp: CPULinearForward"]}
{"id": "C109", "title": "The rounding errors of SGD with momentum do not pile up in the velocity", "statement": "With float arithmetic and gradients g with |lr g| up to A, the velocity stays finite and below 1.01 (A + 4 h) / (1 - gamma) after any number of steps, and its difference from the exact velocity for the same gradients stays below one bound that does not depend on the number of steps. The difference of the weight from the exact weight grows at most linearly in the number of steps. h is half of the smallest float.", "quantifier": "all sequences of gradients, all numbers of steps, all 0 <= gamma <= 1 - 2^-10, all A up to 2^110", "why_tests_cant": "The velocity feeds back into itself; whether errors are damped or accumulate shows only after many steps.", "anchors": ["src/optimizer.cpp: SGDMomentum::step"]}
{"id": "C110", "title": "Adam stays usable with finite gradients", "statement": "With float arithmetic, as long as all gradients are finite, the moving mean and the moving variance of Adam stay finite after any number of steps and the weights keep following the gradients. A weight whose gradient has always been zero keeps its value.", "quantifier": "all sequences of finite gradients, all numbers of steps, learning rates up to 2^10, betas up to 1 - 2^-14, epsilon from 2^-40 to 1", "why_tests_cant": "One gradient in a long history can make the variance infinite, which shows neither in the loss nor as NaN; tests use gradients of ordinary size.", "anchors": ["src/optimizer.cpp: Adam::step"]}
{"id": "C111", "title": "Training a linear classifier reaches the best loss", "statement": "A model Softmax(Linear(x)) is trained with SGD on one batch with a learning rate lr up to 1 / (2 A), where every row has 1 + |x|^2 at most A. The losses the loop reports never grow, and after N rounds the loss is at most |theta - s|^2 / (2 lr N) above the loss for any other parameters s, where theta are the parameters at the start.", "quantifier": "all batch sizes, numbers of features and classes, all inputs and labels, all initial parameters, all numbers of rounds, all parameters s", "why_tests_cant": "A test sees the loss go down for a few rounds on one data set; that training cannot get stuck above the best possible loss is a statement about all data and all starting points.", "anchors": ["src/optimizer.cpp: SGD::step", "src/loss.cpp: CrossEntropyLoss", "include/deepworks/nn.hpp: Linear", "include/deepworks/nn.hpp: Softmax", "src/model/model.cpp: Model::forward", "src/model/model.cpp: Model::backward"]}
{"id": "C112", "title": "Training a linear classifier on changing batches", "statement": "A model Softmax(Linear(x)) is trained with SGD, with another batch in every round. The sum of the losses the loop reports, times 1 - 2 lr A, is at most the sum of the losses of any fixed parameters s on the same batches plus |theta - s|^2 / (2 lr), which does not depend on the number of rounds.", "quantifier": "all sequences of batches of any length, all initial parameters, all learning rates, all parameters s", "why_tests_cant": "It is a statement about every order in which data can arrive, also one chosen against the program.", "anchors": ["src/optimizer.cpp: SGD::step", "src/loss.cpp: CrossEntropyLoss", "include/deepworks/nn.hpp: Linear", "include/deepworks/nn.hpp: Softmax", "src/model/model.cpp: Model::forward", "src/model/model.cpp: Model::backward"]}
{"id": "C113", "title": "Every update of Adam follows the formula", "statement": "With float arithmetic and gradients up to 2^55, in every step the new mean differs from beta1 m + (1 - beta1) g by at most 4 u times the sizes of the two terms, the new variance from beta2 v + (1 - beta2) g^2 by at most 5 u times its value, and the new weight from w - lr (m / c1) / (sqrt(v / c2) + epsilon), for the new m and v, by at most u |w| plus (6.5 u + 1.1 r) times the size of the step, apart from numbers below 2^-95. A weight moves against the sign of the mean. u = 2^-24, r is the relative error of the square root, c1 and c2 are the bias corrections.", "quantifier": "all sequences of gradients, all numbers of steps, learning rates up to 2^10, betas up to 1 - 2^-14, epsilon from 2^-40 to 1", "why_tests_cant": "Errors enter through three divisions, a square root near zero and 1 - beta; a test compares a few numbers with a tolerance.", "anchors": ["src/optimizer.cpp: Adam::step"]}
{"id": "C114", "title": "Deep networks in float", "statement": "The outputs of a model built from Linear, BatchNorm1D (evaluation mode), ReLU, LeakyReLU, ELU and Sigmoid layers one after another, computed in float, are finite and differ from those of exact arithmetic by at most a bound computed layer by layer from the sums of the magnitudes of the weights, provided the bound shows that nothing overflows. For L Linear layers with ReLU the bound is ((1 + g)^L - 1) N^L (A + L b) apart from numbers near 2^-149, with g about (2 w + 1) 2^-24 for w inputs per layer, N the largest sum of magnitudes of a row of weights, b the largest bias, A the largest input. So two runs with different orders of summation agree up to twice the bound, the predicted class is that of exact arithmetic when it leads by more than twice the bound d, and the probabilities of a softmax at the end differ by at most exp(2 d) - 1 + 2 (m + 1) u + 3 e.", "quantifier": "all depths, widths, batch sizes, weights, inputs within the bounds, all orders of summation, fused multiplications or not", "why_tests_cant": "Tests compare a few outputs with a tolerance; whether errors grow from layer to layer until they change a prediction depends on all weights and inputs.", "anchors": ["src/runtime/cpu/cpubackend.cpp: CPUBackend::forward", "src/model/model.cpp: Model::forward", "src/runtime/cpu/kernels/kernels.cpp: CPULinearForward", "src/runtime/cpu/kernels/kernels.cpp: CPUBatchNorm1DForward", "src/runtime/cpu/kernels/kernels.cpp: CPUReLUForward", "src/runtime/cpu/kernels/kernels.cpp: CPULeakyReLUForward", "src/runtime/cpu/kernels/kernels.cpp: CPUELUForward", "src/runtime/cpu/kernels/kernels.cpp: CPUSigmoidForward", "src/runtime/cpu/kernels/kernels.cpp: CPUSoftmaxForward"]}
{"id": "C115", "title": "Image networks with branches in float", "statement": "The outputs of a model built from Convolutional, MaxPooling, GlobalAvgPooling, BatchNorm2D and BatchNorm1D (evaluation mode), Linear and activation layers, one after another or in branches that Add joins, computed in float, are finite and differ from those of the same layers in exact arithmetic by at most a bound computed along the model, provided the bound shows that nothing overflows. So two runs agree up to twice the bound d, the order of two outputs is that of exact arithmetic when they differ by more than twice the bound, and the probabilities of a softmax at the end differ by at most exp(2 d) - 1 + 2 (m + 1) u + 3 e.", "quantifier": "all models of these layers, of all depths, kernel sizes, strides and paddings, all weights and images within the bounds, all orders of summation, fused multiplications or not", "why_tests_cant": "Residual networks add branches with different errors and have thousands of windows; a test compares a few outputs with a tolerance.", "anchors": ["src/runtime/cpu/cpubackend.cpp: CPUBackend::forward", "src/model/model.cpp: Model::forward", "src/runtime/cpu/kernels/kernels.cpp: CPUConvolutionalForward", "src/runtime/cpu/kernels/kernels.cpp: im2col", "src/runtime/cpu/kernels/kernels.cpp: CPUMaxPoolingForward", "src/runtime/cpu/kernels/kernels.cpp: CPUGlobalAvgPoolingForward", "src/runtime/cpu/kernels/kernels.cpp: CPUAddForward", "src/runtime/cpu/layers/cpubatchnorm2d.cpp: CPUBatchNorm2D::forward"]}
{"id": "C116", "title": "Batch normalization of a batch is accurate in float", "statement": "In training mode, with float arithmetic, inputs up to A <= 2^50, eps between 2^-40 and 1, gamma up to 2^20 and up to 2^20 rows B, the outputs of BatchNorm1D and BatchNorm2D are finite, are at most 1.21 |gamma| sqrt(B) + 1.01 |beta| whatever the inputs are, and differ from those of exact arithmetic by at most |gamma| sqrt(B) (4 (B + 3) u (1 + A / sqrt(eps)) + 1.5 r) + (8 u + 1.2 r) |beta|, apart from 2^-80. u = 2^-24, r is the relative error of the square root.", "quantifier": "all batches, all orders of summation, fused multiplications or not, also if the mean is computed anew for each element", "why_tests_cant": "The mean is subtracted from numbers near to it and the difference is divided by its own size; whether errors are blown up depends on the whole column.", "anchors": ["src/runtime/cpu/kernels/kernels.cpp: CPUBatchNorm1DForward", "src/runtime/cpu/layers/cpubatchnorm1d.cpp: CPUBatchNorm1D::forward", "src/runtime/cpu/layers/cpubatchnorm2d.cpp: CPUBatchNorm2D::forward"]}
{"id": "C117", "title": "Batch normalization sends a constant feature to beta", "statement": "If a feature has the same value in all rows of a batch, batch normalization in training mode outputs beta for it, in float.", "quantifier": "all values, numbers of rows, gamma, beta and eps", "why_tests_cant": "In exact arithmetic the centred column is zero; in float the mean of equal numbers can differ from them, and dividing by the deviation makes the difference as large as gamma. Tests use values for which the mean is exact.", "anchors": ["src/runtime/cpu/kernels/kernels.cpp: CPUBatchNorm1DForward"]}
{"id": "C118", "title": "Running statistics of batch normalization do not drift", "statement": "With float arithmetic, after any number of training batches with inputs up to A, the running mean differs from the moving average of the exact means of the batches by at most (10 u K + 5 h) / (1 - alpha) + 1.4 (N + 3) u A, and the running variance from the moving average of the exact variances by at most (10 u K' + 5 h) / (1 - alpha) + 17.2 (N + 3) u A^2, apart from 2^-89. K and K' bound the numbers averaged, N the rows of a batch, alpha <= 1 - 2^-10, h = 2^-150. The bounds do not grow with the number of batches.", "quantifier": "all sequences of batches, all lengths of training, batches with different numbers of rows, changing gamma and beta", "why_tests_cant": "Drift shows after many batches; a test runs a few.", "anchors": ["src/runtime/cpu/kernels/kernels.cpp: CPUBatchNorm1DForward"]}
{"id": "C119", "title": "Gradients of deep networks in float", "statement": "Backpropagation in float through any number of Linear, ReLU, LeakyReLU, ELU and Sigmoid layers gives finite gradients for all inputs and parameters. They differ from the partial derivatives of the exact function by at most bounds computed layer by layer, forwards for the activations and backwards for the gradients, provided the bounds show that nothing overflows and no exact input of ReLU, LeakyReLU or ELU is nearer to 0 than its error bound. So the gradients of two runs with different orders of summation agree up to twice the bounds.", "quantifier": "all depths, widths, batch sizes, weights, inputs and gradients of the outputs within the bounds, all orders of summation, fused multiplications or not", "why_tests_cant": "Errors of the forward pass enter the backward pass of every layer; a gradient check by finite differences in float has larger errors than the gradients themselves.", "anchors": ["src/model/model.cpp: Model::backward", "src/runtime/cpu/kernels/kernels.cpp: CPULinearInputGrad, CPULinearWeightGrad, CPULinearBiasGrad", "src/runtime/cpu/kernels/kernels.cpp: CPUReLUInputGrad", "src/runtime/cpu/kernels/kernels.cpp: CPULeakyReLUInputGrad", "src/runtime/cpu/kernels/kernels.cpp: CPUELUInputGrad", "src/runtime/cpu/kernels/kernels.cpp: CPUSigmoidInputGrad"]}
{"id": "C120", "title": "A training step of a deep classifier in float", "statement": "One iteration of training (forward pass through Linear and activation layers, Softmax, CrossEntropyLoss, backward pass, SGD step), computed in float, reports the exact loss up to (80 B + 1.3 m + 250) u + 2 d + 2.5 e + 76 e' and leaves all parameters finite and within explicit bounds of those of a step of gradient descent on the exact loss. B is the batch size, m the number of classes, d the error bound of the outputs of the last layer, e and e' the relative errors of exp and log.", "quantifier": "all depths, widths, labels, learning rates, weights and batches within the bounds (B and m up to 2^18, outputs of the last layer up to 31), all orders of summation, fused multiplications or not", "why_tests_cant": "Tests train small models and look at the final accuracy, which hides wrong or inaccurate single steps.", "anchors": ["samples/mnist/main.cpp: main", "src/model/model.cpp: Model::forward", "src/model/model.cpp: Model::backward", "src/loss.cpp: CrossEntropyLoss", "src/optimizer.cpp: SGD::step"]}
{"id": "C121", "title": "Gradients of image networks with branches in float", "statement": "Backpropagation in float through networks built from Convolution, MaxPooling, GlobalAvgPooling, Linear, the activations and branches joined by Add gives finite gradients for all images and parameters. They differ from the derivatives of the exact function in every direction by at most bounds computed layer by layer, whatever the order in which layers add to the gradient of a tensor they share, provided the bounds show that nothing overflows, the exact function has no kink there and the errors do not reach one: the inputs of ReLU, LeakyReLU and ELU are farther from 0 than their error bound, and elements of a pooling window below its maximum are below it by more than twice theirs. Ties are allowed between zeros that come from ReLU.", "quantifier": "all networks of these layers, all geometries with positive strides, all batches, weights and gradients of the outputs within the bounds, all orders of summation and of accumulation, fused multiplications or not", "why_tests_cant": "The gradient of a tensor with several consumers is summed in an order that depends on the whole graph, windows overlap, and the place remembered by pooling depends on rounding; tests compare single layers on a few numbers.", "anchors": ["src/model/model.cpp: Model::backward", "src/runtime/cpu/cpubackend.cpp: CPUBackend::backward", "src/runtime/cpu/kernels/kernels.cpp: CPUConvolutionalInputGrad", "src/runtime/cpu/kernels/kernels.cpp: CPUConvolutionalWeightsGrad, CPUConvolutionalBiasGrad", "src/runtime/cpu/kernels/kernels.cpp: col2im", "src/runtime/cpu/kernels/kernels.cpp: CPUMaxPoolingInputGrad", "src/runtime/cpu/kernels/kernels.cpp: CPUGlobalAvgPoolingInputGrad", "src/runtime/cpu/layers/cpuadd.cpp: CPUAdd::backward"]}
{"id": "C122", "title": "A training step of an image classifier in float", "statement": "One iteration of training (forward pass through a network of Convolution, MaxPooling, GlobalAvgPooling, Linear and activation layers with branches joined by Add, then Softmax, CrossEntropyLoss, backward pass and SGD step), computed in float, reports the exact loss up to (80 B + 1.3 m + 250) u + 2 d + 2.5 e + 76 e' and leaves all weights and biases finite and within explicit bounds of those of a step of gradient descent on the exact loss. B is the batch size, m the number of classes, d the error bound of the outputs of the last layer, e and e' the relative errors of exp and log. Linear layers may read images directly.", "quantifier": "all networks of these layers, geometries with positive strides, labels, learning rates, weights and batches within the bounds (B and m up to 2^18, outputs of the last layer up to 31, no kink nearer than the error bounds), all orders of summation and of accumulation, fused multiplications or not", "why_tests_cant": "Tests train small models and look at the final accuracy, which hides wrong or inaccurate single steps, and no test computes exact derivatives of a whole network.", "anchors": ["samples/cifar10/main.cpp: main", "src/model/model.cpp: Model::forward", "src/model/model.cpp: Model::backward", "src/loss.cpp: CrossEntropyLoss", "src/optimizer.cpp: SGD::step", "src/runtime/cpu/layers/cpulinear.cpp: CPULinear::forward, CPULinear::backward"]}
{"id": "C123", "title": "Gradients of batch normalization in float", "statement": "After a pass of BatchNorm1D or BatchNorm2D in training mode in float, backward adds to the gradient of the input the gradient of the exact layer, including the dependence of mean and variance on the input, up to |gamma| g / sqrt(eps) sqrt(B) (53 (B + 8) u (1 + A / sqrt(eps)) + 16 r) + 2^-60 and u times what was there; updateGradients stores the gradients of the exact layer with respect to gamma up to B g (10 (B + 3) u (1 + A / sqrt(eps)) + 2.4 r) + 2^-60 and beta up to 1.2 B^2 u g + 2^-60. B is the number of rows, A bounds the inputs, g the gradients of the output, r is the relative error of the square root, u = 2^-24.", "quantifier": "all batches of up to 2^20 rows, inputs up to 2^50, gradients up to 2^30, gamma up to 2^20, eps from 2^-40 to 1, all orders of summation, also different ones for each use of an expression, fused multiplications or not", "why_tests_cant": "The gradient of a batch norm is a difference of terms that nearly cancel, computed from a stored mean and deviation that have rounding errors of their own; tests compare a few numbers.", "anchors": ["src/runtime/cpu/kernels/kernels.cpp: CPUBatchNorm1DInputGrad", "src/runtime/cpu/kernels/kernels.cpp: CPUBatchNorm1DParamGrad", "src/runtime/cpu/layers/cpubatchnorm1d.cpp: CPUBatchNorm1D::backward, CPUBatchNorm1D::updateGradients", "src/runtime/cpu/layers/cpubatchnorm2d.cpp: CPUBatchNorm2D::backward, CPUBatchNorm2D::updateGradients"]}
{"id": "C124", "title": "Training an image classifier in float with momentum or Adam", "statement": "A network of Convolution, MaxPooling, GlobalAvgPooling, Linear and activation layers with branches joined by Add, then Softmax, is trained in float with CrossEntropyLoss and SGDMomentum or Adam. In every iteration of a run of any length the reported loss is the exact loss at the current parameters up to (80 B + 1.3 m + 250) u + 2 d + 2.5 e + 76 e'. The velocities, moving means, moving variances and parameters afterwards are finite and are those that the formulas of the optimizer give for the exact gradient of the exact loss, up to explicit errors that follow from those of the gradients. What the optimizer keeps stays bounded whatever the length of the run: velocities by about (lr |gradient|) / (1 - gamma), means by the gradients and variances by their squares, up to 3 percent.", "quantifier": "all such networks, batches (also another one in every iteration), numbers of iterations, settings of the optimizers with 1 - gamma at least 2^-10 and 1 - beta at least 2^-14, orders of summation, fused multiplications or not, as long as outputs are at most 31, no value is nearer to a kink than its error and no parameter overflows", "why_tests_cant": "The errors of the gradients enter numbers that the optimizer carries from one iteration to the next, and Adam divides by a root that may be small; a test can run a few iterations of one network.", "anchors": ["src/optimizer.cpp: SGDMomentum::step", "src/optimizer.cpp: Adam::step", "samples/mnist/main.cpp: main", "samples/cifar10/main.cpp: main", "samples/cifar100/main.cpp: main"]}
{"id": "C125", "title": "Training a linear classifier in float reaches the best loss up to rounding", "statement": "A model Softmax(Linear(x)) is trained in float with SGD and a learning rate lr up to 1 / (2 Q), where every row has 1 + |x|^2 at most Q, from parameters theta. Let s be parameters for which |theta - s|^2 + 2 lr (the sum of their exact losses on the batches) + N delta is at most D^2. All parameters of the run are finite and within D of s, and every reported loss is the exact loss up to the error of C104. On changing batches (1 - 2 lr Q) times the sum of the reported losses is at most the sum of the exact losses of s plus |theta - s|^2 / (2 lr) plus N times (delta / (2 lr) + the error of a loss). On one batch the exact loss never rises by more than k (n + 1) A rho in an iteration, and after t iterations it is at most that of s plus |theta - s|^2 / (2 lr t) + (t + 1) k (n + 1) A rho + delta / (2 lr). Here rho is the error of a parameter in one step (C104) and delta = k (n + 1) rho (2 D + rho).", "quantifier": "all batches of B up to 2^18 rows of n up to 2^15 inputs of size up to A, all k up to 2^18 classes, all labels, starting points, numbers N of iterations and parameters s whose size plus D is at most V with (n A + 1) V at most 30, all orders of summation, also different ones in each iteration, fused operations or not", "why_tests_cant": "Rounding errors of one iteration move the starting point of the next; that they do not build up and drive training away from the optimum is a statement about all runs, and a test sees one run on one machine.", "anchors": ["src/optimizer.cpp: SGD::step", "src/loss.cpp: CrossEntropyLoss", "src/runtime/cpu/kernels/kernels.cpp: CPULinearForward", "src/runtime/cpu/kernels/kernels.cpp: CPULinearWeightGrad", "src/runtime/cpu/kernels/kernels.cpp: CPUSoftmaxInputGrad", "src/runtime/cpu/kernels/kernels.cpp: CPUNLLLoss"]}
{"id": "C126", "title": "The averages that the samples print", "statement": "The training and validation loops of the samples add the losses or accuracies of N batches in a float and print the sum divided by N. The printed average of finite numbers up to A is finite and differs from their exact average by at most 1.3 (N + 1) u A + 4 h, u = 2^-24, h = 2^-150. The accuracy that is printed is a number between 0 and 1, differs from the fraction of all rows that are predicted right by at most (1.3 N + 2.5) u, is exactly 1 if all rows are right, and is 0 exactly if none is. With N batches of B rows and N B (13 N + 25) < 5 * 2^24, as for the 10000 images of MNIST in batches of 32, it also determines the number of rows that are right: the printed number times N B, rounded to a whole number. Then 1 is printed only if all rows are right. The average loss printed while a linear classifier is trained as in C125 obeys the bound of C125 divided by N, plus 98 (N + 1) u. If there was no batch at all, NaN is printed.", "quantifier": "all N from 1 to 2^20, all batch sizes up to 2^24 and up to 2^24 + 1 classes, all predictions and labels, all finite losses up to 2^100", "why_tests_cant": "A sum that is kept in a float loses more of each new term the longer it grows; whether the average of a long epoch can still be trusted, and cannot be above 1, concerns all sequences of results.", "anchors": ["samples/mnist/main.cpp: main", "samples/iris/main.cpp: main", "samples/cifar10/main.cpp: main", "samples/cifar100/main.cpp: main", "src/metrics.cpp: accuracy"]}
{"id": "C127", "title": "Validation in float agrees with the exact network", "statement": "A network in evaluation mode (linear layers, convolutions, pooling, batch normalization, activations and branches joined by Add, then Softmax) is validated in float on N batches. Let d be the error bound of its outputs before Softmax (C115) and e = 2 (exp(2 d) - 1 + 2 (m + 1) u + 3 eps) with m classes. An image is surely right if the exact network gives its label a probability that exceeds each other one by more than e, and surely wrong if another class exceeds the label by more than e. The accuracy that is printed is a number between 0 and 1, at least the fraction of surely right images and at most 1 less the fraction of surely wrong ones, up to (1.3 N + 2.5) u. It is 1 if all images are surely right and 0 if all are surely wrong.", "quantifier": "all such networks whose numbers do not overflow by the bounds of C115, all images and labels, all N from 1 to 2^20, batches of up to 2^24 images and up to 2^20 classes, all orders of summation, also different ones for each batch, fused operations or not", "why_tests_cant": "Two machines may order the additions of a layer in different ways; that the measured accuracy can differ only by the images on which the network is nearly undecided is a claim about all weights, images and orders.", "anchors": ["samples/mnist/main.cpp: main", "samples/cifar10/main.cpp: main", "samples/cifar100/main.cpp: main", "src/metrics.cpp: accuracy", "src/runtime/cpu/cpubackend.cpp: forward", "src/runtime/cpu/kernels/kernels.cpp: CPUSoftmaxForward"]}
{"id": "C128", "title": "Shapes that the benchmarks print", "statement": "The shape of the elements of a dataset is printed as its numbers in brackets, separated by a comma and a space. The text determines the shape: two shapes that are printed alike are equal. The empty shape is printed as nothing.", "quantifier": "all vectors of integers, of any length and sign", "why_tests_cant": "Whether a format is unambiguous is a statement about all pairs of vectors.", "anchors": ["benchmarks/utils/output_utils.cpp: operator<<"]}
{"id": "C129", "title": "The layout of what the benchmarks print", "statement": "A row of the table of results has four columns of 20 characters with the text in the middle, and all lines of the table are equally long, whatever the results; headers are a text between two lines of stars of the same length, and all of it goes to the stream that is given. The code violates this. Texts of up to 20 characters are placed so, but the lines between the rows are two characters shorter than the rows. For a text of more than 20 characters, such as a loss of 10^13 or more, more than 2^64 characters are printed. The line of a header is as long as the stars only if its text has an even number of characters, and a text of more than 86 characters makes it longer than 2^63. With a stream other than std::cout the text of a header goes to std::cout.", "quantifier": "all texts, all results with up to 10^11 epochs and milliseconds and accuracies and losses that are NaN, infinite or up to 10^11, with ratios up to 10^11", "why_tests_cant": "Subtractions of unsigned numbers wrap around for texts longer than the tables that anyone looked at.", "anchors": ["benchmarks/utils/output_utils.cpp: PrintHeader", "benchmarks/utils/output_utils.cpp: PrintBenchmarkResultsTable", "benchmarks/utils/output_utils.hpp: OUTPUT_WIDTH"]}
{"id": "C130", "title": "The percentages that the benchmarks print", "statement": "The column that compares Deepworks with Torch has a plus sign exactly if Deepworks is not worse (times and losses: not larger, accuracies: not smaller), followed by 100 (larger / smaller - 1) with two digits after the point, right to half of the last digit. The code violates this for zero: a time below one millisecond is 0, and inf or nan is printed.", "quantifier": "all positive numbers of Deepworks and Torch, larger or smaller is better", "why_tests_cant": "The sign depends on which of two numbers is larger and on which direction is better, and the digits on the ratio; examples do not show that no combination is wrong.", "anchors": ["benchmarks/utils/output_utils.cpp: PrintBenchmarkResultsTable"]}
{"id": "C131", "title": "The results of a benchmark", "statement": "A benchmark of several epochs reports their number, the loss and accuracy of the last epoch (0 if there was none), and the time of training and of validation of all epochs, in milliseconds. The code violates the last part: for a clock that does not run backwards the reported time is at most the true one and misses less than a millisecond for each epoch, so validations that take less than a millisecond each are reported as 0, however many there are; and when the clock, which is not a steady one, is set back during an epoch, a number near 2^64 is reported.", "quantifier": "all numbers of epochs, all durations, losses and accuracies", "why_tests_cant": "Times are cut off in each epoch before they are added; what is lost grows with the number of epochs, and jumps of the clock do not happen in tests.", "anchors": ["benchmarks/mnist/benchmark_dw.hpp: executeDeepworksMNISTBenchmark", "benchmarks/cifar10/benchmark_dw.hpp: executeDeepworksCIFAR10Benchmark"]}
{"id": "C132", "title": "The text of an exception", "statement": "The text that what() shows for an exception of the library is 'Failed: <file> in function: <function> in line: <line>', a line break, and then all that was streamed to the exception or one of its copies, in order; a copy shows the same text as the original, before and after more is streamed to either, and the one that a failed assertion throws shows the place and the asserted expression although the temporary it was copied from is gone. What what() returned can be read until the exception ends. The code violates the last part: a second call of what(), also for a copy, frees the result of the first one. It is kept by all else, until the last of the copies ends.", "quantifier": "all histories of creating, copying, streaming to, showing and ending exceptions", "why_tests_cant": "Copies share a stream and a message; whether a pointer is still valid depends on the order of calls for all copies, and reading freed memory often shows the old text.", "anchors": ["include/deepworks/utils/assert.hpp: DeepWorksException, DeepWorks_Assert", "src/utils/assert.cpp: DeepWorksException::what"]}
{"id": "C133", "title": "The command line of the samples", "statement": "A sample that is called with 'train', a directory, the batch size, the number of epochs, how often to report and a file for the model, or with 'test', a directory, the batch size and a file, uses exactly these values, for all whole numbers of type int in decimal notation; it rejects another mode, missing arguments and arguments that are not numbers. The code violates the last two: a missing argument makes it use a null pointer, and a text that begins with a letter is taken as 0, as what follows a number is ignored. If a sample goes on, all arguments of its mode were there, and the numbers are what atoi makes of them.", "quantifier": "all lists of arguments, all numbers and texts", "why_tests_cant": "There are infinitely many command lines; what an unusual one does is undefined, so a run proves nothing about it.", "anchors": ["samples/mnist/main.cpp: main", "samples/iris/main.cpp: main", "samples/cifar10/main.cpp: main", "samples/cifar100/main.cpp: main"]}
{"id": "C134", "title": "The progress that the samples print", "statement": "In each epoch of training a sample prints the average of the losses so far after each freq samples, and at the end the average of all losses of the epoch. The code violates it: a line is printed every freq / gcd(freq, batch size) iterations, which is after each freq samples only if freq is a multiple of the batch size; if the two have no common divisor nothing is printed for freq iterations. With freq = 0, and for epochs of 2^31 samples or more, the behaviour is undefined.", "quantifier": "all batch sizes, numbers of batches, losses and values of freq, negative ones too", "why_tests_cant": "Which iterations print depends on divisibility for arbitrary pairs of numbers, and the overflow needs an epoch too long for a test.", "anchors": ["samples/mnist/main.cpp: main", "samples/iris/main.cpp: main", "samples/cifar10/main.cpp: main", "samples/cifar100/main.cpp: main"]}
{"id": "C135", "title": "Reading images leaves nothing open", "statement": "When ReadImage returns or throws it has closed the file that it opened and freed all memory of the libraries, each exactly once, so that nothing piles up however many images are read and however many of them are broken. The code violates it for PNG files with pixels that cannot be read: all rows allocated so far are lost (and the array of pointers to them, if the handler sees its old value), and for files that cannot be opened, for which it closes a null pointer. In all other cases, also when the size of the tensor is wrong or the file has a wrong signature or header, the property holds; errors of libjpeg end the process.", "quantifier": "all sequences of calls, all files, heights and outcomes of the libraries", "why_tests_cant": "A test sees no leak, and the error paths depend on where a broken file makes a library give up.", "anchors": ["src/io/image_reader.cpp: ReadPngFile, ReadJpegFile, ReadImage"]}
{"id": "C136", "title": "The command line of the benchmarks", "statement": "A benchmark that is called with a directory, the batch size and the number of epochs uses exactly these values, for all whole numbers of type int in decimal notation, and runs as many epochs as it was told, none for numbers that are not positive; missing arguments are rejected. The code violates two of this: a missing argument makes it use a null pointer, and a negative number of epochs is converted to a huge one, so that the loop does not end before its counter overflows after 2^31 epochs, which is undefined behaviour.", "quantifier": "all lists of arguments with numbers of type int, all numbers of epochs", "why_tests_cant": "A test cannot wait for 2^31 epochs, and has no defined result to compare with.", "anchors": ["benchmarks/mnist/main.cpp: main", "benchmarks/cifar10/main.cpp: main", "benchmarks/mnist/benchmark_dw.hpp: executeDeepworksMNISTBenchmark", "benchmarks/cifar10/benchmark_dw.hpp: executeDeepworksCIFAR10Benchmark"]}
{"id": "C137", "title": "What the benchmarks print about datasets and epochs", "statement": "The lines about a dataset, printed after a header, determine its name (if it has no line break), the two sizes and the shape. The lines about the epochs of a benchmark show number of the epoch, loss and accuracy in three columns of the same width in all lines. The code violates the last part: it holds if there are fewer than 10^10 epochs and losses and accuracies take at most ten characters, but a loss such as 1.23457e-05 takes eleven and makes its line longer.", "quantifier": "all names, sizes, shapes and numbers of epochs, all texts of losses and accuracies", "why_tests_cant": "The widths depend on the digits of arbitrary numbers; a test run sees a few of them.", "anchors": ["benchmarks/utils/output_utils.cpp: PrintDatasetInfo", "benchmarks/utils/output_utils.cpp: PrintEpochInformation"]}
