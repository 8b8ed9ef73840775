"""Source of properties.jsonl (second batch, added while the model grew)."""
P = []
def p(id, title, statement, quantifier, why, anchors):
    P.append(dict(id=id, title=title, statement=statement, quantifier=quantifier,
                  why_tests_cant=why, anchors=anchors))

U = "kfac/python/ops/utils.py"; FB = "kfac/python/ops/fisher_blocks.py"; FF = "kfac/python/ops/fisher_factors.py"
OPT = "kfac/python/ops/optimizer.py"; LC = "kfac/python/ops/layer_collection.py"; LF = "kfac/python/ops/loss_functions.py"
EST = "kfac/python/ops/estimator.py"; PL = "kfac/python/ops/placement.py"; CM = "kfac/python/ops/curvature_matrix_vector_products.py"
PER = "kfac/python/ops/kfac_utils/periodic_inv_cov_update_kfac_opt.py"; ASY = "kfac/python/ops/kfac_utils/async_inv_cov_update_kfac_opt.py"
DR = "kfac/python/ops/kfac_utils/data_reader.py"; DRA = "kfac/python/ops/kfac_utils/data_reader_alt.py"
GM = "kfac/python/ops/tensormatch/graph_matcher.py"; GS = "kfac/python/ops/tensormatch/graph_search.py"
KO = "kfac/python/keras/optimizers.py"; KU = "kfac/python/keras/utils.py"; KC = "kfac/python/keras/callbacks.py"

p("C63", "The SUA factor holds the second moments of Theorem 4 for the batch it saw",
  "After the first covariance update the undamped SUA input factor equals, entry by entry, the batch second moment of two channels at the same filter position, the product of the channel means at different positions, the channel mean against the bias and 1 for the bias itself; with ASSUME_ZERO_MEAN_ACTIVATIONS the same with all products of means replaced by zero (and the covariance centred if SUBTRACT_MEAN_CONTRIB_FROM_COV).",
  "all batches split evenly over towers and replicas, channel counts, kernel sizes, decays",
  "A test compares numbers for particular shapes, and a test that repeats the formula repeats its mistakes.",
  [FF+": ConvInputSUAKroneckerFactor"])

p("C64", "The lag-one statistic of recurrent layers pairs consecutive steps of the same example",
  "For a layer used T times with inputs in time-major order, the lag-one covariance that FullyConnectedMultiKF adds at an update is the sum over all examples b and steps t of x(t+1,b) times x(t,b) transposed, divided by the number T·B of rows; no product mixes two examples or skips a step.",
  "all T >= 1, batch sizes, dimensions and values",
  "A pairing of wrong rows is a permutation of indices that only shows in the summed result, for particular data.",
  [FF+": FullyConnectedMultiKF"])

p("C65", "A detected layer whose variables are free is registered with the approximation the user asked for",
  "When the graph search finds a layer of a supported type whose variables are not registered, automatic registration registers it as a block of the class that the approximation linked to its parameters (else the default of the layer type) stands for, holding the tensors found as its first tower.",
  "all collections reached by any history of calls, all matches",
  "The combinations of layer types, approximations and uses are too many to run one at a time.",
  [GS+": register_records", LC+": _get_block_type"])

p("C66", "The number of uses passed on for folded layers is the number of batches in the inputs",
  "For a layer matched once whose first dimension differs from the batch size the number of uses times the batch size is the first dimension (rejected if not divisible); for inputs of shape [num_uses, batch_size, input_size] it is the first dimension.",
  "all shapes and batch sizes",
  "A test tries particular folded shapes; the claim is for every shape.",
  [GS+": register_records"])

p("C67", "Automatic registration and the collection look at everything the losses depend on",
  "The subgraph in which uses are counted, and the one searched for layers, consist of exactly those tensors and ops which some input of some registered loss depends on, whether the loss has one or several inputs.",
  "all graphs and all lists of losses",
  "The claim is for all graphs and all numbers of inputs of a loss; a test builds particular graphs.",
  [GS+": register_layers", LC+": _create_subgraph", U+": SubGraph"])

p("C68", "Extracted patches times the flattened filter is the convolution",
  "extract_convolution_patches returns, at every output position, the input pixels which a convolution of the same geometry combines with each filter entry, so that multiplying by the flattened filter gives that convolution.",
  "all images, filter sizes, strides, dilations and paddings",
  "A test compares particular shapes with a numeric convolution.",
  [U+": extract_convolution_patches"])

p("C69", "The generated loss function is the weighted sum of the losses plus the model's own losses",
  "For every model, losses (single, list or dictionary, by name or callable) and loss weights, the function returned by get_loss_fn evaluates to the sum over outputs of the weight given for the output (1.0 if none) times the reduced loss given for that output, plus the sum of model.losses.",
  "all models, losses, weights, predictions and labels",
  "A test compares particular models with the Keras loss.",
  [KU+": get_loss_fn"])

p("C70", "Diagonal factors hold the mean squares of the per-example gradients",
  "For fully connected and convolutional layers with the diagonal approximation, every entry of the covariance statistics is the mean over the batch of the squared derivative of the example's loss by the weight or bias which mat2d_to_layer_params puts at that entry; with a patch mask, of the masked convolution.",
  "all batches, layer sizes, filter geometries, masks and differentiable losses",
  "A test checks particular batches and masks; the claim is for all of them.",
  [FF+": FullyConnectedDiagonalFactor", FF+": ConvDiagonalFactor"])

p("C71", "Scale-and-shift layers are registered for exactly the parameter shapes that broadcast",
  "register_scale_and_shift accepts a scale (shift) exactly if its shape broadcasts to the shape of the inputs (outputs) without enlarging them and it does not vary with the batch dimension, and then sums derivatives over exactly the non-batch dimensions along which it is broadcast.",
  "all shapes without empty dimensions",
  "A test uses particular shapes and ranks.",
  [LC+": register_scale_and_shift"])

p("C72", "Scale-and-shift factors hold second moments of the true per-example gradients",
  "For layers computing inputs * scale (+ shift) with parameters that broadcast, the full factor holds the mean outer product and the diagonal factor the mean square of the per-example gradients by the scale followed by the shift.",
  "all broadcastable shapes, batches and differentiable losses",
  "A test compares with a computation for particular shapes.",
  [FF+": ScaleAndShiftFullFactor", FF+": ScaleAndShiftDiagonalFactor"])

p("C73", "The KFC factors are the means over examples and positions, exact under the KFC assumptions",
  "The input factor of a convolution is the mean over examples and output positions of products of the (masked) inputs read by two filter taps (or 1 for the bias), the output factor that of the output derivatives; if on the batch the KFC independence, homogeneity and uncorrelatedness assumptions hold, num_locations times their Kronecker product is the mean outer product of the gradients.",
  "all batches, filter geometries and differentiable losses",
  "A test checks numbers for particular convolutions, not the relation to the gradients of all of them.",
  [FF+": ConvInputKroneckerFactor", FF+": ConvOutputKroneckerFactor"])

p("C74", "Subsampling of inputs and patches leaves the statistics unbiased",
  "With sub_sample_inputs and/or sub_sample_patches the input factor's expectation over the random shuffles is the factor of all the data; samples are without replacement and of the configured size.",
  "all batches, limits and fractions",
  "A randomised computation is tested with particular seeds.",
  [FF+": _subsample_patches", FF+": _random_tensor_gather", FF+": ConvInputKroneckerFactor"])

p("C75", "The sparse diagonal input factor equals the one of the one-hot inputs",
  "For ids the diagonal input factor holds the relative frequency of every id (1 for the bias), equal to the diagonal of the dense second moment matrix of the one-hot encoding, which has no other entries (without a bias).",
  "all lists of ids and vocabulary sizes",
  "A test compares particular ids.",
  [FF+": DiagonalKroneckerFactor"])

p("C76", "The naive factors are unbiased when targets are sampled",
  "If the targets of the examples are drawn independently and the per-example gradients have mean zero, the expectation of NaiveFullFactor (NaiveDiagonalFactor) is the expectation of the mean outer product (square) of the per-example gradients.",
  "all distributions with square integrable gradients, all batch sizes",
  "An expectation over all draws is not testable.",
  [FF+": NaiveFullFactor", FF+": NaiveDiagonalFactor", FB+": NaiveFullFB", FB+": NaiveDiagonalFB"])

p("C77", "Full and diagonal blocks multiply by powers of their damped statistics",
  "For full and diagonal blocks, multiply_matpower(v, exp) returns the structure and shapes of v with its flattened entries multiplied by the exp-th power of the statistics plus damping; inverse undoes multiply, powers of diagonal blocks add up, and the Cholesky multiplications compose to the multiplication. The damping of convolutional diagonal blocks is not changed by the normalisation being undone. For fully connected and convolutional layers the diagonal block multiplies each weight by the power of the mean square of its own per-example gradients plus damping.",
  "all statistics, dampings, exponents, parameter structures and shapes",
  "A test uses particular vectors and shapes for each block.",
  [FB+": FullFB", FB+": DiagonalFB", FB+": ConvDiagonalFB"])

p("C78", "Blocks of depthwise convolutions treat every channel in isolation",
  "multiply_matpower of the diagonal depthwise block multiplies each entry of the filter by the power of the mean square of the per-example gradients of the depthwise convolution by that entry plus damping, and multiply_inverse undoes multiply. The Kronecker-factored block multiplies by the block of its factors' Kronecker product that belongs to the filter, and multiply_inverse undoes multiply.",
  "all filter shapes, channel multipliers, statistics, dampings and exponents",
  "A test multiplies particular vectors with a particular block; the claim is about all of them.",
  [FB+": DepthwiseConvDiagonalFB", FB+": DepthwiseConvKFCBasicFB", FB+": depthwise_conv2d_filter_to_conv2d_filter", FB+": conv2d_filter_to_depthwise_conv2d_filter"])

p("C79", "All estimation modes estimate the same curvature matrix",
  "For every registered tensor the statistics of the output factors have expectation (gradients: over the model's predictive distributions; curvature_prop: over the signs) or value (exact) equal to the mean over the examples of the sum over the losses of coeff times J^T F J, F being the Fisher information of the loss's distribution and J the Jacobian of its inputs by the example's row; the same holds for blocks using the gradients of the parameters, and graph construction succeeds if every tensor influences a loss and is rejected otherwise. The empirical mode uses the per-example gradients of the total loss on the data.",
  "all numbers and mixtures of losses, coefficients, parameters, Jacobians and batch sizes",
  "Expectations over all targets are not testable; a test sees samples of one network.",
  [EST+": FisherEstimator._get_grads_lists_gradients", EST+": FisherEstimator._get_grads_lists_empirical", EST+": FisherEstimator._get_grads_lists_curvature_prop", EST+": FisherEstimator._get_grads_lists_exact", EST+": FisherEstimator._instantiate_factors", LC+": LayerCollection.eval_losses"])

p("C80", "The estimator's multiplications act block by block in the caller's order",
  "multiply, multiply_inverse, multiply_matpower and the Cholesky variants return one pair per given pair, in the same order and with the same variables; the vector of a variable is its part of its block's function applied to the vectors of the block's variables. The order of the pairs, the order of registration and the devices do not matter, and applying the inverse of every block returns the original pairs. A registered variable without a vector, or a vector without a registered variable, is an error. distribute_transformations=False makes every replica compute all blocks itself.",
  "all block structures, block functions, vectors, device lists and orders",
  "A test uses particular blocks in a particular order.",
  [EST+": FisherEstimator._compute_transformation", EST+": FisherEstimator.multiply_matpower", PL+": RoundRobinPlacementMixin._place_and_compute_transformation_thunks", PL+": ReplicaRoundRobinPlacementMixin"])

p("C81", "Layers used several times get the same statistics in every data format",
  "Whether the inputs and output gradients of a repeatedly used fully connected layer are registered as lists with one tensor per use or as tensors with the uses folded in (time-major), and whether TOWER_STRATEGY is concat or separate, the input factor's update is the mean over all examples and uses of the products, the lag-one statistic pairs consecutive uses of the same example, the output factor adds the sources, and the factors' batch sizes are the registered ones. A num_uses that contradicts the lists, different numbers of uses for inputs and outputs, or an unknown number of uses, are errors.",
  "all numbers of towers, uses, sources and examples",
  "A test uses particular numbers of towers and uses.",
  [FB+": InputOutputMultiTowerMultiUse._process_data", FF+": FullyConnectedMultiKF", FB+": FullyConnectedMultiIndepFB.instantiate_factors", U+": PartitionedTensor"])

p("C82", "The fully connected K-FAC factors are exact under the K-FAC assumptions",
  "If products of the inputs and products of the output derivatives are uncorrelated over the batch, the Kronecker product of the two factors is the mean outer product of the true per-example gradients by the stacked weights and bias. For a layer used T times the same holds with the factor T, if moreover derivatives of different uses are uncorrelated and the second moments of the inputs (or of the derivatives) are the same for all uses. A single example is always represented exactly.",
  "all batches, sizes, losses and parameters",
  "A test compares particular numbers, and a test that repeats the formula repeats its mistakes.",
  [FF+": FullyConnectedKroneckerFactor", FF+": FullyConnectedMultiKF._compute_new_cov", FB+": FullyConnectedKFACBasicFB", FB+": FullyConnectedMultiIndepFB._renorm_coeff"])

p("C83", "Convolutions used several times: factors and exactness",
  "ConvKFCBasicMultiIndepFB, in both data formats: the output factor is the mean over all uses, examples and positions of the products of output derivatives; with subsampling of inputs off (the default), the input factor is the mean over all uses, examples and positions of the products of the inputs read; and where derivatives at different uses and positions are uncorrelated (and uncorrelated with the inputs, with homogeneous second moments), num_locations * num_uses times the Kronecker product is the mean outer product of the true per-example gradients by filter and bias.",
  "all batches, numbers of uses, filter sizes, strides, dilations, paddings, losses and parameters",
  "A test compares factors with data for particular sizes.",
  [FB+": ConvKFCBasicMultiIndepFB.instantiate_factors", FF+": ConvInputMultiKF", FF+": ConvOutputMultiKF", FB+": ConvKFCBasicMultiIndepFB._renorm_coeff"])

p("C84", "Sparse vectors are preconditioned like the dense vectors they stand for",
  "For a vector given as tf.IndexedSlices (repeated indices add up), multiply, multiply_inverse, multiply_cholesky and multiply_cholesky_inverse of a Kronecker block return IndexedSlices with the same indices that stand for the result for the dense vector; matmul_sparse_dense and matmul_diag_sparse are products with the matrix the slices stand for; an index out of range is an error.",
  "all slices with any (also repeated) indices, matrices, factors, dampings and scales",
  "A test uses particular sparse matrices; repeated indices and all Cholesky multiplications are needed together.",
  ["kfac/python/ops/linear_operator.py: LinearOperatorFullMatrix, LinearOperatorDiag", U+": matmul_sparse_dense", U+": matmul_diag_sparse", FB+": KroneckerProductFB._multiply_factored_matrix"])

p("C85", "Asynchronous updates run every operation fairly and stop cleanly",
  "However the background threads of AsyncInvCovUpdateKfacOpt interleave, the covariance and inverse operations are started cyclically in the order of their names, so no operation is ever more than one start ahead of another; at most num_cov_inv_update_threads are in flight; no thread ends before stop_cov_inv_ops; after it each thread starts at most one more operation (only if it was about to draw), all threads end within three steps and everything started has finished. The default number of threads is half the number of operations, at most 10, and the operations are placed on cov_devices and inv_devices.",
  "all sets of operations with distinct names, numbers of threads and interleavings",
  "Interleavings of threads cannot be enumerated; no test file mentions the class.",
  [ASY+": AsyncInvCovUpdateKfacOpt"])

p("C86", "Losses are added with their coefficients, and first-order statistics are the gradient",
  "eval_losses yields one value per registered loss, on the data or on samples as asked, multiplied by the coefficient, its square root or nothing as asked; the totals are their sums; unknown modes are rejected. With compute_params_stats and estimation_mode='empirical', params_stats is on every replica the gradient, with respect to the variables in their order, of the mean over all examples of all replicas of the total loss; in the sampling modes its expectation is zero. Asking for these statistics does not change the gradients handed to the blocks, requires batch_size, and works for a list or a tuple of variables.",
  "all losses, coefficients, differentiable networks, parameters, targets, numbers of replicas and batch sizes",
  "No test file mentions compute_params_stats; a test would compare single numbers.",
  [LC+": LayerCollection.eval_losses", LC+": LayerCollection.total_loss", EST+": FisherEstimator._instantiate_factors", EST+": FisherEstimator.params_stats"])

GPAT = "kfac/python/ops/tensormatch/graph_patterns.py"
GTU = "kfac/python/ops/tensormatch/tensorflow_graph_util.py"
p("C87", "What the automatic graph search records as a layer is that layer",
  "A record made by the automatic registration for a tensor of the graph describes that tensor: its value is the recorded operation (product with the weights, convolution with the recorded strides, padding and format, lookup of rows, scaling, batch normalisation) of the recorded inputs and the recorded weight variable, plus the recorded bias if there is one; a variable added to the result that is among the variables of the optimizer is recorded as the bias. Conversely every such layer in the graph is found, whatever identity operations stand between its parts and on whichever side the bias is added.",
  "all graphs, tensors, shapes, attributes, variable sets, values and semantics of the operations",
  "A test matches particular small graphs and compares the bindings; the claim is for all graphs.",
  [GPAT+": Affine", GPAT+": ScaleAndShift", GPAT+": BatchNorm", GPAT+": FusedBatchNormOutput", GPAT+": Embed", GTU+": expand_inputs", GS+": record_affine_from_bindings", GS+": record_batch_norm_from_bindings", GS+": record_scale_and_shift_from_bindings"])

p("C88", "A Keras layer is registered as what it computes",
  "For every supported layer (Dense, Conv1D, Conv2D, Embedding, BatchNormalization, LayerNormalization) of a Keras model, register_layer makes exactly the registration call whose documented meaning is the function computed by the last call of the layer: the parameters in the order kernel, bias (with bias exactly if there is one), the inputs, the outputs before the activation, strides, padding, dilation rate and data format; for normalisation the scaled and shifted values are scale * inputs + shift, the inputs being the normalised activations. The approximation asked for is passed on. Trainable layers of other classes are rejected; layers without trainable parameters are passed over.",
  "all graphs, layers, geometries, activations, values and semantics of convolution, product and lookup",
  "A test registers particular models; what is registered has to agree with what the layer computes for all of them.",
  [KU+": register_layer", KU+": get_parent"])

p("C89", "The loss registered for a Keras output is the loss the model is trained with",
  "For the Keras losses mean squared error, (sparse) categorical cross entropy and binary cross entropy, given by name, as function or as class, register_loss registers a predictive distribution whose negative log-likelihood of the targets, averaged over the batch, is up to a constant the Keras loss with its weight as a function of the outputs; every other loss is rejected.",
  "all graphs, output layers, outputs, targets, batch sizes, numbers of components and weights",
  "A test compares particular models and outputs; the claim is about the value of the loss for all outputs.",
  [KU+": register_loss", LC+": LayerCollection.register_squared_error_loss", LC+": LayerCollection.register_softmax_cross_entropy_loss", LC+": LayerCollection.register_sigmoid_cross_entropy_loss"])

p("C90", "The statistics of a registered convolution are taken at the places the convolution reads",
  "A layer registered with register_conv1d, register_conv2d, register_convolution, register_depthwise_conv2d, register_separable_conv2d or register_conv2d_multi with the arguments of the corresponding TensorFlow call gets a block whose factors read the patches of that convolution (same strides, dilations and padding along each spatial dimension), so that every output of the layer is the product of such a patch with the filter, and whose number of locations is the number of output positions. Data formats that do not put channels last are rejected.",
  "all filter shapes, strides, dilations, paddings, image sizes, images and filters",
  "A test builds blocks for particular geometries; strides, dilations and paddings combine freely.",
  [LC+": LayerCollection.register_conv1d", LC+": LayerCollection.register_conv2d", LC+": LayerCollection.register_convolution", LC+": LayerCollection.register_depthwise_conv2d", LC+": LayerCollection.register_separable_conv2d", LC+": LayerCollection.register_conv2d_multi", FB+": ConvKFCBasicFB", FB+": ConvDiagonalFB", FF+": ConvInputKroneckerFactor"])

p("C91", "Without damping, training does not depend on how a network's layers are parametrised",
  "Take two networks of fully connected layers that are parametrisations of the same network: the inputs of corresponding layers are related by an invertible linear map (affine where there is a bias) and their outputs before the activation by another, e.g. because one uses tanh and the other a rescaled sigmoid, or one gets whitened inputs. Any sequence of covariance updates, inverse updates with zero damping and training steps with momentum and norm constraint, on the same data, succeeds on both if the statistics are nonsingular, and leaves them parametrisations of the same network: they compute the same function after every step.",
  "all depths, widths, activations, losses, batches, invertible maps, decays, learning rates, momenta, norm constraints, orders and numbers of operations",
  "Relates whole training runs of two differently parametrised models for all of their parametrisations; a test runs particular models.",
  [FB+": FullyConnectedKFACBasicFB", FB+": KroneckerProductFB._multiply_factored_matrix", FB+": KroneckerProductFB._setup_damping", FF+": FullyConnectedKroneckerFactor", FF+": DenseSquareMatrixFactor.make_inverse_update_ops", OPT+": KfacOptimizer.apply_gradients", OPT+": KfacOptimizer._update_velocities", OPT+": KfacOptimizer._update_clip_coeff"])
p("C92", "On linear regression K-FAC descends, converges to the least-squares solution, and is Newton's method when undamped",
  "Train one fully connected layer without activation on the squared error registered by register_squared_error_loss, with estimation mode 'exact' and no momentum, always on the whole training set. (1) After any sequence of covariance updates, inverse updates with positive damping and training steps, with or without a norm constraint, a training step with learning rate at most 2 succeeds and does not increase the mean squared error. (2) If the inputs span the space with second moments at least a, the damping is split into d for the inputs and e for the outputs with d*e = damping, and every training step shrinks the distance of the loss to the least possible loss at least by the factor 1 - 4c(1-c)a/(a+d), c = lr/(2+e), regardless of interleaved updates of the statistics. (3) For 0 < lr < 2 the loss converges to the least possible loss. (4) With zero damping each step multiplies the distance by exactly (1-lr)^2, so lr = 1 reaches the minimum in one step, and rates above 2 diverge.",
  "all training sets, numbers of inputs and outputs, bias or not, initial weights, decays, dampings, learning rates, pi rules, norm constraints, orders and numbers of operations",
  "A convergence statement about infinitely many runs of every length; a test sees a few steps of one problem.",
  [EST+": FisherEstimator._get_grads_lists_exact", LC+": LayerCollection.register_squared_error_loss", LF+": NormalMeanNegativeLogProbLoss.multiply_fisher_factor_replicated_one_hot", FB+": FullyConnectedKFACBasicFB", FB+": KroneckerProductFB._setup_damping", FB+": KroneckerProductFB._multiply_factored_matrix", FF+": DenseSquareMatrixFactor.make_inverse_update_ops", OPT+": KfacOptimizer.apply_gradients", OPT+": KfacOptimizer._update_clip_coeff"])
p("C93", "Gauss-Newton products agree with Hessian products wherever theory says so",
  "For every loss whose inputs are natural parameters (fixed-variance Gaussian, categorical, multi-Bernoulli) multiply_ggn is the Hessian of the loss by its inputs, for all targets. For any differentiable model and any list of such losses with coefficients, CurvatureMatrixVectorProductComputer.multiply_hessian(v) equals multiply_ggn(v) plus the second derivatives of the losses' inputs weighted with the derivatives of the losses; so the two agree exactly when the model is affine in the parameters, and for every model where the losses are stationary.",
  "all models twice continuously differentiable in their parameters, numbers of losses, coefficients, batch sizes, targets, parameters, vectors",
  "Relates second derivatives of arbitrary functions to the library's closed-form products; a test compares particular products.",
  [CM+": CurvatureMatrixVectorProductComputer.multiply_hessian", CM+": CurvatureMatrixVectorProductComputer.multiply_ggn", CM+": CurvatureMatrixVectorProductComputer._multiply_jacobian_transpose", LF+": NaturalParamsNegativeLogProbLoss.multiply_ggn", LF+": CategoricalLogitsNegativeLogProbLoss.multiply_fisher", LF+": MultiBernoulliNegativeLogProbLoss.multiply_fisher", LF+": NormalMeanNegativeLogProbLoss.multiply_fisher", LC+": LayerCollection.total_loss"])
p("C94", "minimize moves every registered variable by the update of the vector model and no other variable",
  "However the variables are grouped into blocks and whatever the order of var_list, minimize (with var_list=None or a list that names the registered variables) performs on the lists of (tensor, variable) pairs exactly the step that the update rule (momentum types 'regular', 'adam', 'qmodel', 'qmodel_fixedmu', norm constraint, weight decay, damping adaptation) prescribes for the concatenation of all registered variables, in any number of runs. Variables that are not registered, and their slots, never change. A list with a different set of variables is rejected with an error; so are gradients of a different set given to apply_gradients. compute_gradients() followed by apply_gradients is the same step if the trainable variables are the registered ones, and fails otherwise.",
  "all sets of variables, groupings into blocks, orders of var_list, gradients, states, configurations, numbers of runs",
  "A test builds particular graphs; the correspondence of the dictionary and list code with the vector formulas is for every grouping and order.",
  [OPT+": KfacOptimizer.minimize", OPT+": KfacOptimizer.compute_gradients", OPT+": KfacOptimizer.check_var_list", OPT+": KfacOptimizer.apply_gradients", OPT+": KfacOptimizer._compute_raw_update_steps", OPT+": KfacOptimizer._update_velocities", OPT+": KfacOptimizer._compute_qmodel", OPT+": KfacOptimizer._compute_prev_updates", LC+": LayerCollection.registered_variables", EST+": FisherEstimator._compute_transformation"])
p("C95", "Arithmetic on lists of (tensor, variable) pairs checks that the lists match",
  "sum_p, ip_p and assert_variables_match_pairs_list raise a ValueError unless both arguments name the same variables in the same order. If they do, sum_p adds the tensors variable by variable and ip_p is the sum of the products of all entries.",
  "all lists, variables and tensors",
  "No test file mentions sum_p, ip_p or assert_variables_match_pairs_list; the claim is for all lists.",
  [U+": _check_match_lists_of_pairs", U+": sum_p", U+": ip_p", U+": ip", U+": assert_variables_match_pairs_list"])
p("C96", "Blocks that share factors each use their own damping",
  "Blocks may share factors (e.g. two layers reading the same input). After registration, creation of the variables and any sequence of inverse updates of single factors, the powers, Cholesky factors and inverse Cholesky factors a block multiplies by are those of its factors' covariances plus that block's own part of the damping: the parts multiply to the damping normalised for the block's kind and stand in the ratio of the mean eigenvalues of the block's own two covariances, at the time the factor was last updated. If both factors were updated in the same run, multiply_inverse solves the system of the damped block exactly, and with the default normalisation the block's total damping is the estimator's. Factors of equal names, which would mix up dampings, make the creation of the variables fail.",
  "all sets of blocks and factors and ways of sharing, dimensions, numbers of locations and uses, exponents, damping, pi rules, schedules of inverse updates, covariances, constants",
  "A test builds particular estimators; the claim is for all numbers of blocks and all ways of sharing factors.",
  [FB+": KroneckerProductFB._setup_damping", FB+": KroneckerProductFB.register_matpower", FB+": KroneckerProductFB.multiply_matpower", FB+": PackagedFunc", EST+": FisherEstimator._register_matrix_functions", EST+": FisherEstimator.make_vars_and_create_op_thunks", FF+": DenseSquareMatrixFactor.instantiate_inv_variables", FF+": graph_func_to_id"])
p("C97", "On a quadratic loss the 'qmodel' optimizer predicts its progress exactly, only lowers the damping, and converges linearly",
  "Let the loss be one quadratic function of the parameters (e.g. linear least squares with an l2 penalty) on the whole data at every run, with momentum_type 'qmodel', and let the damping start at or above its lower bound. As long as the two-by-two system is solvable: the change stored in qmodel_change is exactly the change of the loss; the reduction ratio stored at every adaptation is one; neither the loss nor the damping ever increases (qmodel_update_rescale between 0 and 2); if the preconditioned gradients are descent directions, the damping after any number of runs is the initial damping times omega to the number of adaptations, or its lower bound; and with preconditioners between m and M and curvature between mu and L the distance to the minimal loss shrinks at every run at least by the factor 1 - r(2-r)(m/M)^2 mu/(L+damping).",
  "all quadratics, dimensions, preconditioners, initial parameters, dampings, adaptation intervals, immediate or delayed adaptation, rescalings, numbers of runs",
  "A statement about runs of every length and every problem; a test sees particular steps.",
  [OPT+": KfacOptimizer._compute_qmodel", OPT+": KfacOptimizer._compute_qmodel_hyperparams", OPT+": KfacOptimizer._update_damping", OPT+": KfacOptimizer.maybe_pre_update_adapt_damping", OPT+": KfacOptimizer.apply_gradients"])
p("C98", "Softmax and logistic regression with K-FAC descend, converge to the best possible loss, and learn separable data",
  "Train one fully connected layer without activation on the mean of any of the library's losses (categorical, multi-Bernoulli, Gaussian with fixed variance) on a training set, without momentum, with arbitrary covariance updates (any batches, any targets, sampled or true, any decays) and inverse updates with damping at least lam before each training step. (1) If curvature * learning_rate * mean squared input length <= 2*lam (curvature 1/2, 1/4, 1/variance), no training step increases the training loss, with or without norm constraint. (2) If the inequality is strict, the batches of the covariance updates and the dampings are bounded, the covariances are taken from classification losses and the first step comes after a covariance and an inverse update, then all steps succeed, the loss tends to the infimum of the losses of all linear models, attained or not, and the gradient to zero. (3) If some linear model classifies all examples correctly, the softmax loss tends to zero and from some step on every example is classified correctly.",
  "all training sets, numbers of inputs and outputs, bias or not, initial weights, schedules and batches of the statistics updates, decays, dampings, learning rates, pi rules, numbers of steps",
  "A limit statement about every data set and schedule; a test sees a few steps of one problem.",
  [EST+": FisherEstimator._get_grads_lists_gradients", EST+": FisherEstimator._get_grads_lists_empirical", LC+": LayerCollection.register_softmax_cross_entropy_loss", LC+": LayerCollection.register_sigmoid_cross_entropy_loss", LF+": CategoricalLogitsNegativeLogProbLoss", LF+": MultiBernoulliNegativeLogProbLoss", FB+": FullyConnectedKFACBasicFB", FB+": KroneckerProductFB._setup_damping", FB+": compute_pi_adjusted_damping", FB+": KroneckerProductFB._multiply_factored_matrix", FF+": DenseSquareMatrixFactor.make_inverse_update_ops", OPT+": KfacOptimizer.apply_gradients", OPT+": KfacOptimizer._update_clip_coeff"])
p("C99", "Global constants keep the value given last, and reach the variables created afterwards",
  "After any sequence of set_global_constants calls of the four modules and constructions of optimizers, every constant has the value given last (None changes nothing) or its documented default. The variables of factors created then start at zero or at the identity as init_covariances_at_zero and init_inverses_at_zero say; zero_debias counts as it is when the variables are created, making the covariance the weighted mean of the estimates (or the weighted sum), and later calls change nothing. Training steps before the first inverse update do not move the parameters. An optimizer runs with the replicator it was constructed with.",
  "all sequences of calls and constructions, constants, dimensions, covariance updates, networks, losses",
  "The constants are process-wide state; a test sets particular ones in a particular order.",
  [FF+": set_global_constants", FB+": set_global_constants", OPT+": set_global_constants", U+": set_global_constants", OPT+": KfacOptimizer.__init__", FF+": FisherFactor.instantiate_cov_variables", FF+": DenseSquareMatrixFactor.instantiate_inv_variables", U+": MovingAverageVariable"])
p("C100", "Training on replicas and towers is training on one machine with all the examples",
  "Distribute each batch in any way over R replicas with T towers each, in parts of equal size, and run the same sequence of covariance updates, inverse updates and training steps on every replica. Then all replicas have identical parameters, velocities and statistics at all times, namely those of one machine that sees the whole batch as one, for either value of TOWER_STRATEGY, with momentum and norm constraint; an operation fails on the replicas exactly when it fails on the one machine. So neither the number of replicas and towers nor the way the examples are distributed matters.",
  "all networks of fully connected layers, activations and losses differentiable where the steps are taken, numbers of replicas, towers and examples, ways of distributing them, schedules, settings, numbers of steps",
  "A statement about whole trainings on every cluster; a test compares particular quantities for particular clusters.",
  [FF+": FisherFactor._compute_total_new_cov", FF+": FisherFactor.make_covariance_update_op", FB+": InputOutputMultiTower._process_data", OPT+": KfacOptimizer.compute_gradients", U+": all_average", OPT+": KfacOptimizer.apply_gradients", OPT+": KfacOptimizer._update_velocities"])
SU = "kfac/python/keras/saving_utils.py"
p("C101", "load_model restores the compiled model and the optimizer where training stopped",
  "load_model compiles the loaded model with the saved loss, metrics, weighted metrics, loss weights and sample weight mode; wherever these name a custom object (at any depth) that object is used, and a loss that is an object is restored. The optimizer has the settings of the saved one, with the hyperparameters' values at the time of saving and the new name if one is given, and all its variables have the saved values; values that do not fit are ignored as a whole. A model saved without having been compiled is rejected, the file is closed if load_model opened it, whatever fails, and the caller's dictionary of custom objects is not changed.",
  "all saved files, constructor arguments, hyperparameter values, nested structures of losses and metrics, custom objects, optimizer names",
  "A test loads particular models; settings, custom objects, adaptive damping and failures combine freely.",
  [SU+": load_model", SU+": _compile_args_from_training_config", KO+": Kfac.get_config", KO+": Kfac.name", KO+": Kfac._create_optimizer"])
p("C102", "PeriodicInvCovUpdateKfacOpt updates at the documented times and trains linear classifiers to the best possible loss",
  "Any number of executions of the op minimize returns are: num_burnin_steps covariance updates without decay, which leave the network as it is, and then at every execution a covariance update if the number of steps so far is divisible by cov_update_every, an inverse update with damping times precon_damping_mult if it is divisible by invert_every, and a training step, in this order; an execution fails exactly if one of these fails (which it does if an interval is zero). Training one fully connected layer on a whole training set with any of the losses, no momentum and no norm constraint, with curvature * learning_rate * mean squared input length < 2 * damping * precon_damping_mult, succeeds at every execution, never increases the loss, and reaches the infimum of the losses of all linear models in the limit, for all intervals and burn-ins.",
  "all networks of fully connected layers, batches, losses, intervals, burn-in lengths, decays, numbers of executions; for convergence all training sets, sampled targets and initial weights",
  "A limit statement about the optimizer users run; a test checks a few executions.",
  [PER+": PeriodicInvCovUpdateKfacOpt.minimize", PER+": PeriodicInvCovUpdateKfacOpt.apply_gradients", PER+": PeriodicInvCovUpdateKfacOpt.kfac_update_ops", EST+": FisherEstimator._create_cov_update_thunk"])
p("C103", "The damping interpolates between gradient descent and the natural gradient",
  "For every Kronecker-factored block with its statistics held fixed, the preconditioned gradient after an inverse update is defined for every positive damping; its length and its inner product with the gradient (never negative) do not increase when the damping is raised, and its length is at most that of the gradient divided by the damping. When the damping grows without bound the preconditioned gradient times the damping tends to the gradient; when it goes to zero and the statistics are positive definite, it tends to the natural gradient, that is, to the solution of the undamped system.",
  "all kinds of Kronecker blocks (fully connected, convolutional, multiple uses), both pi rules, all NORMALIZE_DAMPING_POWER, statistics, gradients, dampings",
  "Limits and monotonicity over all dampings; a test uses particular values.",
  [FB+": KroneckerProductFB._setup_damping", FB+": compute_pi_adjusted_damping", FB+": KroneckerProductFB.multiply_matpower", FF+": DenseSquareMatrixFactor.make_inverse_update_ops"])
p("C104", "On any network a small enough K-FAC step decreases the loss",
  "Train a network of fully connected layers with any differentiable activations and any losses, on any batches and schedule of updates with non-negative decays and positive dampings. If the first operation is a covariance update no operation ever fails. At any time after the first inverse update, on any batch: a training step without momentum with any small enough learning rate strictly decreases the mean loss of the batch, unless no direction in the space of all parameters changes the loss to first order, and in that case a training step leaves the network as it is. To first order the decrease is the learning rate times the squared Fisher norm that the optimizer computes for the norm constraint.",
  "all networks (depths, widths, biases, activations), losses, batches, schedules, histories, settings",
  "A statement about gradients of all layers at once and limits; a test trains particular networks for a few steps.",
  [OPT+": KfacOptimizer.apply_gradients", OPT+": KfacOptimizer._squared_fisher_norm", OPT+": KfacOptimizer._update_clip_coeff", FB+": KroneckerProductFB.multiply_matpower", EST+": FisherEstimator.multiply_inverse"])

p("C105", "The registered losses are the losses the documentation names",
  "Run any program that registers losses through the six registration functions (categorical predictive distribution, softmax cross-entropy, normal predictive distribution, squared error, multi-Bernoulli predictive distribution, sigmoid cross-entropy), with or without names, coefficients, targets, variances and reuse, in between other calls of the collection and other operations of the graph. Whatever was refused on the way, total_loss() is then, as a function of the parameters and up to one constant, the sum over the accepted registrations of the coefficient (1 by default) times the loss in the documentation: tf.nn.sparse_softmax_cross_entropy_with_logits, tf.nn.sigmoid_cross_entropy_with_logits, ||target - prediction||^2, or ||target - mean||^2/(2 var) with the squared distance as the default. It raises if a target is missing or nothing was registered. multiply_ggn of the collection multiplies by the Hessian of that sum for the model linearised at the current parameters, whatever the targets are. A loss without a name and without reuse is accepted: a new name is generated from the name of the function (for example squared_error_loss), and the losses under other names stay as they are.",
  "for all programs of registrations and other calls, all ways in which the graph makes up unused names, all models (functions from parameters to logits), batch sizes, numbers of outputs, targets, coefficients, variances > 0, parameter values and vectors",
  "A test compares total_loss with a number for particular losses and targets; sums of losses, coefficients, refused registrations, clashing names and the agreement with the curvature combine freely.",
  [LC+": LayerCollection.register_squared_error_loss", LC+": LayerCollection.register_normal_predictive_distribution", LC+": LayerCollection._register_loss_function", LC+": LayerCollection.total_loss", LF+": NegativeLogProbLoss", CM+": CurvatureMatrixVectorProductComputer.multiply_ggn"])


p("C106", "On deep linear networks the blocks of K-FAC are exact",
  "Take a network of fully connected layers whose activations are affine (a deep linear network), with a normal predictive distribution of fixed variance as its loss, and update the covariances from their initial state in the mode \"exact\" on any batches with any non-negative decays, the weights staying fixed. No update fails. For every layer the zero-debiased input and output factors A and G then give the exact curvature: for every change D of the parameters of that layer the decayed mean of the losses of the batches is its tangent plus half of the quadratic form of the Kronecker product of A and G at D, whatever the targets are. If A and G are positive definite, an inverse update without damping gives a preconditioned gradient which is the Newton step of the layer: the layer moved by it minimises the mean loss over all its parameters. In the modes \"gradients\" (targets drawn from the predictive distribution) and \"curvature_prop\" the expected statistics of each layer, of any network, are those of the mode \"exact\".",
  "all depths, widths, biases, affine activations, positions of the layer, weights, variances > 0, coefficients >= 0, non-empty sequences of batches of any sizes, targets, decays >= 0, changes D, pi rules; for the last part also all activations",
  "Exactness of a curvature matrix is a statement about all changes of the parameters and about expectations over continuous targets; a test compares particular numbers.",
  [EST+": FisherEstimator._get_grads_lists_exact", EST+": FisherEstimator._get_grads_lists_gradients", EST+": FisherEstimator._get_grads_lists_curvature_prop", FB+": FullyConnectedKFACBasicFB", FF+": FullyConnectedKroneckerFactor._compute_new_cov", FB+": KroneckerProductFB.multiply_matpower"])

p("C107", "K-FAC drives the gradient of any network to zero",
  "Train a network of fully connected layers with any differentiable activations and any differentiable losses on one training set without momentum, without end, with covariance updates on any batches (decays >= 0) and inverse updates with dampings of at least lambda > 0 between the training steps in any order. Suppose that below its first value the loss lies under parabolas of curvature L along lines in the space of all parameters, and that the learning rate is at most lambda / L. Whatever the covariances are: if the first operation is a covariance update, training never fails; no training step increases the loss, and without a norm constraint every one lowers it by at least half the learning rate times the squared Fisher norm which the optimizer computes, so that these norms add up to at most twice the total decrease divided by the learning rate. If the loss is bounded below, the squared Fisher norm of the training steps tends to zero, with or without a norm constraint. If moreover the data that the covariances see and the dampings are bounded, the derivatives of the loss at the training steps tend to zero in all directions.",
  "all networks (depths, widths, biases, activations), losses, data, schedules of updates, dampings >= lambda, learning rates <= lambda / L, norm constraints > 0, pi rules",
  "A statement about infinitely many steps on all networks; a test runs a few steps on particular ones.",
  [OPT+": KfacOptimizer.apply_gradients", OPT+": KfacOptimizer._squared_fisher_norm", OPT+": KfacOptimizer._update_clip_coeff", FB+": KroneckerProductFB._setup_damping", FB+": KroneckerProductFB.multiply_matpower", EST+": FisherEstimator.multiply_inverse"])

p("C108", "With the quadratic model the adaptive damping stays bounded on any smooth loss",
  "Minimise, with the momentum type qmodel (learning rate and momentum chosen by the model, no weight decay), a loss whose gradient is Lipschitz with constant L; the curvature matrix and the preconditioner may be anything. As long as the two-by-two systems are solvable: the predicted change is never an increase, and at a damping of at least rL/(2(1-theta)) the loss falls by at least the fraction theta of the prediction (r is the rescaling of the update, 1 by default). Hence the damping is never raised when it is at least rL/(2(1-lower threshold)) and is lowered by omega at every adaptation when it is above rL/(2(1-upper threshold)) and the update moved the parameters. In all runs, with immediate as well as with delayed adaptation, it stays below the larger of its initial value and rL/(2(1-lower threshold))/omega, and an initial damping which is too high is forgotten geometrically. If the minimal damping is at least rL/2, no update increases the loss.",
  "all losses with a quadratic upper bound, curvature matrices, preconditioners, batches, thresholds 0 <= lower <= upper < 1, 0 < r < 2, decay constants, intervals, minimal dampings, l2 coefficients, numbers of runs",
  "A bound over all losses and unbounded numbers of adaptations; a test checks particular numbers.",
  [OPT+": KfacOptimizer._update_damping", OPT+": KfacOptimizer._compute_qmodel_hyperparams", OPT+": KfacOptimizer._maybe_pre_update_adapt_damping", OPT+": KfacOptimizer._maybe_post_update_adapt_damping", OPT+": KfacOptimizer.apply_gradients"])

p("C109", "Statistics, inverses and gradients of every documented layer have shapes that fit",
  "Register a layer with data of the documented shapes and update its statistics, then multiply a gradient. For fully connected layers (dense, or indices with a diagonal input factor), two-dimensional convolutions, depthwise convolutions, scale and shift layers with parameters that broadcast to an example, parameters without structure, and layers used several times (a list of uses, one tensor with the uses folded into the batch, or for fully connected layers a dimension of its own for them), with each of their approximations except those for recurrent layers with a dimension for the uses and diagonal convolutions with a mask: no operation gets shapes it refuses, and the product has exactly the shapes of the parameters, with and without a bias, for any number of towers of different sizes and of gradient sources, with towers concatenated or not. Indices with a dense input factor are refused. Conversely, if a fully connected layer gets through an update and a multiplication then every input has as many features, every gradient as many entries and the bias as many entries as the weights say: nothing is broadcast in silence.",
  "all numbers and sizes of towers, numbers of sources, uses, sizes of layers, images, filters, strides, dilations, paddings, masks, sub-samplings, broadcasting patterns of scales and shifts",
  "A test builds each block for particular shapes; formats of data, numbers of uses and sizes of towers combine freely.",
  [FB+": KroneckerProductFB.multiply_matpower", FB+": InputOutputMultiTower", FB+": InputOutputMultiTowerMultiUse", FB+": FullyConnectedSeriesFB", FB+": ConvKFCBasicFB", FB+": DepthwiseConvDiagonalFB", FF+": FullyConnectedMultiKF._vec_shape", FF+": ConvInputKroneckerFactor._compute_new_cov", FF+": ScaleAndShiftFactor", U+": layer_params_to_mat2d", U+": mat2d_to_layer_params"])

p("C110", "Damping holds at every step, whatever mixture of blocks the network has",
  "Train with any differentiable loss of any parameters, divided among Kronecker blocks (fully connected or convolution, single or multiple use, each factor dense or diagonal), full and diagonal blocks in any mixture, with covariance updates with any positive semidefinite estimates, inverse updates and training steps in any order, all dampings at least lambda > 0. If the first operation is a covariance update nothing ever fails. At every time and for every gradient the preconditioned gradient has at most the length of the gradient over lambda and makes no obtuse angle with it. Hence without momentum, with a learning rate of at most lambda / L for a loss with parabolas of curvature L above it, no training step increases the loss; if the loss is bounded below the squared Fisher norm of the training steps tends to zero, and with bounded estimates and dampings the gradient tends to zero.",
  "all numbers and kinds of blocks, sizes, losses, estimates, decays >= 0, orders of operations, dampings >= lambda, learning rates <= lambda / L, norm constraints > 0, pi rules",
  "A statement about infinitely many steps for all mixtures of blocks; a test preconditions particular vectors.",
  [FB+": KroneckerProductFB._setup_damping", FB+": KroneckerProductFB.multiply_matpower", FB+": FullFB.multiply_matpower", FB+": DiagonalFB.multiply_matpower", FF+": DiagonalFactor.get_matpower", FF+": DenseSquareMatrixFactor.make_inverse_update_ops", OPT+": KfacOptimizer.apply_gradients", EST+": FisherEstimator.multiply_inverse"])

p("C111", "K-FAC with momentum is stable and converges on any loss with a Lipschitz gradient",
  "Train as in C110 with momentum m, 0 <= m < 1 (momentum type \"regular\", zero velocity at first) on a loss that is bounded below and whose gradient is Lipschitz with constant L, with Kronecker blocks whose factors are both dense or both diagonal, full and diagonal blocks in any mixture, updates in any order, dampings of at least lambda > 0, and a learning rate of at most lambda (1-m)^2 / (L (1+m)), with or without a norm constraint. At every time the loss exceeds its lower bound by at most (1+m) times what it did at the start. Without a norm constraint the squared Fisher norms of all training steps add up to at most that excess times 2 (1-m) / (learning rate). The squared Fisher norms tend to zero; with bounded estimates and dampings the gradient tends to zero; the velocity tends to zero and the loss converges. For m = 0 the condition on the learning rate is the one of C107 and C110.",
  "all mixtures of blocks, sizes, losses, estimates, decays >= 0, orders of operations, dampings >= lambda, momenta in [0, 1), learning rates within the bound, norm constraints > 0, pi rules",
  "A statement about infinitely many steps with a preconditioner that changes all the time; a test checks particular updates.",
  [OPT+": KfacOptimizer._update_velocities", OPT+": KfacOptimizer.apply_gradients", OPT+": KfacOptimizer._update_clip_coeff", OPT+": KfacOptimizer._squared_fisher_norm", FB+": KroneckerProductFB.multiply_matpower", EST+": FisherEstimator.multiply_inverse"])

p("C112", "The statistics of a convolution do not depend on how its patches are extracted",
  "The input factor of a convolution with extract_patches_fn None, \"extract_convolution_patches\", \"extract_image_patches\" or, for 1x1 filters with stride 1, \"extract_pointwise_conv2d_patches\" holds the means over examples and output positions of products of the inputs which two filter taps read (or 1 for the bias), each multiplied by the patch mask if there is one; so all extractors that apply give the same statistics, whether the size of the batch is known or not.",
  "all batches, images, filter sizes, strides, dilations, paddings, masks, with and without bias",
  "A test of an extractor checks particular images; masks, extractors and unknown batch sizes combine freely.",
  [FF+": ConvInputKroneckerFactor._compute_new_cov", U+": extract_convolution_patches", U+": extract_pointwise_conv2d_patches"])

p("C113", "How fast training approaches the minimum of the loss",
  "Train as in C110 without momentum, with Kronecker blocks whose factors are both dense or both diagonal, full and diagonal blocks in any mixture, estimates and dampings bounded, dampings at least lambda > 0 and a learning rate of at most lambda / L. Let c be a bound of the damped curvature of all blocks (an explicit function of the bounds and the sizes). If the squared gradient is at least 2 mu times the distance of the loss to its minimum (Polyak-Lojasiewicz), that distance shrinks after the first inverse update with every training step by at least the factor exp(-rho), rho = learning_rate * mu / c, with norm constraint nu the smaller of this and sqrt(nu mu / (2 c (first loss - minimum))); other operations do not change it. On a convex loss, without norm constraint, the loss exceeds the minimum after T training steps by at most 2 c R^2 / (learning_rate * T), R the largest distance to the minimiser among parameters whose loss is not above the first one.",
  "all mixtures of blocks, sizes, losses, estimates, decays >= 0, orders of operations, dampings >= lambda, learning rates <= lambda / L, norm constraints > 0, pi rules, numbers of steps",
  "A rate is a statement about all numbers of steps and all losses of a class; a test runs a few steps on one problem.",
  [OPT+": KfacOptimizer.apply_gradients", OPT+": KfacOptimizer._update_clip_coeff", OPT+": KfacOptimizer._squared_fisher_norm", FB+": KroneckerProductFB.multiply_matpower", FB+": KroneckerProductFB._setup_damping", EST+": FisherEstimator.multiply_inverse"])
p("C114", "Training on randomly drawn mini-batches",
  "There are finitely many mini-batches with differentiable losses; every training step uses one drawn uniformly and independently. Covariances and inverses are updated before the first and after every step by any sequence of operations, and these and the damping may depend on all batches drawn so far; blocks, bounds and learning rate as in C113, without momentum and norm constraint; the mean of the losses lies below a parabola of curvature L and the gradients of the batches have a variance of at most v. Then no operation fails whatever is drawn; the expected squared gradients of the mean loss, summed over the first T steps, are at most 2 c (first loss - lower bound) / learning_rate + T * c L learning_rate v / lambda^2; and under the Polyak-Lojasiewicz condition with constant mu the expected loss approaches its minimum geometrically with the factor exp(-learning_rate mu / c) up to c L learning_rate v / (2 mu lambda^2).",
  "all finite sets of batches and losses, mixtures of blocks without mixed dense and diagonal factors, estimates, decays >= 0, dampings >= lambda, schedules depending on the drawn batches, learning rates <= lambda / L, numbers of steps",
  "An expectation over all sequences of draws cannot be tested; a test sees one sequence and one problem.",
  [OPT+": KfacOptimizer.apply_gradients", OPT+": KfacOptimizer.compute_gradients", OPT+": KfacOptimizer._multiply_preconditioner", FB+": KroneckerProductFB.multiply_matpower", FB+": KroneckerProductFB._setup_damping", EST+": FisherEstimator.multiply_inverse"])

p("C115", "Sampling with the Cholesky factors",
  "Apply multiply_cholesky to random tensors whose entries have mean zero, variance one and no correlation: the results have mean zero and as covariance the damped curvature of the block (the Kronecker product of both damped factors times the renormalisation, the damped full matrix, the damped diagonal). Apply multiply_cholesky_inverse with transpose=True: the covariance is the inverse of the damped curvature. If the noise is Gaussian so are the results; whatever is uncorrelated with the noise of a block is uncorrelated with its result, so samples of different blocks stay uncorrelated.",
  "all Kronecker blocks with dense or diagonal factors and stored Cholesky factors, all full blocks after any registrations and inverse updates, all diagonal blocks; all sizes, statistics, dampings > 0 and noise on any probability space",
  "A test compares a product with a Cholesky factor for particular matrices; the covariance of samples is a statement about a distribution.",
  [EST+": FisherEstimator.multiply_cholesky", EST+": FisherEstimator.multiply_cholesky_inverse", FB+": KroneckerProductFB.multiply_cholesky", FB+": KroneckerProductFB.multiply_cholesky_inverse", FB+": FullFB.multiply_cholesky", FB+": DiagonalFB.multiply_cholesky", FF+": DenseSquareMatrixFactor.get_cholesky"])

p("C116", "What the moving averages of the statistics estimate, and how well",
  "Mini-batches are drawn independently from one distribution while the parameters do not change. After any positive number of covariance updates with any decays >= 0 the expectation of every entry of the statistics is the second moment of a row. With constant decay d < 1 the variance of an entry after T updates is that of the estimate of one batch times (1-d)/(1+d) * (1+d^T)/(1-d^T), with d = 1 it is divided by T; for independent rows that of a batch is that of one row divided by the number of rows. With d = 1 the statistics converge almost surely to the second moments and the stored inverse, with any damping > 0, to the inverse of the damped second moments. Diagonal factors hold the diagonal of the same statistics.",
  "all distributions of batches with square-integrable rows (the rows of one batch may depend on each other), numbers of rows, dimensions, decays in [0, 1], dampings > 0, numbers of updates",
  "Expectations, variances and almost sure limits concern all sequences of batches; a test feeds particular batches.",
  [FF+": compute_cov", FF+": FisherFactor.make_covariance_update_op", FF+": DenseSquareMatrixFactor.make_inverse_update_ops", U+": MovingAverageVariable.add_to_average", U+": MovingAverageVariable.value", EST+": FisherEstimator._create_cov_update_thunk"])

p("C117", "Every step is the best one within the norm constraint",
  "Let F be the inverse of the preconditioner (the damped curvature), symmetric and positive definite. With momentum_type \"adam\" every parameter update of every run is the unique minimiser of the model (accumulated gradient) . delta + delta^T F delta / (2 learning_rate) among all delta with delta^T F delta <= norm_constraint (among all delta without one). With \"regular\" the update less momentum times the previous update is the unique minimiser for the current gradient; without momentum this is the whole update.",
  "all numbers of parameters, gradients, symmetric positive definite preconditioners (different in every step), learning rates > 0, norm constraints > 0 or none, momenta, numbers of steps; no weight decay",
  "Optimality compares the update with all other vectors; a test checks particular coefficients.",
  [OPT+": KfacOptimizer._clip_updates", OPT+": KfacOptimizer._update_clip_coeff", OPT+": KfacOptimizer._squared_fisher_norm", OPT+": KfacOptimizer._update_velocities", OPT+": KfacOptimizer.apply_gradients"])

p("C118", "A whole run with decay callbacks",
  "model.fit with a list of decay callbacks raises ValueError before any change exactly when a callback names an attribute the optimizer lacks or the optimizer has no iterations. Otherwise, with at most one callback per attribute, batch i counted over all epochs uses for every decayed attribute the value its own schedule alone gives, independently of the other callbacks, their order and the division into epochs; other attributes do not change. The logs of an epoch hold the values its last batch has used. A run cut between epochs and continued gives the same values, logs and printed lines. The value is printed every epoch when verbose > 1 and not otherwise.",
  "all lists of callbacks with all schedules and delays, optimizers, numbers of epochs and of batches per epoch",
  "A test runs particular callbacks for a few epochs; the claim is for all schedules, delays and numbers of batches.",
  [KC+": HyperparameterDecay.__init__", KC+": HyperparameterDecay.on_train_begin", KC+": HyperparameterDecay.on_epoch_begin", KC+": HyperparameterDecay.on_epoch_end", KC+": HyperparameterDecay._get_global_step", KC+": PolynomialDecay.on_batch_begin", KC+": ExponentialDecay.on_batch_begin"])

EXC = "kfac/examples/convnet.py"; EXA = "kfac/examples/autoencoder_mnist.py"; EXM = "kfac/examples/classifier_mnist.py"; EXR = "kfac/examples/rnn_mnist.py"

p("C119", "Dedicated workers divide the work completely",
  "In distributed_grads_and_ops_dedicated_workers every worker of the cluster has exactly one role (numbers outside a cluster of three or more raise ValueError), the first 60% compute gradients, the next 20% accumulate covariance statistics and the last 20% invert; every role is filled, and the synchronous optimizer waits for as many gradients as there are workers computing them.",
  "all numbers of workers, all worker numbers, any floating-point rounding of 0.6 * num_tasks; for the consequences all networks, optimizer settings and interleavings of the workers",
  "The examples have no tests; the roles have to be compared over all sizes of clusters.",
  [EXC+": _is_gradient_task", EXC+": _is_cov_update_task", EXC+": _is_inv_update_task", EXC+": _num_gradient_tasks", EXC+": _make_distributed_train_op", EXC+": distributed_grads_and_ops_dedicated_workers"])

p("C120", "Mini-batches grow from the starting size to the training set",
  "_get_batch_size_schedule returns, for every number of examples, the sizes of the published exponential schedule rounded down: the first mini-batch has the starting size (all examples if there are fewer), sizes never decrease and never exceed the number of examples, and from the target iteration on every mini-batch is the whole training set. No size is refused by the data reader.",
  "all numbers of examples, target iterations >= 2, starting sizes > 0, global steps; for the reader all execution orders",
  "The data set size is a literal in the examples, so a run shows one schedule and does not compare it with the formula.",
  [EXA+": _get_batch_size_schedule", EXM+": _get_batch_size_schedule", EXR+": main", EXA+": main", DRA+": CachedDataReader"])

p("C121", "The losses of the examples are the regularised loss",
  "In the MNIST examples the loss given to the optimizer, the loss it evaluates after an update to adapt the damping, and the losses printed by the evaluation are all the data loss at the respective weights plus l2_reg / 2 times the sum of squares of the same weights, which is what the argument l2_reg of KfacOptimizer is documented to mean; for l2_reg = 0 they are the data loss.",
  "all weights before and after the update, their averages, data losses and coefficients; for the evaluation both orders in which the regularisers can be read; for the damping all thresholds with 0 < increase <= decrease < 1",
  "The examples have no tests; which weights a loss tensor reads shows only when losses before and after an update are compared.",
  [EXM+": compute_loss", EXM+": Model._build", EXM+": make_eval_ops", EXM+": construct_train_quants", EXA+": compute_loss", EXA+": get_keras_autoencoder", OPT+": KfacOptimizer._get_current_loss", OPT+": KfacOptimizer._update_damping"])

p("C122", "The recurrent example registers the right tensors",
  "In rnn_mnist.py the gradients of the loss with respect to the tensors s_in, s_rec and s of a time step are the same, so registering s_list for both layers (the two commented lines) would not change the algorithm; and the gradient of the loss with respect to the variables of the recurrent part is the sum over all registered uses of input times gradient of the output, which is what the approximations for layers used several times rest on.",
  "all sizes, numbers of time steps, variables, inputs, directions and differentiable losses of the final output; one example of the batch, exact numbers",
  "The claim is a derivative identity for all parameters and lengths; a run of the example shows losses only.",
  [EXR+": eval_model"])

p("C123", "The training loops of the examples do the same work on schedule",
  "The manual loop of convnet.py does in every run exactly what PeriodicInvCovUpdateKfacOpt with invert_every = _INVERT_EVERY and cov_update_every = 1 does, with the same failures. In the estimator example all inverses are computed at step 0 and one of them, in turn, at every later step, so that no inverse is ever older than the number of inverses less one. With a chief worker, the gradients of all workers are averaged.",
  "all networks, batches, settings, numbers of steps, starting steps that are multiples of the interval; all numbers of inverses; all numbers of workers and roundings of 0.6 * num_tasks",
  "The examples have no tests; comparing two loops by running them shows agreement for the steps that were run.",
  [EXC+": minimize_loss_single_machine_manual", EXC+": minimize_loss_single_machine", EXC+": train_mnist_estimator", EXC+": distributed_grads_only_and_ops_chief_worker", EXC+": _make_distributed_train_op", U+": batch_execute"])
p("C124", "The examples build the optimizer that their flags ask for",
  "make_train_op of the autoencoder, classifier and recurrent examples succeeds for exactly the documented values of --optimizer and --lrmu_adaptation, with the documented momentum type, learning rate, momentum and damping, for every value of the other flags; the loss that the damping adaptation needs is built on the current batch with --update_damping_immediately and on the previous batch without, on TPU as well.",
  "all flag values, loss functions and batches",
  "Building the graph needs TensorFlow, Sonnet and the data; the examples have no tests, and the flags combine freely.",
  [EXA+": make_train_op", EXM+": make_train_op", EXR+": make_train_op", "kfac/examples/autoencoder_mnist_tpu_estimator.py: make_train_op", "kfac/examples/autoencoder_mnist_tpu_strategy.py: make_train_op", "kfac/examples/classifier_mnist_tpu_estimator.py: make_train_op", OPT+": KfacOptimizer.__init__", OPT+": KfacOptimizer._get_current_loss", OPT+": KfacOptimizer._maybe_post_update_adapt_damping"])
p("C125", "Training on several towers is training on their joint batches",
  "train_mnist_multitower runs to the end for every list of devices, and its losses, accuracies and parameters are those of training without towers on batches of 128 times the number of devices, each example being used once.",
  "all data, lists of devices, models (any vector averaged over examples), updates and numbers of passes",
  "The examples have no tests; a run on data whose size is a multiple of the batch size shows nothing wrong.",
  [EXC+": train_mnist_multitower", "kfac/examples/mnist.py: load_mnist_as_iterator"])
p("C126", "The reported learning rate, momentum and damping explain the updates",
  "The learning rate and momentum that a training run prints (print_logs, or the properties learning_rate and momentum read after it) explain its update: the change of the parameters is the printed momentum times the previous change minus the printed learning rate times the preconditioned gradient, for every momentum type. The printed damping is the one that the run used. Iterations are numbered from 0, the printed loss is the one before the update, and learning rate and momentum are numbers from the first run on.",
  "all configurations, inputs (losses, gradients, preconditioners, batches), initial parameters and numbers of runs from zero velocity",
  "A test can compare one update with one printed line; whether the line explains the update depends on clipping, weight decay, momentum type and adaptation in all combinations.",
  [OPT+": KfacOptimizer.learning_rate", OPT+": KfacOptimizer.momentum", OPT+": KfacOptimizer.damping", OPT+": KfacOptimizer._maybe_print_logging_info", OPT+": KfacOptimizer.apply_gradients", OPT+": KfacOptimizer._compute_raw_update_steps"])
p("C127", "qmodel_fixedmu keeps the momentum that was asked for",
  "An optimizer with momentum_type \"qmodel_fixedmu\" that can be constructed uses the same momentum, the one given, in every run (\"only controls the learning rate\"), also when it is made through keras.optimizers.Kfac; a momentum that a type cannot work with is refused by the constructor.",
  "all configurations, momenta (numbers or None), inputs and numbers of runs; for Keras all keyword arguments",
  "A momentum that is not fixed shows only over several runs, and all accepted arguments have to be considered.",
  [OPT+": KfacOptimizer.__init__", OPT+": KfacOptimizer._compute_raw_update_steps", OPT+": KfacOptimizer._compute_qmodel_hyperparams", OPT+": KfacOptimizer._update_velocities", KO+": _configure_kfac_kwargs_for_adaptive", KO+": Kfac.__init__", KO+": Kfac._create_optimizer"])
p("C128", "Every product that was asked for can be computed, and every other is refused",
  "A FisherEstimator that was created for given powers, Cholesky factors and inverse Cholesky factors can multiply by exactly these functions of every block that supports them, and by the matrix itself and all functions of diagonal blocks without being asked in advance; everything else raises an exception instead of giving a result, and functions that a block does not support raise NotImplementedError. The optimizer can multiply by the inverse and by the matrix for all kinds of blocks.",
  "all lists of blocks of all kinds (full, diagonal, Kronecker with dense, diagonal and SUA factors, series), shared factors, damping functions, real exponents, settings of the estimator",
  "A test asks a few functions of a few blocks; which calls fail depends on the kinds of blocks and factors, on the sharing of factors and on the settings in all combinations.",
  [FB+": FullFB.register_matpower", FB+": DiagonalFB.multiply_cholesky", FB+": KroneckerProductFB.register_cholesky", FB+": KroneckerProductFB.multiply_matpower", FB+": FullyConnectedSeriesFB.multiply_cholesky", FB+": FullyConnectedSeriesFB.multiply_matpower", FF+": DenseSquareMatrixFactor.get_matpower", FF+": ConvInputSUAKroneckerFactor.register_cholesky", EST+": FisherEstimator._register_matrix_functions", EST+": FisherEstimator.multiply_cholesky", OPT+": KfacOptimizer._compute_approx_qmodel_change"])
p("C129", "Every variable that K-FAC creates has its own name",
  "Creating the variables of a model (make_vars_and_create_op_thunks) succeeds for every registered collection of layers: one variable for every statistic and one for every function of a factor and damping that was asked for, with the right shape and pairwise different names, so that no two factors share a statistic and blocks that share a factor each read the inverse for their own damping.",
  "all collections of blocks with one or two factors (dense, diagonal, SUA and multi-use factors, any sharing of factors, both recurrent options), exponents, damping values, tensor names and variables already in the graph",
  "Names are built from the names of tensors and from the sharing of factors; a collision shows only for particular models, either as an exception or as statistics that are silently mixed.",
  [FF+": scope_string_from_params", FF+": graph_func_to_string", FF+": FisherFactor.instantiate_cov_variables", FF+": DenseSquareMatrixFactor.instantiate_inv_variables", FF+": ConvInputSUAKroneckerFactor.instantiate_inv_variables", FF+": FullyConnectedMultiKF.instantiate_inv_variables", FB+": KroneckerProductFB._setup_damping", EST+": FisherEstimator.make_vars_and_create_op_thunks", U+": MovingAverageVariable.__init__"])
p("C130", "get_cov_vars and get_inv_vars list all variables of every factor",
  "After the variables were made, get_cov_vars() and get_inv_vars() of an optimizer or estimator return one list for each factor, in the order of the factors, which together have every variable of the statistics and every variable that an inverse update assigns exactly once, so that saving and restoring them is enough to continue as before.",
  "all collections of blocks with one or two factors (dense, diagonal, SUA and multi-use factors, any sharing of factors, both recurrent options), exponents and damping values; all values, decays and weights of moving averages",
  "A test can compare the lists of one model with what its author remembers of the variables; what is missing depends on the kinds of factors, and shows only when training is continued from restored values.",
  [EST+": FisherEstimator.get_cov_vars", EST+": FisherEstimator.get_inv_vars", FF+": FisherFactor.get_cov_vars", FF+": FullyConnectedMultiKF.get_cov_vars", FF+": DenseSquareMatrixFactor.get_inv_vars", FF+": ConvInputSUAKroneckerFactor.get_inv_vars", FF+": FullyConnectedMultiKF.get_inv_vars", U+": MovingAverageVariable.value", OPT+": KfacOptimizer.get_cov_vars"])
p("C131", "When the same parameters fit every mini-batch, training on mini-batches converges",
  "Setting as in C114, but without a bound on the variance of the gradients: instead the loss of every batch i has a lower bound m_i and lies below parabolas of curvature M, and the mean loss satisfies the Polyak-Lojasiewicz condition with constant mu for the mean m of the m_i (so the same parameters come close to all m_i at once). If 2 c L learning_rate M <= lambda^2 mu, the expected squared gradients of the mean loss have the sum of at most 4 c (first loss - m) / learning_rate over any number of steps; the expected loss minus m after T steps is at most exp(-learning_rate mu T / (2 c)) times the first one, with no remaining level; and the probability that the loss minus m is above eps after T steps, or at any time from T to T', is at most this bound divided by eps, or by eps (1 - exp(-learning_rate mu / (2 c))).",
  "all finite sets of batches and losses, mixtures of blocks without mixed dense and diagonal factors, estimates, decays >= 0, dampings >= lambda, schedules depending on the drawn batches, learning rates below the threshold, eps > 0, numbers of steps",
  "A statement about the distribution of all runs; a test draws a few runs of a few steps, and the variance of the gradients has no bound.",
  [OPT+": KfacOptimizer.apply_gradients", OPT+": KfacOptimizer.compute_gradients", OPT+": KfacOptimizer._multiply_preconditioner", FB+": KroneckerProductFB.multiply_matpower", FB+": KroneckerProductFB._setup_damping", EST+": FisherEstimator.multiply_inverse"])
p("C132", "Layers registered by hand in the examples",
  "With --auto_register_layers=false the autoencoder example, and with register_layers_manually the convolutional example on any number of towers, build and register their network without an exception. The collection then has exactly one block for every layer, with the Kronecker approximation, holding for each tower the tensor that enters the layer and its result before the activation function; each tower has its loss; and the check of the registration passes for the list of all variables in any order. Building the autoencoder without the collection, as for the losses of other batches, gives the same network and registers nothing; building it again with the collection raises.",
  "all lists of encoder and decoder layers with pairwise different variables, input tensors that do not depend on layers, names of the loss, positive numbers of towers, orders of variables",
  "The examples have no tests; a wrong tensor in a registration is not noticed, because training still proceeds.",
  [EXA+": MLPManualReg._build", EXA+": AutoEncoderManualReg._build", EXA+": construct_train_quants", EXC+": build_model", EXC+": fc_layer", EXC+": conv_layer", EXC+": train_mnist_multitower", LC+": LayerCollection.check_registration"])
p("C133", "Learning rates that change while training",
  "Setting as in C114, with a learning rate given as a tensor whose value r_t depends on the number t of steps so far, every r_t at most lambda / L. No operation fails, also with momentum. Without momentum the expected squared gradients weighted by the r_t have the sum of at most 2 c (first loss - lower bound) + c L v / lambda^2 times the sum of the r_t^2; so if the sum of the r_t is unbounded and that of the r_t^2 is bounded, the expected squared gradient falls below every positive number again and again. Under the Polyak-Lojasiewicz condition with constant mu and r_t = beta / (gamma + t), c < beta mu <= c gamma, the expected loss minus its minimum after t steps is at most a constant divided by gamma + t: the level that remains in C114 vanishes; and the probability that the loss exceeds its minimum by more than eps at any time after T is at most a constant divided by eps (gamma + T - 1), so almost every run approaches the minimum. With momentum m < 1 and gradients of length at most G no parameter moves by more than G / (lambda (1 - m)) times the sum of the r_t; with the exponential decay and momentum of train_mnist_estimator in convnet.py this is at most 4 G / lambda however long the training is.",
  "all finite sets of batches and losses, mixtures of blocks without mixed dense and diagonal factors, estimates, decays >= 0, dampings >= lambda, schedules of updates depending on the drawn batches, sequences of learning rates <= lambda / L, eps > 0, numbers of steps, drawn batches",
  "Limits over infinitely many steps and expectations over all draws cannot be tested.",
  [OPT+": KfacOptimizer.__init__", OPT+": KfacOptimizer.apply_gradients", OPT+": KfacOptimizer._update_velocities", OPT+": KfacOptimizer._multiply_preconditioner", EST+": FisherEstimator.multiply_inverse", EXC+": train_mnist_estimator"])
p("C134", "Training on randomly drawn mini-batches with momentum",
  "Setting as in C114, but with momentum 0 <= m < 1 and velocities that start at zero; the gradient of the mean loss has the Lipschitz constant L and the gradients of the batches a variance of at most v; L learning_rate (1 + m + m / (1 - m)^2) <= lambda (1 - m). Then no operation fails, and the expected squared gradients of the mean loss, summed over the first T steps, are at most 2 c (1 - m) (first loss - lower bound) / learning_rate + T c L learning_rate v (1 + m / (1 - m)^2) / (lambda^2 (1 - m)); so at one of these steps the expected squared gradient is at most the T-th part of this; for m = 0 this is the bound of C114. If moreover the mean loss satisfies the Polyak-Lojasiewicz condition with constant mu <= L, and the learning rate is small enough also with 2 m instead of m in the last fraction, the expected loss minus its minimum after T steps is at most 2 exp(-rho T) times the first one plus L learning_rate^2 v (1 + 2 m / (1 - m)^2) / (rho lambda^2 (1 - m)^2), rho the smaller of learning_rate mu / (2 c (1 - m)) and (1 - m) / 4.",
  "all finite sets of batches and losses, mixtures of blocks without mixed dense and diagonal factors, estimates, decays >= 0, dampings >= lambda, schedules of updates depending on the drawn batches, momenta in [0, 1), learning rates below the threshold, numbers of steps",
  "An expectation over all sequences of draws cannot be tested; the velocity mixes the gradients of all earlier batches.",
  [OPT+": KfacOptimizer.apply_gradients", OPT+": KfacOptimizer.compute_gradients", OPT+": KfacOptimizer._update_velocities", OPT+": KfacOptimizer._multiply_preconditioner", FB+": KroneckerProductFB.multiply_matpower", EST+": FisherEstimator.multiply_inverse"])
