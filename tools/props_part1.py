"""Source of properties.jsonl (first batch). Run tools/gen_props.py to regenerate."""
P = []
def p(id, title, statement, quantifier, why, anchors):
    P.append(dict(id=id, title=title, statement=statement, quantifier=quantifier,
                  why_tests_cant=why, anchors=anchors))

U = "kfac/python/ops/utils.py"; FB = "kfac/python/ops/fisher_blocks.py"; FF = "kfac/python/ops/fisher_factors.py"
OPT = "kfac/python/ops/optimizer.py"; LC = "kfac/python/ops/layer_collection.py"; LF = "kfac/python/ops/loss_functions.py"
EST = "kfac/python/ops/estimator.py"; PL = "kfac/python/ops/placement.py"; CM = "kfac/python/ops/curvature_matrix_vector_products.py"
PER = "kfac/python/ops/kfac_utils/periodic_inv_cov_update_kfac_opt.py"; ASY = "kfac/python/ops/kfac_utils/async_inv_cov_update_kfac_opt.py"
DR = "kfac/python/ops/kfac_utils/data_reader.py"; DRA = "kfac/python/ops/kfac_utils/data_reader_alt.py"
GM = "kfac/python/ops/tensormatch/graph_matcher.py"; GS = "kfac/python/ops/tensormatch/graph_search.py"
KO = "kfac/python/keras/optimizers.py"; KU = "kfac/python/keras/utils.py"; KC = "kfac/python/keras/callbacks.py"

p("C01", "Packing tensors into one column and unpacking is lossless",
  "For every list of tensors, column_to_tensors(tensors, tensors_to_column(tensors)) returns the same tensors in the same order; and for every column whose length is the total number of entries of the given shapes, packing the unpacked pieces gives the column back. No entry is lost, duplicated or moved to another tensor.",
  "all lists of tensors of all shapes (including empty lists, scalars and zero-sized tensors) and all columns of the matching length",
  "A test tries particular shapes; an off-by-one in the running offset shows only for particular combinations of sizes.",
  [U+": tensors_to_column, column_to_tensors"])
p("C02", "A layer's (weight, bias) survives conversion to the 2-D matrix form and back",
  "For every layer parameter (a weight of any rank, alone or with a bias), converting it to the 2-D matrix used by the curvature blocks and converting that matrix back yields the same weight (same shape, same entries) and the same bias; in the matrix the bias is exactly the last row. Conversely any matrix of the right size is recovered from its layer-parameter form.",
  "all weight shapes, all entry values, with and without bias",
  "A test tries particular shapes; the claim is for every rank and size.",
  [U+": layer_params_to_mat2d, mat2d_to_layer_params"])
p("C03", "Depthwise filters survive conversion to an ordinary convolution filter and back",
  "Converting a depthwise filter [h,w,in,mult] to the equivalent conv2d filter [h,w,in,in*mult] and back returns the original filter for every size; the converted filter, used as an ordinary convolution, multiplies each input channel only into its own mult output channels (all other entries are zero), and the inverse conversion rejects a channel count that is not a multiple of the number of input channels.",
  "all filter sizes and entries",
  "A test tries particular sizes; the index arithmetic out = in*mult + m must be right for every size.",
  [FB+": depthwise_conv2d_filter_to_conv2d_filter, conv2d_filter_to_depthwise_conv2d_filter"])
p("C04", "kronecker_product is the Kronecker product",
  "For every pair of matrices A (m x n) and B (p x q) the result of kronecker_product has m*p rows and n*q columns and its entry at row i*p+k, column j*q+l equals A[i][j]*B[k][l].",
  "all rectangular matrices of all sizes",
  "Reshape/transposition tricks are easily right for square or equal-sized inputs and wrong otherwise.",
  [U+": kronecker_product"])
p("C05", "Multiplying by a Kronecker-factored block is multiplication by the Kronecker product matrix",
  "For every layer whose block is a Kronecker product, the vector returned by the block's multiply (in the parameter layout the user sees: weight rows, then bias) equals renorm * (A (x) G) applied to the flattened parameter vector, where A and G are the (damped) input and output factor matrices; the same holds for any matrix power the block stores.",
  "all layer sizes, with and without bias, all factor matrices and vectors",
  "Row-major versus column-major and transposed factor mistakes cancel on symmetric or square test data.",
  [FB+": KroneckerProductFB._multiply_factored_matrix, multiply_matpower, full_fisher_block", "kfac/python/ops/linear_operator.py: LinearOperatorFullMatrix, LinearOperatorDiag"])
p("C06", "multiply_inverse undoes multiply on a Kronecker-factored block",
  "For every positive damping and every symmetric positive semidefinite input and output statistics, multiply_inverse(multiply(v)) = v and multiply(multiply_inverse(v)) = v for every layer-parameter vector v.",
  "all statistics, damping values > 0, renormalisation coefficients > 0, vectors",
  "A numeric test can only sample matrices and tolerances.",
  [FB+": KroneckerProductFB.multiply_matpower, _setup_damping", FF+": DenseSquareMatrixFactor.make_inverse_update_ops"])
p("C07", "The block's Cholesky operations factor the block",
  "For a Kronecker-factored block, multiply_cholesky applied to multiply_cholesky(transpose=True) of v equals multiply(v) for every v; and multiply_cholesky_inverse undoes multiply_cholesky, with and without transpose.",
  "all Cholesky factors of the stored matrices, all vectors, both transpose flags",
  "The transpose flags of the left and right factor are opposite; mistakes are invisible on diagonal or symmetric data.",
  [FB+": KroneckerProductFB.multiply_cholesky, multiply_cholesky_inverse"])
p("C08", "Splitting the damping between the two factors preserves the total damping and balances the factors",
  "For every damping d>0, number of uses/locations and pair of factor traces, the dampings d1 and d2 given to the two Kronecker factors are positive, the identity component of the damped block (renorm * d1 * d2) equals d, and, unless a trace is zero, d1/d2 equals the ratio of the average traces of the two factors; when a trace is zero the split is even.",
  "all damping values, trace values >= 0, dimensions >= 1, use counts >= 1",
  "Square roots, powers and the zero-trace special case interact; a test checks particular numbers.",
  [FB+": normalize_damping, compute_pi_tracenorm, compute_pi_adjusted_damping, KroneckerProductFB._setup_damping"])
p("C09", "Curvature statistics stay symmetric positive semidefinite, so the preconditioned gradient is a descent direction",
  "Whatever mini-batches were seen and in whatever order covariance updates (decayed or not) were run, every stored dense covariance estimate is symmetric positive semidefinite; hence for positive damping the Kronecker-factored block is positive definite and the preconditioned gradient of any nonzero gradient has strictly positive inner product with the gradient.",
  "all histories of covariance updates, all data, all decay values in [0,1], all positive dampings, all gradients",
  "The claim ranges over unbounded histories of data.",
  [FF+": compute_cov, FisherFactor.make_covariance_update_op", U+": MovingAverageVariable", FB+": KroneckerProductFB"])
p("C10", "Zero-debiased moving averages are weighted means of the data seen",
  "After any non-empty history of updates (value v_k, decay d_k, weight w_k >0, d_k in [0,1]) started from zero, the reported moving average equals the weighted mean of all values, where the weight of v_k is w_k times the product of later decays; in particular it lies between the minimum and maximum of the values and is exact on constant data. Before any update the debiased value is undefined (0/0).",
  "all update histories of any length",
  "Unbounded histories; bias at early steps is what naive EMA gets wrong.",
  [U+": MovingAverageVariable"])
p("C11", "Accumulated quantities report the mean since the last reset",
  "For every sequence of accumulate and reset operations on an accumulator, the reported value equals the arithmetic mean of the values accumulated since the last reset (or initialisation).",
  "all operation sequences",
  "Ordering of resets and accumulations across arbitrarily long runs cannot be enumerated.",
  [U+": AccumulatorVariable"])
p("C12", "Splitting a batch over towers does not change the covariance",
  "When a batch is split into towers of equal size, the covariance estimate computed per tower and averaged equals the one computed from the concatenated batch, and the tower order does not matter; when tower sizes differ the library must reject the configuration rather than silently compute a different estimate.",
  "all numbers of towers, sizes and data",
  "A test uses particular numbers and sizes of towers; the claim is for all of them.",
  [FF+": FisherFactor._compute_total_new_cov, check_partial_batch_sizes, compute_cov", FB+": InputOutputMultiTower._process_data"])
p("C13", "Each loss's Fisher product equals its factor times the factor's transpose",
  "For every registered loss (Gaussian mean, Gaussian mean and variance, categorical logits, multi-Bernoulli logits) and every parameter value, multiply_fisher(v) = multiply_fisher_factor(multiply_fisher_factor_transpose(v)), the product is symmetric and positive semidefinite, and the factor and its transpose are adjoint to each other.",
  "all batch entries, logits/means/variances, vectors",
  "Closed forms with square roots of probabilities must agree for every distribution parameter.",
  [LF+": *.multiply_fisher, multiply_fisher_factor, multiply_fisher_factor_transpose"])
p("C14", "Each loss's Fisher is the covariance of the score of its predictive distribution",
  "For categorical and multi-Bernoulli losses multiply_fisher(v) equals the expectation, over targets drawn from the model's own predictive distribution, of score * <score, v>, where the score is the gradient of the log-probability with respect to the logits; for Gaussian losses the same with the Gaussian's moments.",
  "all logits and vectors",
  "A Monte-Carlo test only samples.",
  [LF+": CategoricalLogitsNegativeLogProbLoss, MultiBernoulliNegativeLogProbLoss, NormalMeanNegativeLogProbLoss, NormalMeanVarianceNegativeLogProbLoss"])
p("C15", "One-hot ('replicated') Fisher-factor products agree with the general product",
  "For every loss and every inner index, multiply_fisher_factor_replicated_one_hot(index) equals multiply_fisher_factor applied to the one-hot vector at that index for every batch case, and an index list of the wrong length is rejected.",
  "all losses, parameters and indices",
  "Index placement (e.g. mean part vs variance part) must be right for every index and size.",
  [LF+": multiply_fisher_factor_replicated_one_hot, insert_slice_in_zeros"])
p("C16", "Static inner shapes agree with dynamic inner shapes",
  "For every loss the statically reported inner shape of the Fisher/GGN factor equals the shape of the vectors that the factor products actually use.",
  "all losses and all input shapes",
  "Shape bugs appear only for particular ranks and dimensions.",
  [LF+": fisher_factor_inner_static_shape, ggn_factor_inner_static_shape", EST+": _get_grads_lists_exact"])
p("C17", "Full curvature products are consistent: F = B B^T, symmetric, positive semidefinite, linear",
  "For every model Jacobian and set of losses with nonnegative coefficients, multiply_fisher(v) = multiply_fisher_factor(multiply_fisher_factor_transpose(v)), <u, F v> = <F u, v>, <v, F v> >= 0, and F equals the coefficient-weighted sum over losses of J^T F_loss J; same for the GGN.",
  "all Jacobians, losses, coefficients >= 0, vectors",
  "Interaction of coefficient modes (regular vs sqrt) with several losses is not covered by examples.",
  [CM+": CurvatureMatrixVectorProductComputer"])
p("C18", "Rotating batch execution runs every op fairly",
  "batch_execute with n thunks and batch size b runs, at every global step, exactly min(b,n) distinct thunks; over any consecutive steps each thunk's number of executions differs by at most one from any other's, and every thunk is run at least once in any ceil(n/b) consecutive steps.",
  "all n >= 1, b >= 1, starting steps and run lengths",
  "Modular arithmetic edge cases for arbitrary n, b and step.",
  [U+": batch_execute"])
p("C19", "Work-sharing over replicas returns every result to every replica",
  "For any number of replicas and any list of thunks/inputs, map_gather gives every replica the same list, whose i-th element is the result of the i-th thunk (for thunks whose value does not depend on the replica); under TPU replication or a replicator each thunk is evaluated on exactly one replica and every replica receives the value computed there.",
  "all numbers of replicas and list lengths (not necessarily multiples)",
  "A test runs with particular numbers of replicas.",
  [U+": map_gather"])
p("C20", "Cross-replica averaging computes the mean on every replica",
  "all_sum / all_average applied to per-replica values give every replica the sum / arithmetic mean of all replicas' values, and are the identity outside replicated execution.",
  "all execution contexts (no replication, TPU shards, distribution strategy inside and outside replica context), replica counts and values",
  "Combinations of contexts are many and have to be set up one at a time.",
  [U+": all_sum, all_average, get_num_replicas, is_replicated"])
p("C21", "Round-robin placement keeps order and pairs each factor's covariance variable with its update",
  "With round-robin placement every factor gets exactly one thunk of each kind in the original order; the i-th covariance variable and i-th covariance update are on the same device cov_devices[i mod n]; inverse updates cycle over inv_devices; with no devices given nothing is pinned; vector transformations are returned in parameter order.",
  "all numbers of factors and devices",
  "A test uses particular counts.",
  [PL+": RoundRobinPlacementMixin"])
p("C22", "Replica round-robin placement keeps every replica's inverses identical and works for every model",
  "With replica round-robin placement, after running the inverse update op all replicas hold the same values in all inverse-related variables, namely those a single machine would have computed, for every set of registered factors.",
  "all factor lists (including lists where no factor has inverse variables) and replica counts",
  "Needs multi-replica execution for all factor mixes.",
  [PL+": ReplicaRoundRobinPlacementMixin.create_ops_and_vars_thunks", FF+": get_inv_vars"])
p("C23", "OpQueue runs every op once per epoch",
  "For ops with distinct names, the infinite sequence returned by OpQueue.next_op consists of consecutive permutations of the given ops; so over any k*n draws from the start each op is returned exactly k times, and every op occurs in any 2n-1 consecutive draws.",
  "all op lists, all shuffle outcomes, all run lengths",
  "Shuffling is random and the run is infinite.",
  ["kfac/python/ops/op_queue.py: OpQueue"])
p("C24", "SequenceDict behaves like a dictionary extended to sequences",
  "Setting a sequence of keys to a sequence of values and reading the same (duplicate-free) keys returns the values; reading a sequence equals reading its elements; other keys are unaffected.",
  "all key/value sequences and prior contents",
  "Nested sequences and overlapping keys are unbounded.",
  [U+": SequenceDict"])
p("C25", "A layer-parameter dictionary never associates a variable with two keys",
  "After any sequence of insertions and deletions (including ones that raise), no variable belongs to two different keys of a LayerParametersDict, an insertion whose variables collide raises and changes nothing, and deleting a key makes its variables available again.",
  "all operation sequences with single-variable and tuple keys",
  "Histories mixing tuples, lists and deletions are unbounded.",
  [LC+": LayerParametersDict"])
p("C26", "Every registered variable belongs to exactly one block",
  "After any sequence of layer registrations (with any reuse setting, succeeding or failing), each variable appears in at most one registered parameter group; registering a group that overlaps another group raises an error; reuse=True only ever extends an existing block of the same type and reuse=False never does.",
  "all registration histories",
  "Histories are unbounded and error paths interact.",
  [LC+": LayerCollection._register_block"])
p("C27", "A rejected registration leaves the layer collection unchanged",
  "If a register_* call raises because of a bad approximation, collision, reuse mismatch, or finalised collection, the set of registered blocks, use counts and losses is the same as before the call.",
  "all states and all failing calls",
  "Exception safety over all states.",
  [LC+": register_*, _register_block, _register_loss_function"])
p("C28", "Nothing can be registered after the collection is finalised",
  "Once the layer collection has been finalised (which the estimator does when it first builds its update thunks), every later attempt to register a block or loss raises, and the registered blocks and losses stay the same forever; finalising twice raises.",
  "all operation sequences after finalisation",
  "Unbounded histories.",
  [LC+": finalize, _register_block, _register_loss_function", EST+": FisherEstimator._finalize"])
p("C29", "Loss registration with reuse groups towers under one name with one coefficient",
  "After any history of loss registrations, every loss name has a non-empty list of towers in registration order and exactly one coefficient, which is the one given at first registration; reuse of an unknown name, re-registration without reuse and a coefficient mismatch raise and change nothing; AUTO_REUSE registers when new and appends when present.",
  "all registration histories",
  "Unbounded histories and three reuse modes.",
  [LC+": _register_loss_function, losses, towers_by_loss, loss_coeffs"])
p("C30", "The approximation used for a layer is explicit > linked > default, and only supported ones are accepted",
  "For each layer type the block built is determined by the explicit approx argument if given, else by the approximation of a linked parameter group equal to the layer's parameters, else by the collection's default; an unsupported name raises ValueError; setting a default to an unsupported name raises and keeps the old default, so defaults are always supported.",
  "all sequences of default settings, links and registrations",
  "Combination of three sources over all layer types.",
  [LC+": _get_block_type, _get_linked_approx, set_default_*_approximation, define_linked_parameters"])
p("C31", "check_registration accepts exactly the correctly registered models",
  "check_registration(vars) passes if and only if every variable of the list is registered, with a number of uses equal to its number of uses in the graph (generic registration matches any number), and every registered variable is in the list.",
  "all graphs, registrations and variable lists",
  "Needs all graphs and lists (duplicates, repeated calls).",
  [LC+": check_registration, _add_uses, register_generic", U+": SubGraph"])
p("C32", "Variable groups linked by the user are disjoint",
  "After any sequence of define_linked_parameters calls no variable is in two different linked groups, a single variable and tuple are treated alike, and an incompatible grouping raises without changing earlier groups; repeating an identical link is accepted.",
  "all call sequences",
  "Unbounded histories.",
  [LC+": define_linked_parameters"])
p("C33", "Identical factors are shared and different ones are not",
  "Requesting a factor twice with the same class and arguments returns the same factor object; requests differing in class or arguments never share; the collection's factor set is exactly the set of distinct requests; distinct factors have distinct variable names.",
  "all request sequences",
  "Unbounded histories; name collisions only for special argument combinations.",
  [LC+": make_or_get_factor", FF+": scope_string_from_params, _var_scope"])
p("C34", "The default layer collection is restored after use",
  "Inside 'with lc.as_default()' the default layer collection is lc and after the block (normal exit or exception) it is unset again; nested defaults raise.",
  "all nestings and exits",
  "Exception exits at arbitrary points.",
  [LC+": as_default, set_default_layer_collection, get_default_layer_collection"])
p("C35", "Adaptive damping follows the Levenberg-Marquardt rule within its bounds",
  "At each adaptation the damping is multiplied by omega = decay**interval when the reduction ratio exceeds the decrease threshold (or the loss fell although the model predicted a rise), divided by omega when the ratio is below the increase threshold, otherwise kept, and never drops below min_damping + l2_reg; hence over any run after the first adaptation the damping is positive and at least that bound, and never grows by more than 1/omega per adaptation.",
  "all sequences of losses, predicted changes and hyperparameters with 0<omega<=1",
  "Unbounded sequence of losses.",
  [OPT+": _update_damping"])
p("C36", "Damping is adapted exactly once per interval using quantities from the same step",
  "In a run of the optimizer with adapt_damping, the damping changes only at steps where (step+1) is a multiple of the interval (or at the start of the following step if not immediate); the loss and predicted change entering the ratio were both recorded at that step, so neither is ever stale or NaN.",
  "all intervals >= 1, run lengths, both update_damping_immediately settings",
  "Off-by-one schedule errors over unbounded runs.",
  [OPT+": _is_damping_adaptation_time, _is_just_after_damping_adaptation_time, _maybe_update_prev_loss, maybe_pre_update_adapt_damping, _maybe_post_update_adapt_damping, apply_gradients"])
p("C37", "Inverses in use always reflect the current damping when intervals line up",
  "With the periodic optimizer, if damping_adaptation_interval is a multiple of invert_every then at every parameter update the preconditioner in use was computed with the current damping value; otherwise it can be stale.",
  "all intervals and run lengths",
  "Unbounded runs, two interacting schedules.",
  [PER+": kfac_update_ops", OPT+": _maybe_post_update_adapt_damping, maybe_pre_update_adapt_damping"])
p("C38", "Covariances and inverses are refreshed with the advertised frequency and staleness",
  "In the periodic optimizer the covariance update runs exactly at steps divisible by cov_update_every and the inverse update at steps divisible by invert_every, covariance first; thus at step t the preconditioner uses statistics as of step t - (t mod invert_every), including that step's covariance update if due, and it is always initialised before its first use.",
  "all run lengths and intervals >= 1",
  "Unbounded runs.",
  [PER+": kfac_update_ops, apply_gradients"])
p("C39", "Burn-in only collects statistics",
  "With num_burnin_steps = N, the first N training-op executions leave parameters, step counter, damping and inverses unchanged and only add data to the covariances without decay; afterwards training proceeds exactly as without burn-in, starting at step 0.",
  "all N and run lengths",
  "Unbounded runs.",
  [PER+": minimize"])
p("C40", "The covariance decay is per training step, independent of the covariance update period",
  "The periodic optimizer's effective covariance decay per covariance update is cov_ema_decay ** cov_update_every, whatever cov_ema_decay is in effect, so data s steps old is discounted by cov_ema_decay ** s.",
  "all decay values (given or default) and update periods",
  "Depends on whether an optional argument was passed; not visible from outputs over few steps.",
  [PER+": __init__", OPT+": KfacOptimizer.__init__"])
p("C41", "The norm constraint bounds the update",
  "With norm_constraint C > 0 the (preconditioned-gradient part of the) applied update r satisfies r^T F r <= C for the curvature matrix F defined by the preconditioner, equals the unclipped update when that already satisfies the bound, keeps its direction, and attains the bound otherwise.",
  "all gradients, positive definite preconditioners, learning rates and C > 0",
  "Square-root scaling over all magnitudes.",
  [OPT+": _update_clip_coeff, _clip_updates, _compute_raw_update_steps"])
p("C42", "Quadratic-model hyperparameters are optimal",
  "With momentum_type 'qmodel' the learning rate and momentum chosen at each step minimise the damped quadratic model over all combinations alpha*precon_grad + mu*prev_update (and 'qmodel_fixedmu' minimises over alpha for the given mu), and the recorded qmodel_change is the model's value at the update actually applied.",
  "all gradients, previous updates, curvature matrices, dampings",
  "Special-case branches (zero previous update) hide for generic data.",
  [OPT+": _compute_qmodel, _compute_qmodel_hyperparams, _two_by_two_solve, _eval_quadratic"])
p("C43", "The recorded predicted change equals the quadratic model's change for the update applied",
  "With momentum types 'regular' and 'adam' and adaptive damping, qmodel_change recorded at adaptation steps equals 1/2 d^T C d + g^T d for the update d that is applied (C the approximate curvature defined by the estimator), with or without norm constraint.",
  "all gradients, velocities, curvature, learning rates, clip coefficients",
  "Algebraic shortcuts (special formulas) only hold under assumptions.",
  [OPT+": _compute_raw_update_steps, _compute_approx_qmodel_change"])
p("C44", "Momentum accumulates geometrically and the parameters move by -lr times the raw update",
  "After any sequence of steps the velocity equals the sum of past preconditioned (or raw, for 'adam') gradients weighted by momentum powers and the parameters equal the initial ones minus lr times the sum of raw updates (including weight decay when enabled); the order of variables is preserved.",
  "all gradient sequences, momentum, learning rates",
  "Unbounded sequences.",
  [OPT+": _update_velocities, apply_gradients, _add_weight_decay"])
p("C45", "Data-parallel replicas apply the same update as one machine on the averaged gradient",
  "Under a distribution strategy with n replicas, the parameter change after summing the replicas' contributions equals the single-machine change computed from the averaged gradient.",
  "all replica counts and gradients",
  "Needs multi-replica execution.",
  [OPT+": compute_gradients, apply_gradients", U+": all_average"])
p("C46", "The optimizer constructor accepts exactly the consistent hyperparameter combinations",
  "Construction succeeds iff momentum_type is one of the four names (case-insensitive), norm_constraint only with regular/adam, momentum is None for qmodel, learning_rate is None exactly for the qmodel types, qmodel_update_rescale only with qmodel types, and train_batch is given when use_passed_loss is false; the effective base learning rate is then determined as documented.",
  "all argument combinations",
  "Combinatorial space of optional arguments.",
  [OPT+": KfacOptimizer.__init__"])
p("C47", "Matrix powers computed by eigendecomposition and by direct inversion agree",
  "Every stored matrix power of a dense factor equals (cov + damping*I)**exp whichever code path (eigendecomposition or direct inverse/Cholesky) is selected, for positive damping and positive semidefinite cov with the default eigenvalue clipping threshold; the choice of path depends only on the registered operations.",
  "all factors, registered powers and dampings",
  "Path selection thresholds and clipping for all spectra.",
  [FF+": DenseSquareMatrixFactor.make_inverse_update_ops, get_matpower, get_eigendecomp", U+": posdef_inv, posdef_eig"])
p("C48", "The SUA convolution factor's inverse really is the inverse of the SUA factor",
  "For the spatially-uncorrelated-activations input factor, multiplying by the stored inverse undoes multiplying by the damped factor (zero-mean or not, with or without bias), for all positive dampings and positive semidefinite channel covariances.",
  "all channel covariances, means, kernel sizes, dampings",
  "Rank-one update formula must hold for all sizes.",
  [FF+": ConvInputSUAKroneckerFactor"])
p("C49", "The SUA factor acts on each filter tap separately in the parameter layout",
  "Under the SUA approximation entries of the filter belonging to different spatial positions are uncorrelated (zero-mean case), i.e. multiplying by the factor mixes only the channels of the same spatial position of the user's filter.",
  "all kernel sizes and channel counts",
  "Layout mistakes are invisible for 1x1 kernels or a single channel.",
  [FF+": ConvInputSUAKroneckerFactor", U+": layer_params_to_mat2d"])
p("C50", "RNN approximation 'option 1' inverts the finite-horizon series curvature",
  "For the kron_series_1 approximation, multiply_inverse returns the solution W of sum_{|d|<T} (T-|d|) G_d W A_d^T = V for the stationary temporal covariances defined by the stored statistics (symmetric positive definite case), for every number of time-steps T.",
  "all T >= 1, sizes, statistics satisfying the approximation's assumptions",
  "Closed-form geometric sums must hold for every T and spectrum.",
  [FB+": FullyConnectedSeriesFB.multiply_matpower", FF+": FullyConnectedMultiKF"])
p("C51", "RNN approximation 'option 2' inverts the infinite-horizon series curvature",
  "For kron_series_2, the optimised formula used by multiply_inverse equals the reference algorithm given in the source comments for all inputs.",
  "all sizes and statistics",
  "Algebraic restructuring with many transposes.",
  [FB+": FullyConnectedSeriesFB.multiply_matpower", FF+": FullyConnectedMultiKF"])
p("C52", "The cached batch is always the previously returned batch",
  "For both cached data readers, after any sequence of reads with batch sizes not exceeding the maximum, cached_batch equals exactly the batch returned by the latest read (and while reading it still equals the one before); a too-large batch size is rejected and leaves the cache unchanged; the alternative reader returns distinct examples of the dataset.",
  "all read sequences and batch sizes",
  "Unbounded sequences with shrinking and growing batches.",
  [DR+": CachedDataReader", DRA+": CachedDataReader"])
p("C53", "The graph pattern matcher finds a match iff one exists",
  "The compiled matcher returns bindings for a node exactly when the pattern, read declaratively (elements, choices, lists, negation, inputs/outputs), has a consistent assignment, and the returned bindings are such an assignment; enumerating all matches returns all of them.",
  "all patterns and graphs",
  "Backtracking through continuations over arbitrary patterns.",
  [GM+": match_*, matcher, all_matcher, matcher_with_consumed"])
p("C54", "Automatic registration never touches user-registered variables and yields unambiguous groups",
  "After filtering, no automatically found layer contains a variable the user registered or splits a user-specified group, no match is a strict sub-match of another surviving-or-removed match sharing a variable, and no variable is in two groups — otherwise AmbiguousRegistrationError is raised.",
  "all sets of matches, user registrations and groupings",
  "Unbounded collections of overlapping matches.",
  [GS+": filter_records, filter_user_registered_records, filter_grouped_variable_records, filter_subgraph_records"])
p("C55", "Automatic registration covers every trainable variable or raises",
  "register_layers either raises or registers every variable in the list (as part of a matched layer, by the user, or generically).",
  "all variable lists and match sets",
  "Unbounded.",
  [GS+": register_subgraph_layers, register_records"])
p("C56", "Hyperparameter decay callbacks follow their schedule",
  "Running PolynomialDecay / ExponentialDecay through consecutive iterations sets the hyperparameter at iteration delay+s to the documented closed form for 1<=s<=num_decay_steps and leaves it unchanged before and after; polynomial decay with positive power ends exactly at final_value and stays between init and final value; every value passed for an optional argument is used.",
  "all step counts, delays and parameter values",
  "Unbounded iteration counts.",
  [KC+": PolynomialDecay, ExponentialDecay"])
p("C57", "Adaptive-mode defaults never override explicit user settings",
  "For the Keras optimizer in adaptive mode every keyword explicitly passed by the user keeps its value; only missing keywords are filled in.",
  "all keyword dictionaries",
  "Combinatorial space of optional keywords.",
  [KO+": _configure_kfac_kwargs_for_adaptive"])
p("C58", "An optimizer restored from its config behaves like the original",
  "Constructing a Kfac Keras optimizer from the config of another yields the same effective hyperparameters in the underlying optimizer.",
  "all keyword dictionaries",
  "Defaults leak into explicit arguments only for particular combinations.",
  [KO+": Kfac.__init__, get_config, _create_optimizer", PER+": __init__"])
p("C59", "Keras layers are registered in depth-first order with name-over-class precedence of approximations",
  "For every nested model the flattened layer order is the left-to-right depth-first order of leaf layers; a list of approximations is matched positionally to trainable layers; in a dictionary the layer name has precedence over the class, and otherwise the default is used.",
  "all model nestings",
  "Unbounded nesting.",
  [KU+": get_layer_collection, _get_verified_dict"])
p("C60", "Loss weights reach the loss they were given for",
  "For every model (including nested models) the coefficient with which an output's loss is registered is the weight the user gave for that output, default 1.0, and the user's dictionaries are not modified.",
  "all models, losses and weights",
  "Nested models and naming combinations.",
  [KU+": get_layer_collection"])
p("C61", "Counting a variable's uses follows the graph reachable from the losses",
  "A tensor is in the sub-graph iff the losses depend on it, and the number of uses of a variable is the number of distinct consumers of its value inside the subgraph, looking through identity-like ops.",
  "all finite graphs",
  "Unbounded graphs, including sharing and diamonds.",
  [U+": SubGraph"])
p("C62", "The number of convolution locations equals the number of output positions",
  "num_conv_locations(input_shape, filter_shape, strides, padding) equals the number of spatial positions of the convolution's output.",
  "all input sizes, filters, strides, dilations and paddings",
  "Ceil-division edge cases.",
  [U+": num_conv_locations", FB+": ConvKFCBasicFB"])
