{"id": "C01", "title": "Packing tensors into one column and unpacking is lossless", "statement": "For every list of tensors, column_to_tensors(tensors, tensors_to_column(tensors)) returns the same tensors in the same order; and for every column whose length is the total number of entries of the given shapes, packing the unpacked pieces gives the column back. No entry is lost, duplicated or moved to another tensor.", "quantifier": "all lists of tensors of all shapes (including empty lists, scalars and zero-sized tensors) and all columns of the matching length", "why_tests_cant": "A test tries particular shapes; an off-by-one in the running offset shows only for particular combinations of sizes.", "anchors": ["kfac/python/ops/utils.py: tensors_to_column, column_to_tensors"]}
{"id": "C02", "title": "A layer's (weight, bias) survives conversion to the 2-D matrix form and back", "statement": "For every layer parameter (a weight of any rank, alone or with a bias), converting it to the 2-D matrix used by the curvature blocks and converting that matrix back yields the same weight (same shape, same entries) and the same bias; in the matrix the bias is exactly the last row. Conversely any matrix of the right size is recovered from its layer-parameter form.", "quantifier": "all weight shapes, all entry values, with and without bias", "why_tests_cant": "A test tries particular shapes; the claim is for every rank and size.", "anchors": ["kfac/python/ops/utils.py: layer_params_to_mat2d, mat2d_to_layer_params"]}
{"id": "C03", "title": "Depthwise filters survive conversion to an ordinary convolution filter and back", "statement": "Converting a depthwise filter [h,w,in,mult] to the equivalent conv2d filter [h,w,in,in*mult] and back returns the original filter for every size; the converted filter, used as an ordinary convolution, multiplies each input channel only into its own mult output channels (all other entries are zero), and the inverse conversion rejects a channel count that is not a multiple of the number of input channels.", "quantifier": "all filter sizes and entries", "why_tests_cant": "A test tries particular sizes; the index arithmetic out = in*mult + m must be right for every size.", "anchors": ["kfac/python/ops/fisher_blocks.py: depthwise_conv2d_filter_to_conv2d_filter, conv2d_filter_to_depthwise_conv2d_filter"]}
{"id": "C04", "title": "kronecker_product is the Kronecker product", "statement": "For every pair of matrices A (m x n) and B (p x q) the result of kronecker_product has m*p rows and n*q columns and its entry at row i*p+k, column j*q+l equals A[i][j]*B[k][l].", "quantifier": "all rectangular matrices of all sizes", "why_tests_cant": "Reshape/transposition tricks are easily right for square or equal-sized inputs and wrong otherwise.", "anchors": ["kfac/python/ops/utils.py: kronecker_product"]}
{"id": "C05", "title": "Multiplying by a Kronecker-factored block is multiplication by the Kronecker product matrix", "statement": "For every layer whose block is a Kronecker product, the vector returned by the block's multiply (in the parameter layout the user sees: weight rows, then bias) equals renorm * (A (x) G) applied to the flattened parameter vector, where A and G are the (damped) input and output factor matrices; the same holds for any matrix power the block stores.", "quantifier": "all layer sizes, with and without bias, all factor matrices and vectors", "why_tests_cant": "Row-major versus column-major and transposed factor mistakes cancel on symmetric or square test data.", "anchors": ["kfac/python/ops/fisher_blocks.py: KroneckerProductFB._multiply_factored_matrix, multiply_matpower, full_fisher_block", "kfac/python/ops/linear_operator.py: LinearOperatorFullMatrix, LinearOperatorDiag"]}
{"id": "C06", "title": "multiply_inverse undoes multiply on a Kronecker-factored block", "statement": "For every positive damping and every symmetric positive semidefinite input and output statistics, multiply_inverse(multiply(v)) = v and multiply(multiply_inverse(v)) = v for every layer-parameter vector v.", "quantifier": "all statistics, damping values > 0, renormalisation coefficients > 0, vectors", "why_tests_cant": "A numeric test can only sample matrices and tolerances.", "anchors": ["kfac/python/ops/fisher_blocks.py: KroneckerProductFB.multiply_matpower, _setup_damping", "kfac/python/ops/fisher_factors.py: DenseSquareMatrixFactor.make_inverse_update_ops"]}
{"id": "C07", "title": "The block's Cholesky operations factor the block", "statement": "For a Kronecker-factored block, multiply_cholesky applied to multiply_cholesky(transpose=True) of v equals multiply(v) for every v; and multiply_cholesky_inverse undoes multiply_cholesky, with and without transpose.", "quantifier": "all Cholesky factors of the stored matrices, all vectors, both transpose flags", "why_tests_cant": "The transpose flags of the left and right factor are opposite; mistakes are invisible on diagonal or symmetric data.", "anchors": ["kfac/python/ops/fisher_blocks.py: KroneckerProductFB.multiply_cholesky, multiply_cholesky_inverse"]}
{"id": "C08", "title": "Splitting the damping between the two factors preserves the total damping and balances the factors", "statement": "For every damping d>0, number of uses/locations and pair of factor traces, the dampings d1 and d2 given to the two Kronecker factors are positive, the identity component of the damped block (renorm * d1 * d2) equals d, and, unless a trace is zero, d1/d2 equals the ratio of the average traces of the two factors; when a trace is zero the split is even.", "quantifier": "all damping values, trace values >= 0, dimensions >= 1, use counts >= 1", "why_tests_cant": "Square roots, powers and the zero-trace special case interact; a test checks particular numbers.", "anchors": ["kfac/python/ops/fisher_blocks.py: normalize_damping, compute_pi_tracenorm, compute_pi_adjusted_damping, KroneckerProductFB._setup_damping"]}
{"id": "C09", "title": "Curvature statistics stay symmetric positive semidefinite, so the preconditioned gradient is a descent direction", "statement": "Whatever mini-batches were seen and in whatever order covariance updates (decayed or not) were run, every stored dense covariance estimate is symmetric positive semidefinite; hence for positive damping the Kronecker-factored block is positive definite and the preconditioned gradient of any nonzero gradient has strictly positive inner product with the gradient.", "quantifier": "all histories of covariance updates, all data, all decay values in [0,1], all positive dampings, all gradients", "why_tests_cant": "The claim ranges over unbounded histories of data.", "anchors": ["kfac/python/ops/fisher_factors.py: compute_cov, FisherFactor.make_covariance_update_op", "kfac/python/ops/utils.py: MovingAverageVariable", "kfac/python/ops/fisher_blocks.py: KroneckerProductFB"]}
{"id": "C10", "title": "Zero-debiased moving averages are weighted means of the data seen", "statement": "After any non-empty history of updates (value v_k, decay d_k, weight w_k >0, d_k in [0,1]) started from zero, the reported moving average equals the weighted mean of all values, where the weight of v_k is w_k times the product of later decays; in particular it lies between the minimum and maximum of the values and is exact on constant data. Before any update the debiased value is undefined (0/0).", "quantifier": "all update histories of any length", "why_tests_cant": "Unbounded histories; bias at early steps is what naive EMA gets wrong.", "anchors": ["kfac/python/ops/utils.py: MovingAverageVariable"]}
{"id": "C11", "title": "Accumulated quantities report the mean since the last reset", "statement": "For every sequence of accumulate and reset operations on an accumulator, the reported value equals the arithmetic mean of the values accumulated since the last reset (or initialisation).", "quantifier": "all operation sequences", "why_tests_cant": "Ordering of resets and accumulations across arbitrarily long runs cannot be enumerated.", "anchors": ["kfac/python/ops/utils.py: AccumulatorVariable"]}
{"id": "C12", "title": "Splitting a batch over towers does not change the covariance", "statement": "When a batch is split into towers of equal size, the covariance estimate computed per tower and averaged equals the one computed from the concatenated batch, and the tower order does not matter; when tower sizes differ the library must reject the configuration rather than silently compute a different estimate.", "quantifier": "all numbers of towers, sizes and data", "why_tests_cant": "A test uses particular numbers and sizes of towers; the claim is for all of them.", "anchors": ["kfac/python/ops/fisher_factors.py: FisherFactor._compute_total_new_cov, check_partial_batch_sizes, compute_cov", "kfac/python/ops/fisher_blocks.py: InputOutputMultiTower._process_data"]}
{"id": "C13", "title": "Each loss's Fisher product equals its factor times the factor's transpose", "statement": "For every registered loss (Gaussian mean, Gaussian mean and variance, categorical logits, multi-Bernoulli logits) and every parameter value, multiply_fisher(v) = multiply_fisher_factor(multiply_fisher_factor_transpose(v)), the product is symmetric and positive semidefinite, and the factor and its transpose are adjoint to each other.", "quantifier": "all batch entries, logits/means/variances, vectors", "why_tests_cant": "Closed forms with square roots of probabilities must agree for every distribution parameter.", "anchors": ["kfac/python/ops/loss_functions.py: *.multiply_fisher, multiply_fisher_factor, multiply_fisher_factor_transpose"]}
{"id": "C14", "title": "Each loss's Fisher is the covariance of the score of its predictive distribution", "statement": "For categorical and multi-Bernoulli losses multiply_fisher(v) equals the expectation, over targets drawn from the model's own predictive distribution, of score * <score, v>, where the score is the gradient of the log-probability with respect to the logits; for Gaussian losses the same with the Gaussian's moments.", "quantifier": "all logits and vectors", "why_tests_cant": "A Monte-Carlo test only samples.", "anchors": ["kfac/python/ops/loss_functions.py: CategoricalLogitsNegativeLogProbLoss, MultiBernoulliNegativeLogProbLoss, NormalMeanNegativeLogProbLoss, NormalMeanVarianceNegativeLogProbLoss"]}
{"id": "C15", "title": "One-hot ('replicated') Fisher-factor products agree with the general product", "statement": "For every loss and every inner index, multiply_fisher_factor_replicated_one_hot(index) equals multiply_fisher_factor applied to the one-hot vector at that index for every batch case, and an index list of the wrong length is rejected.", "quantifier": "all losses, parameters and indices", "why_tests_cant": "Index placement (e.g. mean part vs variance part) must be right for every index and size.", "anchors": ["kfac/python/ops/loss_functions.py: multiply_fisher_factor_replicated_one_hot, insert_slice_in_zeros"]}
{"id": "C16", "title": "Static inner shapes agree with dynamic inner shapes", "statement": "For every loss the statically reported inner shape of the Fisher/GGN factor equals the shape of the vectors that the factor products actually use.", "quantifier": "all losses and all input shapes", "why_tests_cant": "Shape bugs appear only for particular ranks and dimensions.", "anchors": ["kfac/python/ops/loss_functions.py: fisher_factor_inner_static_shape, ggn_factor_inner_static_shape", "kfac/python/ops/estimator.py: _get_grads_lists_exact"]}
{"id": "C17", "title": "Full curvature products are consistent: F = B B^T, symmetric, positive semidefinite, linear", "statement": "For every model Jacobian and set of losses with nonnegative coefficients, multiply_fisher(v) = multiply_fisher_factor(multiply_fisher_factor_transpose(v)), <u, F v> = <F u, v>, <v, F v> >= 0, and F equals the coefficient-weighted sum over losses of J^T F_loss J; same for the GGN.", "quantifier": "all Jacobians, losses, coefficients >= 0, vectors", "why_tests_cant": "Interaction of coefficient modes (regular vs sqrt) with several losses is not covered by examples.", "anchors": ["kfac/python/ops/curvature_matrix_vector_products.py: CurvatureMatrixVectorProductComputer"]}
{"id": "C18", "title": "Rotating batch execution runs every op fairly", "statement": "batch_execute with n thunks and batch size b runs, at every global step, exactly min(b,n) distinct thunks; over any consecutive steps each thunk's number of executions differs by at most one from any other's, and every thunk is run at least once in any ceil(n/b) consecutive steps.", "quantifier": "all n >= 1, b >= 1, starting steps and run lengths", "why_tests_cant": "Modular arithmetic edge cases for arbitrary n, b and step.", "anchors": ["kfac/python/ops/utils.py: batch_execute"]}
{"id": "C19", "title": "Work-sharing over replicas returns every result to every replica", "statement": "For any number of replicas and any list of thunks/inputs, map_gather gives every replica the same list, whose i-th element is the result of the i-th thunk (for thunks whose value does not depend on the replica); under TPU replication or a replicator each thunk is evaluated on exactly one replica and every replica receives the value computed there.", "quantifier": "all numbers of replicas and list lengths (not necessarily multiples)", "why_tests_cant": "A test runs with particular numbers of replicas.", "anchors": ["kfac/python/ops/utils.py: map_gather"]}
{"id": "C20", "title": "Cross-replica averaging computes the mean on every replica", "statement": "all_sum / all_average applied to per-replica values give every replica the sum / arithmetic mean of all replicas' values, and are the identity outside replicated execution.", "quantifier": "all execution contexts (no replication, TPU shards, distribution strategy inside and outside replica context), replica counts and values", "why_tests_cant": "Combinations of contexts are many and have to be set up one at a time.", "anchors": ["kfac/python/ops/utils.py: all_sum, all_average, get_num_replicas, is_replicated"]}
{"id": "C21", "title": "Round-robin placement keeps order and pairs each factor's covariance variable with its update", "statement": "With round-robin placement every factor gets exactly one thunk of each kind in the original order; the i-th covariance variable and i-th covariance update are on the same device cov_devices[i mod n]; inverse updates cycle over inv_devices; with no devices given nothing is pinned; vector transformations are returned in parameter order.", "quantifier": "all numbers of factors and devices", "why_tests_cant": "A test uses particular counts.", "anchors": ["kfac/python/ops/placement.py: RoundRobinPlacementMixin"]}
{"id": "C22", "title": "Replica round-robin placement keeps every replica's inverses identical and works for every model", "statement": "With replica round-robin placement, after running the inverse update op all replicas hold the same values in all inverse-related variables, namely those a single machine would have computed, for every set of registered factors.", "quantifier": "all factor lists (including lists where no factor has inverse variables) and replica counts", "why_tests_cant": "Needs multi-replica execution for all factor mixes.", "anchors": ["kfac/python/ops/placement.py: ReplicaRoundRobinPlacementMixin.create_ops_and_vars_thunks", "kfac/python/ops/fisher_factors.py: get_inv_vars"]}
{"id": "C23", "title": "OpQueue runs every op once per epoch", "statement": "For ops with distinct names, the infinite sequence returned by OpQueue.next_op consists of consecutive permutations of the given ops; so over any k*n draws from the start each op is returned exactly k times, and every op occurs in any 2n-1 consecutive draws.", "quantifier": "all op lists, all shuffle outcomes, all run lengths", "why_tests_cant": "Shuffling is random and the run is infinite.", "anchors": ["kfac/python/ops/op_queue.py: OpQueue"]}
{"id": "C24", "title": "SequenceDict behaves like a dictionary extended to sequences", "statement": "Setting a sequence of keys to a sequence of values and reading the same (duplicate-free) keys returns the values; reading a sequence equals reading its elements; other keys are unaffected.", "quantifier": "all key/value sequences and prior contents", "why_tests_cant": "Nested sequences and overlapping keys are unbounded.", "anchors": ["kfac/python/ops/utils.py: SequenceDict"]}
{"id": "C25", "title": "A layer-parameter dictionary never associates a variable with two keys", "statement": "After any sequence of insertions and deletions (including ones that raise), no variable belongs to two different keys of a LayerParametersDict, an insertion whose variables collide raises and changes nothing, and deleting a key makes its variables available again.", "quantifier": "all operation sequences with single-variable and tuple keys", "why_tests_cant": "Histories mixing tuples, lists and deletions are unbounded.", "anchors": ["kfac/python/ops/layer_collection.py: LayerParametersDict"]}
{"id": "C26", "title": "Every registered variable belongs to exactly one block", "statement": "After any sequence of layer registrations (with any reuse setting, succeeding or failing), each variable appears in at most one registered parameter group; registering a group that overlaps another group raises an error; reuse=True only ever extends an existing block of the same type and reuse=False never does.", "quantifier": "all registration histories", "why_tests_cant": "Histories are unbounded and error paths interact.", "anchors": ["kfac/python/ops/layer_collection.py: LayerCollection._register_block"]}
{"id": "C27", "title": "A rejected registration leaves the layer collection unchanged", "statement": "If a register_* call raises because of a bad approximation, collision, reuse mismatch, or finalised collection, the set of registered blocks, use counts and losses is the same as before the call.", "quantifier": "all states and all failing calls", "why_tests_cant": "Exception safety over all states.", "anchors": ["kfac/python/ops/layer_collection.py: register_*, _register_block, _register_loss_function"]}
{"id": "C28", "title": "Nothing can be registered after the collection is finalised", "statement": "Once the layer collection has been finalised (which the estimator does when it first builds its update thunks), every later attempt to register a block or loss raises, and the registered blocks and losses stay the same forever; finalising twice raises.", "quantifier": "all operation sequences after finalisation", "why_tests_cant": "Unbounded histories.", "anchors": ["kfac/python/ops/layer_collection.py: finalize, _register_block, _register_loss_function", "kfac/python/ops/estimator.py: FisherEstimator._finalize"]}
{"id": "C29", "title": "Loss registration with reuse groups towers under one name with one coefficient", "statement": "After any history of loss registrations, every loss name has a non-empty list of towers in registration order and exactly one coefficient, which is the one given at first registration; reuse of an unknown name, re-registration without reuse and a coefficient mismatch raise and change nothing; AUTO_REUSE registers when new and appends when present.", "quantifier": "all registration histories", "why_tests_cant": "Unbounded histories and three reuse modes.", "anchors": ["kfac/python/ops/layer_collection.py: _register_loss_function, losses, towers_by_loss, loss_coeffs"]}
{"id": "C30", "title": "The approximation used for a layer is explicit > linked > default, and only supported ones are accepted", "statement": "For each layer type the block built is determined by the explicit approx argument if given, else by the approximation of a linked parameter group equal to the layer's parameters, else by the collection's default; an unsupported name raises ValueError; setting a default to an unsupported name raises and keeps the old default, so defaults are always supported.", "quantifier": "all sequences of default settings, links and registrations", "why_tests_cant": "Combination of three sources over all layer types.", "anchors": ["kfac/python/ops/layer_collection.py: _get_block_type, _get_linked_approx, set_default_*_approximation, define_linked_parameters"]}
{"id": "C31", "title": "check_registration accepts exactly the correctly registered models", "statement": "check_registration(vars) passes if and only if every variable of the list is registered, with a number of uses equal to its number of uses in the graph (generic registration matches any number), and every registered variable is in the list.", "quantifier": "all graphs, registrations and variable lists", "why_tests_cant": "Needs all graphs and lists (duplicates, repeated calls).", "anchors": ["kfac/python/ops/layer_collection.py: check_registration, _add_uses, register_generic", "kfac/python/ops/utils.py: SubGraph"]}
{"id": "C32", "title": "Variable groups linked by the user are disjoint", "statement": "After any sequence of define_linked_parameters calls no variable is in two different linked groups, a single variable and tuple are treated alike, and an incompatible grouping raises without changing earlier groups; repeating an identical link is accepted.", "quantifier": "all call sequences", "why_tests_cant": "Unbounded histories.", "anchors": ["kfac/python/ops/layer_collection.py: define_linked_parameters"]}
{"id": "C33", "title": "Identical factors are shared and different ones are not", "statement": "Requesting a factor twice with the same class and arguments returns the same factor object; requests differing in class or arguments never share; the collection's factor set is exactly the set of distinct requests; distinct factors have distinct variable names.", "quantifier": "all request sequences", "why_tests_cant": "Unbounded histories; name collisions only for special argument combinations.", "anchors": ["kfac/python/ops/layer_collection.py: make_or_get_factor", "kfac/python/ops/fisher_factors.py: scope_string_from_params, _var_scope"]}
{"id": "C34", "title": "The default layer collection is restored after use", "statement": "Inside 'with lc.as_default()' the default layer collection is lc and after the block (normal exit or exception) it is unset again; nested defaults raise.", "quantifier": "all nestings and exits", "why_tests_cant": "Exception exits at arbitrary points.", "anchors": ["kfac/python/ops/layer_collection.py: as_default, set_default_layer_collection, get_default_layer_collection"]}
{"id": "C35", "title": "Adaptive damping follows the Levenberg-Marquardt rule within its bounds", "statement": "At each adaptation the damping is multiplied by omega = decay**interval when the reduction ratio exceeds the decrease threshold (or the loss fell although the model predicted a rise), divided by omega when the ratio is below the increase threshold, otherwise kept, and never drops below min_damping + l2_reg; hence over any run after the first adaptation the damping is positive and at least that bound, and never grows by more than 1/omega per adaptation.", "quantifier": "all sequences of losses, predicted changes and hyperparameters with 0<omega<=1", "why_tests_cant": "Unbounded sequence of losses.", "anchors": ["kfac/python/ops/optimizer.py: _update_damping"]}
{"id": "C36", "title": "Damping is adapted exactly once per interval using quantities from the same step", "statement": "In a run of the optimizer with adapt_damping, the damping changes only at steps where (step+1) is a multiple of the interval (or at the start of the following step if not immediate); the loss and predicted change entering the ratio were both recorded at that step, so neither is ever stale or NaN.", "quantifier": "all intervals >= 1, run lengths, both update_damping_immediately settings", "why_tests_cant": "Off-by-one schedule errors over unbounded runs.", "anchors": ["kfac/python/ops/optimizer.py: _is_damping_adaptation_time, _is_just_after_damping_adaptation_time, _maybe_update_prev_loss, maybe_pre_update_adapt_damping, _maybe_post_update_adapt_damping, apply_gradients"]}
{"id": "C37", "title": "Inverses in use always reflect the current damping when intervals line up", "statement": "With the periodic optimizer, if damping_adaptation_interval is a multiple of invert_every then at every parameter update the preconditioner in use was computed with the current damping value; otherwise it can be stale.", "quantifier": "all intervals and run lengths", "why_tests_cant": "Unbounded runs, two interacting schedules.", "anchors": ["kfac/python/ops/kfac_utils/periodic_inv_cov_update_kfac_opt.py: kfac_update_ops", "kfac/python/ops/optimizer.py: _maybe_post_update_adapt_damping, maybe_pre_update_adapt_damping"]}
{"id": "C38", "title": "Covariances and inverses are refreshed with the advertised frequency and staleness", "statement": "In the periodic optimizer the covariance update runs exactly at steps divisible by cov_update_every and the inverse update at steps divisible by invert_every, covariance first; thus at step t the preconditioner uses statistics as of step t - (t mod invert_every), including that step's covariance update if due, and it is always initialised before its first use.", "quantifier": "all run lengths and intervals >= 1", "why_tests_cant": "Unbounded runs.", "anchors": ["kfac/python/ops/kfac_utils/periodic_inv_cov_update_kfac_opt.py: kfac_update_ops, apply_gradients"]}
{"id": "C39", "title": "Burn-in only collects statistics", "statement": "With num_burnin_steps = N, the first N training-op executions leave parameters, step counter, damping and inverses unchanged and only add data to the covariances without decay; afterwards training proceeds exactly as without burn-in, starting at step 0.", "quantifier": "all N and run lengths", "why_tests_cant": "Unbounded runs.", "anchors": ["kfac/python/ops/kfac_utils/periodic_inv_cov_update_kfac_opt.py: minimize"]}
{"id": "C40", "title": "The covariance decay is per training step, independent of the covariance update period", "statement": "The periodic optimizer's effective covariance decay per covariance update is cov_ema_decay ** cov_update_every, whatever cov_ema_decay is in effect, so data s steps old is discounted by cov_ema_decay ** s.", "quantifier": "all decay values (given or default) and update periods", "why_tests_cant": "Depends on whether an optional argument was passed; not visible from outputs over few steps.", "anchors": ["kfac/python/ops/kfac_utils/periodic_inv_cov_update_kfac_opt.py: __init__", "kfac/python/ops/optimizer.py: KfacOptimizer.__init__"]}
{"id": "C41", "title": "The norm constraint bounds the update", "statement": "With norm_constraint C > 0 the (preconditioned-gradient part of the) applied update r satisfies r^T F r <= C for the curvature matrix F defined by the preconditioner, equals the unclipped update when that already satisfies the bound, keeps its direction, and attains the bound otherwise.", "quantifier": "all gradients, positive definite preconditioners, learning rates and C > 0", "why_tests_cant": "Square-root scaling over all magnitudes.", "anchors": ["kfac/python/ops/optimizer.py: _update_clip_coeff, _clip_updates, _compute_raw_update_steps"]}
{"id": "C42", "title": "Quadratic-model hyperparameters are optimal", "statement": "With momentum_type 'qmodel' the learning rate and momentum chosen at each step minimise the damped quadratic model over all combinations alpha*precon_grad + mu*prev_update (and 'qmodel_fixedmu' minimises over alpha for the given mu), and the recorded qmodel_change is the model's value at the update actually applied.", "quantifier": "all gradients, previous updates, curvature matrices, dampings", "why_tests_cant": "Special-case branches (zero previous update) hide for generic data.", "anchors": ["kfac/python/ops/optimizer.py: _compute_qmodel, _compute_qmodel_hyperparams, _two_by_two_solve, _eval_quadratic"]}
{"id": "C43", "title": "The recorded predicted change equals the quadratic model's change for the update applied", "statement": "With momentum types 'regular' and 'adam' and adaptive damping, qmodel_change recorded at adaptation steps equals 1/2 d^T C d + g^T d for the update d that is applied (C the approximate curvature defined by the estimator), with or without norm constraint.", "quantifier": "all gradients, velocities, curvature, learning rates, clip coefficients", "why_tests_cant": "Algebraic shortcuts (special formulas) only hold under assumptions.", "anchors": ["kfac/python/ops/optimizer.py: _compute_raw_update_steps, _compute_approx_qmodel_change"]}
{"id": "C44", "title": "Momentum accumulates geometrically and the parameters move by -lr times the raw update", "statement": "After any sequence of steps the velocity equals the sum of past preconditioned (or raw, for 'adam') gradients weighted by momentum powers and the parameters equal the initial ones minus lr times the sum of raw updates (including weight decay when enabled); the order of variables is preserved.", "quantifier": "all gradient sequences, momentum, learning rates", "why_tests_cant": "Unbounded sequences.", "anchors": ["kfac/python/ops/optimizer.py: _update_velocities, apply_gradients, _add_weight_decay"]}
{"id": "C45", "title": "Data-parallel replicas apply the same update as one machine on the averaged gradient", "statement": "Under a distribution strategy with n replicas, the parameter change after summing the replicas' contributions equals the single-machine change computed from the averaged gradient.", "quantifier": "all replica counts and gradients", "why_tests_cant": "Needs multi-replica execution.", "anchors": ["kfac/python/ops/optimizer.py: compute_gradients, apply_gradients", "kfac/python/ops/utils.py: all_average"]}
{"id": "C46", "title": "The optimizer constructor accepts exactly the consistent hyperparameter combinations", "statement": "Construction succeeds iff momentum_type is one of the four names (case-insensitive), norm_constraint only with regular/adam, momentum is None for qmodel, learning_rate is None exactly for the qmodel types, qmodel_update_rescale only with qmodel types, and train_batch is given when use_passed_loss is false; the effective base learning rate is then determined as documented.", "quantifier": "all argument combinations", "why_tests_cant": "Combinatorial space of optional arguments.", "anchors": ["kfac/python/ops/optimizer.py: KfacOptimizer.__init__"]}
{"id": "C47", "title": "Matrix powers computed by eigendecomposition and by direct inversion agree", "statement": "Every stored matrix power of a dense factor equals (cov + damping*I)**exp whichever code path (eigendecomposition or direct inverse/Cholesky) is selected, for positive damping and positive semidefinite cov with the default eigenvalue clipping threshold; the choice of path depends only on the registered operations.", "quantifier": "all factors, registered powers and dampings", "why_tests_cant": "Path selection thresholds and clipping for all spectra.", "anchors": ["kfac/python/ops/fisher_factors.py: DenseSquareMatrixFactor.make_inverse_update_ops, get_matpower, get_eigendecomp", "kfac/python/ops/utils.py: posdef_inv, posdef_eig"]}
{"id": "C48", "title": "The SUA convolution factor's inverse really is the inverse of the SUA factor", "statement": "For the spatially-uncorrelated-activations input factor, multiplying by the stored inverse undoes multiplying by the damped factor (zero-mean or not, with or without bias), for all positive dampings and positive semidefinite channel covariances.", "quantifier": "all channel covariances, means, kernel sizes, dampings", "why_tests_cant": "Rank-one update formula must hold for all sizes.", "anchors": ["kfac/python/ops/fisher_factors.py: ConvInputSUAKroneckerFactor"]}
{"id": "C49", "title": "The SUA factor acts on each filter tap separately in the parameter layout", "statement": "Under the SUA approximation entries of the filter belonging to different spatial positions are uncorrelated (zero-mean case), i.e. multiplying by the factor mixes only the channels of the same spatial position of the user's filter.", "quantifier": "all kernel sizes and channel counts", "why_tests_cant": "Layout mistakes are invisible for 1x1 kernels or a single channel.", "anchors": ["kfac/python/ops/fisher_factors.py: ConvInputSUAKroneckerFactor", "kfac/python/ops/utils.py: layer_params_to_mat2d"]}
{"id": "C50", "title": "RNN approximation 'option 1' inverts the finite-horizon series curvature", "statement": "For the kron_series_1 approximation, multiply_inverse returns the solution W of sum_{|d|<T} (T-|d|) G_d W A_d^T = V for the stationary temporal covariances defined by the stored statistics (symmetric positive definite case), for every number of time-steps T.", "quantifier": "all T >= 1, sizes, statistics satisfying the approximation's assumptions", "why_tests_cant": "Closed-form geometric sums must hold for every T and spectrum.", "anchors": ["kfac/python/ops/fisher_blocks.py: FullyConnectedSeriesFB.multiply_matpower", "kfac/python/ops/fisher_factors.py: FullyConnectedMultiKF"]}
{"id": "C51", "title": "RNN approximation 'option 2' inverts the infinite-horizon series curvature", "statement": "For kron_series_2, the optimised formula used by multiply_inverse equals the reference algorithm given in the source comments for all inputs.", "quantifier": "all sizes and statistics", "why_tests_cant": "Algebraic restructuring with many transposes.", "anchors": ["kfac/python/ops/fisher_blocks.py: FullyConnectedSeriesFB.multiply_matpower", "kfac/python/ops/fisher_factors.py: FullyConnectedMultiKF"]}
{"id": "C52", "title": "The cached batch is always the previously returned batch", "statement": "For both cached data readers, after any sequence of reads with batch sizes not exceeding the maximum, cached_batch equals exactly the batch returned by the latest read (and while reading it still equals the one before); a too-large batch size is rejected and leaves the cache unchanged; the alternative reader returns distinct examples of the dataset.", "quantifier": "all read sequences and batch sizes", "why_tests_cant": "Unbounded sequences with shrinking and growing batches.", "anchors": ["kfac/python/ops/kfac_utils/data_reader.py: CachedDataReader", "kfac/python/ops/kfac_utils/data_reader_alt.py: CachedDataReader"]}
{"id": "C53", "title": "The graph pattern matcher finds a match iff one exists", "statement": "The compiled matcher returns bindings for a node exactly when the pattern, read declaratively (elements, choices, lists, negation, inputs/outputs), has a consistent assignment, and the returned bindings are such an assignment; enumerating all matches returns all of them.", "quantifier": "all patterns and graphs", "why_tests_cant": "Backtracking through continuations over arbitrary patterns.", "anchors": ["kfac/python/ops/tensormatch/graph_matcher.py: match_*, matcher, all_matcher, matcher_with_consumed"]}
{"id": "C54", "title": "Automatic registration never touches user-registered variables and yields unambiguous groups", "statement": "After filtering, no automatically found layer contains a variable the user registered or splits a user-specified group, no match is a strict sub-match of another surviving-or-removed match sharing a variable, and no variable is in two groups \u2014 otherwise AmbiguousRegistrationError is raised.", "quantifier": "all sets of matches, user registrations and groupings", "why_tests_cant": "Unbounded collections of overlapping matches.", "anchors": ["kfac/python/ops/tensormatch/graph_search.py: filter_records, filter_user_registered_records, filter_grouped_variable_records, filter_subgraph_records"]}
{"id": "C55", "title": "Automatic registration covers every trainable variable or raises", "statement": "register_layers either raises or registers every variable in the list (as part of a matched layer, by the user, or generically).", "quantifier": "all variable lists and match sets", "why_tests_cant": "Unbounded.", "anchors": ["kfac/python/ops/tensormatch/graph_search.py: register_subgraph_layers, register_records"]}
{"id": "C56", "title": "Hyperparameter decay callbacks follow their schedule", "statement": "Running PolynomialDecay / ExponentialDecay through consecutive iterations sets the hyperparameter at iteration delay+s to the documented closed form for 1<=s<=num_decay_steps and leaves it unchanged before and after; polynomial decay with positive power ends exactly at final_value and stays between init and final value; every value passed for an optional argument is used.", "quantifier": "all step counts, delays and parameter values", "why_tests_cant": "Unbounded iteration counts.", "anchors": ["kfac/python/keras/callbacks.py: PolynomialDecay, ExponentialDecay"]}
{"id": "C57", "title": "Adaptive-mode defaults never override explicit user settings", "statement": "For the Keras optimizer in adaptive mode every keyword explicitly passed by the user keeps its value; only missing keywords are filled in.", "quantifier": "all keyword dictionaries", "why_tests_cant": "Combinatorial space of optional keywords.", "anchors": ["kfac/python/keras/optimizers.py: _configure_kfac_kwargs_for_adaptive"]}
{"id": "C58", "title": "An optimizer restored from its config behaves like the original", "statement": "Constructing a Kfac Keras optimizer from the config of another yields the same effective hyperparameters in the underlying optimizer.", "quantifier": "all keyword dictionaries", "why_tests_cant": "Defaults leak into explicit arguments only for particular combinations.", "anchors": ["kfac/python/keras/optimizers.py: Kfac.__init__, get_config, _create_optimizer", "kfac/python/ops/kfac_utils/periodic_inv_cov_update_kfac_opt.py: __init__"]}
{"id": "C59", "title": "Keras layers are registered in depth-first order with name-over-class precedence of approximations", "statement": "For every nested model the flattened layer order is the left-to-right depth-first order of leaf layers; a list of approximations is matched positionally to trainable layers; in a dictionary the layer name has precedence over the class, and otherwise the default is used.", "quantifier": "all model nestings", "why_tests_cant": "Unbounded nesting.", "anchors": ["kfac/python/keras/utils.py: get_layer_collection, _get_verified_dict"]}
{"id": "C60", "title": "Loss weights reach the loss they were given for", "statement": "For every model (including nested models) the coefficient with which an output's loss is registered is the weight the user gave for that output, default 1.0, and the user's dictionaries are not modified.", "quantifier": "all models, losses and weights", "why_tests_cant": "Nested models and naming combinations.", "anchors": ["kfac/python/keras/utils.py: get_layer_collection"]}
{"id": "C61", "title": "Counting a variable's uses follows the graph reachable from the losses", "statement": "A tensor is in the sub-graph iff the losses depend on it, and the number of uses of a variable is the number of distinct consumers of its value inside the subgraph, looking through identity-like ops.", "quantifier": "all finite graphs", "why_tests_cant": "Unbounded graphs, including sharing and diamonds.", "anchors": ["kfac/python/ops/utils.py: SubGraph"]}
{"id": "C62", "title": "The number of convolution locations equals the number of output positions", "statement": "num_conv_locations(input_shape, filter_shape, strides, padding) equals the number of spatial positions of the convolution's output.", "quantifier": "all input sizes, filters, strides, dilations and paddings", "why_tests_cant": "Ceil-division edge cases.", "anchors": ["kfac/python/ops/utils.py: num_conv_locations", "kfac/python/ops/fisher_blocks.py: ConvKFCBasicFB"]}
{"id": "C63", "title": "The SUA factor holds the second moments of Theorem 4 for the batch it saw", "statement": "After the first covariance update the undamped SUA input factor equals, entry by entry, the batch second moment of two channels at the same filter position, the product of the channel means at different positions, the channel mean against the bias and 1 for the bias itself; with ASSUME_ZERO_MEAN_ACTIVATIONS the same with all products of means replaced by zero (and the covariance centred if SUBTRACT_MEAN_CONTRIB_FROM_COV).", "quantifier": "all batches split evenly over towers and replicas, channel counts, kernel sizes, decays", "why_tests_cant": "A test compares numbers for particular shapes, and a test that repeats the formula repeats its mistakes.", "anchors": ["kfac/python/ops/fisher_factors.py: ConvInputSUAKroneckerFactor"]}
{"id": "C64", "title": "The lag-one statistic of recurrent layers pairs consecutive steps of the same example", "statement": "For a layer used T times with inputs in time-major order, the lag-one covariance that FullyConnectedMultiKF adds at an update is the sum over all examples b and steps t of x(t+1,b) times x(t,b) transposed, divided by the number T\u00b7B of rows; no product mixes two examples or skips a step.", "quantifier": "all T >= 1, batch sizes, dimensions and values", "why_tests_cant": "A pairing of wrong rows is a permutation of indices that only shows in the summed result, for particular data.", "anchors": ["kfac/python/ops/fisher_factors.py: FullyConnectedMultiKF"]}
{"id": "C65", "title": "A detected layer whose variables are free is registered with the approximation the user asked for", "statement": "When the graph search finds a layer of a supported type whose variables are not registered, automatic registration registers it as a block of the class that the approximation linked to its parameters (else the default of the layer type) stands for, holding the tensors found as its first tower.", "quantifier": "all collections reached by any history of calls, all matches", "why_tests_cant": "The combinations of layer types, approximations and uses are too many to run one at a time.", "anchors": ["kfac/python/ops/tensormatch/graph_search.py: register_records", "kfac/python/ops/layer_collection.py: _get_block_type"]}
{"id": "C66", "title": "The number of uses passed on for folded layers is the number of batches in the inputs", "statement": "For a layer matched once whose first dimension differs from the batch size the number of uses times the batch size is the first dimension (rejected if not divisible); for inputs of shape [num_uses, batch_size, input_size] it is the first dimension.", "quantifier": "all shapes and batch sizes", "why_tests_cant": "A test tries particular folded shapes; the claim is for every shape.", "anchors": ["kfac/python/ops/tensormatch/graph_search.py: register_records"]}
{"id": "C67", "title": "Automatic registration and the collection look at everything the losses depend on", "statement": "The subgraph in which uses are counted, and the one searched for layers, consist of exactly those tensors and ops which some input of some registered loss depends on, whether the loss has one or several inputs.", "quantifier": "all graphs and all lists of losses", "why_tests_cant": "The claim is for all graphs and all numbers of inputs of a loss; a test builds particular graphs.", "anchors": ["kfac/python/ops/tensormatch/graph_search.py: register_layers", "kfac/python/ops/layer_collection.py: _create_subgraph", "kfac/python/ops/utils.py: SubGraph"]}
{"id": "C68", "title": "Extracted patches times the flattened filter is the convolution", "statement": "extract_convolution_patches returns, at every output position, the input pixels which a convolution of the same geometry combines with each filter entry, so that multiplying by the flattened filter gives that convolution.", "quantifier": "all images, filter sizes, strides, dilations and paddings", "why_tests_cant": "A test compares particular shapes with a numeric convolution.", "anchors": ["kfac/python/ops/utils.py: extract_convolution_patches"]}
{"id": "C69", "title": "The generated loss function is the weighted sum of the losses plus the model's own losses", "statement": "For every model, losses (single, list or dictionary, by name or callable) and loss weights, the function returned by get_loss_fn evaluates to the sum over outputs of the weight given for the output (1.0 if none) times the reduced loss given for that output, plus the sum of model.losses.", "quantifier": "all models, losses, weights, predictions and labels", "why_tests_cant": "A test compares particular models with the Keras loss.", "anchors": ["kfac/python/keras/utils.py: get_loss_fn"]}
{"id": "C70", "title": "Diagonal factors hold the mean squares of the per-example gradients", "statement": "For fully connected and convolutional layers with the diagonal approximation, every entry of the covariance statistics is the mean over the batch of the squared derivative of the example's loss by the weight or bias which mat2d_to_layer_params puts at that entry; with a patch mask, of the masked convolution.", "quantifier": "all batches, layer sizes, filter geometries, masks and differentiable losses", "why_tests_cant": "A test checks particular batches and masks; the claim is for all of them.", "anchors": ["kfac/python/ops/fisher_factors.py: FullyConnectedDiagonalFactor", "kfac/python/ops/fisher_factors.py: ConvDiagonalFactor"]}
{"id": "C71", "title": "Scale-and-shift layers are registered for exactly the parameter shapes that broadcast", "statement": "register_scale_and_shift accepts a scale (shift) exactly if its shape broadcasts to the shape of the inputs (outputs) without enlarging them and it does not vary with the batch dimension, and then sums derivatives over exactly the non-batch dimensions along which it is broadcast.", "quantifier": "all shapes without empty dimensions", "why_tests_cant": "A test uses particular shapes and ranks.", "anchors": ["kfac/python/ops/layer_collection.py: register_scale_and_shift"]}
{"id": "C72", "title": "Scale-and-shift factors hold second moments of the true per-example gradients", "statement": "For layers computing inputs * scale (+ shift) with parameters that broadcast, the full factor holds the mean outer product and the diagonal factor the mean square of the per-example gradients by the scale followed by the shift.", "quantifier": "all broadcastable shapes, batches and differentiable losses", "why_tests_cant": "A test compares with a computation for particular shapes.", "anchors": ["kfac/python/ops/fisher_factors.py: ScaleAndShiftFullFactor", "kfac/python/ops/fisher_factors.py: ScaleAndShiftDiagonalFactor"]}
{"id": "C73", "title": "The KFC factors are the means over examples and positions, exact under the KFC assumptions", "statement": "The input factor of a convolution is the mean over examples and output positions of products of the (masked) inputs read by two filter taps (or 1 for the bias), the output factor that of the output derivatives; if on the batch the KFC independence, homogeneity and uncorrelatedness assumptions hold, num_locations times their Kronecker product is the mean outer product of the gradients.", "quantifier": "all batches, filter geometries and differentiable losses", "why_tests_cant": "A test checks numbers for particular convolutions, not the relation to the gradients of all of them.", "anchors": ["kfac/python/ops/fisher_factors.py: ConvInputKroneckerFactor", "kfac/python/ops/fisher_factors.py: ConvOutputKroneckerFactor"]}
{"id": "C74", "title": "Subsampling of inputs and patches leaves the statistics unbiased", "statement": "With sub_sample_inputs and/or sub_sample_patches the input factor's expectation over the random shuffles is the factor of all the data; samples are without replacement and of the configured size.", "quantifier": "all batches, limits and fractions", "why_tests_cant": "A randomised computation is tested with particular seeds.", "anchors": ["kfac/python/ops/fisher_factors.py: _subsample_patches", "kfac/python/ops/fisher_factors.py: _random_tensor_gather", "kfac/python/ops/fisher_factors.py: ConvInputKroneckerFactor"]}
{"id": "C75", "title": "The sparse diagonal input factor equals the one of the one-hot inputs", "statement": "For ids the diagonal input factor holds the relative frequency of every id (1 for the bias), equal to the diagonal of the dense second moment matrix of the one-hot encoding, which has no other entries (without a bias).", "quantifier": "all lists of ids and vocabulary sizes", "why_tests_cant": "A test compares particular ids.", "anchors": ["kfac/python/ops/fisher_factors.py: DiagonalKroneckerFactor"]}
{"id": "C76", "title": "The naive factors are unbiased when targets are sampled", "statement": "If the targets of the examples are drawn independently and the per-example gradients have mean zero, the expectation of NaiveFullFactor (NaiveDiagonalFactor) is the expectation of the mean outer product (square) of the per-example gradients.", "quantifier": "all distributions with square integrable gradients, all batch sizes", "why_tests_cant": "An expectation over all draws is not testable.", "anchors": ["kfac/python/ops/fisher_factors.py: NaiveFullFactor", "kfac/python/ops/fisher_factors.py: NaiveDiagonalFactor", "kfac/python/ops/fisher_blocks.py: NaiveFullFB", "kfac/python/ops/fisher_blocks.py: NaiveDiagonalFB"]}
{"id": "C77", "title": "Full and diagonal blocks multiply by powers of their damped statistics", "statement": "For full and diagonal blocks, multiply_matpower(v, exp) returns the structure and shapes of v with its flattened entries multiplied by the exp-th power of the statistics plus damping; inverse undoes multiply, powers of diagonal blocks add up, and the Cholesky multiplications compose to the multiplication. The damping of convolutional diagonal blocks is not changed by the normalisation being undone. For fully connected and convolutional layers the diagonal block multiplies each weight by the power of the mean square of its own per-example gradients plus damping.", "quantifier": "all statistics, dampings, exponents, parameter structures and shapes", "why_tests_cant": "A test uses particular vectors and shapes for each block.", "anchors": ["kfac/python/ops/fisher_blocks.py: FullFB", "kfac/python/ops/fisher_blocks.py: DiagonalFB", "kfac/python/ops/fisher_blocks.py: ConvDiagonalFB"]}
{"id": "C78", "title": "Blocks of depthwise convolutions treat every channel in isolation", "statement": "multiply_matpower of the diagonal depthwise block multiplies each entry of the filter by the power of the mean square of the per-example gradients of the depthwise convolution by that entry plus damping, and multiply_inverse undoes multiply. The Kronecker-factored block multiplies by the block of its factors' Kronecker product that belongs to the filter, and multiply_inverse undoes multiply.", "quantifier": "all filter shapes, channel multipliers, statistics, dampings and exponents", "why_tests_cant": "A test multiplies particular vectors with a particular block; the claim is about all of them.", "anchors": ["kfac/python/ops/fisher_blocks.py: DepthwiseConvDiagonalFB", "kfac/python/ops/fisher_blocks.py: DepthwiseConvKFCBasicFB", "kfac/python/ops/fisher_blocks.py: depthwise_conv2d_filter_to_conv2d_filter", "kfac/python/ops/fisher_blocks.py: conv2d_filter_to_depthwise_conv2d_filter"]}
{"id": "C79", "title": "All estimation modes estimate the same curvature matrix", "statement": "For every registered tensor the statistics of the output factors have expectation (gradients: over the model's predictive distributions; curvature_prop: over the signs) or value (exact) equal to the mean over the examples of the sum over the losses of coeff times J^T F J, F being the Fisher information of the loss's distribution and J the Jacobian of its inputs by the example's row; the same holds for blocks using the gradients of the parameters, and graph construction succeeds if every tensor influences a loss and is rejected otherwise. The empirical mode uses the per-example gradients of the total loss on the data.", "quantifier": "all numbers and mixtures of losses, coefficients, parameters, Jacobians and batch sizes", "why_tests_cant": "Expectations over all targets are not testable; a test sees samples of one network.", "anchors": ["kfac/python/ops/estimator.py: FisherEstimator._get_grads_lists_gradients", "kfac/python/ops/estimator.py: FisherEstimator._get_grads_lists_empirical", "kfac/python/ops/estimator.py: FisherEstimator._get_grads_lists_curvature_prop", "kfac/python/ops/estimator.py: FisherEstimator._get_grads_lists_exact", "kfac/python/ops/estimator.py: FisherEstimator._instantiate_factors", "kfac/python/ops/layer_collection.py: LayerCollection.eval_losses"]}
{"id": "C80", "title": "The estimator's multiplications act block by block in the caller's order", "statement": "multiply, multiply_inverse, multiply_matpower and the Cholesky variants return one pair per given pair, in the same order and with the same variables; the vector of a variable is its part of its block's function applied to the vectors of the block's variables. The order of the pairs, the order of registration and the devices do not matter, and applying the inverse of every block returns the original pairs. A registered variable without a vector, or a vector without a registered variable, is an error. distribute_transformations=False makes every replica compute all blocks itself.", "quantifier": "all block structures, block functions, vectors, device lists and orders", "why_tests_cant": "A test uses particular blocks in a particular order.", "anchors": ["kfac/python/ops/estimator.py: FisherEstimator._compute_transformation", "kfac/python/ops/estimator.py: FisherEstimator.multiply_matpower", "kfac/python/ops/placement.py: RoundRobinPlacementMixin._place_and_compute_transformation_thunks", "kfac/python/ops/placement.py: ReplicaRoundRobinPlacementMixin"]}
{"id": "C81", "title": "Layers used several times get the same statistics in every data format", "statement": "Whether the inputs and output gradients of a repeatedly used fully connected layer are registered as lists with one tensor per use or as tensors with the uses folded in (time-major), and whether TOWER_STRATEGY is concat or separate, the input factor's update is the mean over all examples and uses of the products, the lag-one statistic pairs consecutive uses of the same example, the output factor adds the sources, and the factors' batch sizes are the registered ones. A num_uses that contradicts the lists, different numbers of uses for inputs and outputs, or an unknown number of uses, are errors.", "quantifier": "all numbers of towers, uses, sources and examples", "why_tests_cant": "A test uses particular numbers of towers and uses.", "anchors": ["kfac/python/ops/fisher_blocks.py: InputOutputMultiTowerMultiUse._process_data", "kfac/python/ops/fisher_factors.py: FullyConnectedMultiKF", "kfac/python/ops/fisher_blocks.py: FullyConnectedMultiIndepFB.instantiate_factors", "kfac/python/ops/utils.py: PartitionedTensor"]}
{"id": "C82", "title": "The fully connected K-FAC factors are exact under the K-FAC assumptions", "statement": "If products of the inputs and products of the output derivatives are uncorrelated over the batch, the Kronecker product of the two factors is the mean outer product of the true per-example gradients by the stacked weights and bias. For a layer used T times the same holds with the factor T, if moreover derivatives of different uses are uncorrelated and the second moments of the inputs (or of the derivatives) are the same for all uses. A single example is always represented exactly.", "quantifier": "all batches, sizes, losses and parameters", "why_tests_cant": "A test compares particular numbers, and a test that repeats the formula repeats its mistakes.", "anchors": ["kfac/python/ops/fisher_factors.py: FullyConnectedKroneckerFactor", "kfac/python/ops/fisher_factors.py: FullyConnectedMultiKF._compute_new_cov", "kfac/python/ops/fisher_blocks.py: FullyConnectedKFACBasicFB", "kfac/python/ops/fisher_blocks.py: FullyConnectedMultiIndepFB._renorm_coeff"]}
{"id": "C83", "title": "Convolutions used several times: factors and exactness", "statement": "ConvKFCBasicMultiIndepFB, in both data formats: the output factor is the mean over all uses, examples and positions of the products of output derivatives; with subsampling of inputs off (the default), the input factor is the mean over all uses, examples and positions of the products of the inputs read; and where derivatives at different uses and positions are uncorrelated (and uncorrelated with the inputs, with homogeneous second moments), num_locations * num_uses times the Kronecker product is the mean outer product of the true per-example gradients by filter and bias.", "quantifier": "all batches, numbers of uses, filter sizes, strides, dilations, paddings, losses and parameters", "why_tests_cant": "A test compares factors with data for particular sizes.", "anchors": ["kfac/python/ops/fisher_blocks.py: ConvKFCBasicMultiIndepFB.instantiate_factors", "kfac/python/ops/fisher_factors.py: ConvInputMultiKF", "kfac/python/ops/fisher_factors.py: ConvOutputMultiKF", "kfac/python/ops/fisher_blocks.py: ConvKFCBasicMultiIndepFB._renorm_coeff"]}
{"id": "C84", "title": "Sparse vectors are preconditioned like the dense vectors they stand for", "statement": "For a vector given as tf.IndexedSlices (repeated indices add up), multiply, multiply_inverse, multiply_cholesky and multiply_cholesky_inverse of a Kronecker block return IndexedSlices with the same indices that stand for the result for the dense vector; matmul_sparse_dense and matmul_diag_sparse are products with the matrix the slices stand for; an index out of range is an error.", "quantifier": "all slices with any (also repeated) indices, matrices, factors, dampings and scales", "why_tests_cant": "A test uses particular sparse matrices; repeated indices and all Cholesky multiplications are needed together.", "anchors": ["kfac/python/ops/linear_operator.py: LinearOperatorFullMatrix, LinearOperatorDiag", "kfac/python/ops/utils.py: matmul_sparse_dense", "kfac/python/ops/utils.py: matmul_diag_sparse", "kfac/python/ops/fisher_blocks.py: KroneckerProductFB._multiply_factored_matrix"]}
{"id": "C85", "title": "Asynchronous updates run every operation fairly and stop cleanly", "statement": "However the background threads of AsyncInvCovUpdateKfacOpt interleave, the covariance and inverse operations are started cyclically in the order of their names, so no operation is ever more than one start ahead of another; at most num_cov_inv_update_threads are in flight; no thread ends before stop_cov_inv_ops; after it each thread starts at most one more operation (only if it was about to draw), all threads end within three steps and everything started has finished. The default number of threads is half the number of operations, at most 10, and the operations are placed on cov_devices and inv_devices.", "quantifier": "all sets of operations with distinct names, numbers of threads and interleavings", "why_tests_cant": "Interleavings of threads cannot be enumerated; no test file mentions the class.", "anchors": ["kfac/python/ops/kfac_utils/async_inv_cov_update_kfac_opt.py: AsyncInvCovUpdateKfacOpt"]}
{"id": "C86", "title": "Losses are added with their coefficients, and first-order statistics are the gradient", "statement": "eval_losses yields one value per registered loss, on the data or on samples as asked, multiplied by the coefficient, its square root or nothing as asked; the totals are their sums; unknown modes are rejected. With compute_params_stats and estimation_mode='empirical', params_stats is on every replica the gradient, with respect to the variables in their order, of the mean over all examples of all replicas of the total loss; in the sampling modes its expectation is zero. Asking for these statistics does not change the gradients handed to the blocks, requires batch_size, and works for a list or a tuple of variables.", "quantifier": "all losses, coefficients, differentiable networks, parameters, targets, numbers of replicas and batch sizes", "why_tests_cant": "No test file mentions compute_params_stats; a test would compare single numbers.", "anchors": ["kfac/python/ops/layer_collection.py: LayerCollection.eval_losses", "kfac/python/ops/layer_collection.py: LayerCollection.total_loss", "kfac/python/ops/estimator.py: FisherEstimator._instantiate_factors", "kfac/python/ops/estimator.py: FisherEstimator.params_stats"]}
{"id": "C87", "title": "What the automatic graph search records as a layer is that layer", "statement": "A record made by the automatic registration for a tensor of the graph describes that tensor: its value is the recorded operation (product with the weights, convolution with the recorded strides, padding and format, lookup of rows, scaling, batch normalisation) of the recorded inputs and the recorded weight variable, plus the recorded bias if there is one; a variable added to the result that is among the variables of the optimizer is recorded as the bias. Conversely every such layer in the graph is found, whatever identity operations stand between its parts and on whichever side the bias is added.", "quantifier": "all graphs, tensors, shapes, attributes, variable sets, values and semantics of the operations", "why_tests_cant": "A test matches particular small graphs and compares the bindings; the claim is for all graphs.", "anchors": ["kfac/python/ops/tensormatch/graph_patterns.py: Affine", "kfac/python/ops/tensormatch/graph_patterns.py: ScaleAndShift", "kfac/python/ops/tensormatch/graph_patterns.py: BatchNorm", "kfac/python/ops/tensormatch/graph_patterns.py: FusedBatchNormOutput", "kfac/python/ops/tensormatch/graph_patterns.py: Embed", "kfac/python/ops/tensormatch/tensorflow_graph_util.py: expand_inputs", "kfac/python/ops/tensormatch/graph_search.py: record_affine_from_bindings", "kfac/python/ops/tensormatch/graph_search.py: record_batch_norm_from_bindings", "kfac/python/ops/tensormatch/graph_search.py: record_scale_and_shift_from_bindings"]}
{"id": "C88", "title": "A Keras layer is registered as what it computes", "statement": "For every supported layer (Dense, Conv1D, Conv2D, Embedding, BatchNormalization, LayerNormalization) of a Keras model, register_layer makes exactly the registration call whose documented meaning is the function computed by the last call of the layer: the parameters in the order kernel, bias (with bias exactly if there is one), the inputs, the outputs before the activation, strides, padding, dilation rate and data format; for normalisation the scaled and shifted values are scale * inputs + shift, the inputs being the normalised activations. The approximation asked for is passed on. Trainable layers of other classes are rejected; layers without trainable parameters are passed over.", "quantifier": "all graphs, layers, geometries, activations, values and semantics of convolution, product and lookup", "why_tests_cant": "A test registers particular models; what is registered has to agree with what the layer computes for all of them.", "anchors": ["kfac/python/keras/utils.py: register_layer", "kfac/python/keras/utils.py: get_parent"]}
{"id": "C89", "title": "The loss registered for a Keras output is the loss the model is trained with", "statement": "For the Keras losses mean squared error, (sparse) categorical cross entropy and binary cross entropy, given by name, as function or as class, register_loss registers a predictive distribution whose negative log-likelihood of the targets, averaged over the batch, is up to a constant the Keras loss with its weight as a function of the outputs; every other loss is rejected.", "quantifier": "all graphs, output layers, outputs, targets, batch sizes, numbers of components and weights", "why_tests_cant": "A test compares particular models and outputs; the claim is about the value of the loss for all outputs.", "anchors": ["kfac/python/keras/utils.py: register_loss", "kfac/python/ops/layer_collection.py: LayerCollection.register_squared_error_loss", "kfac/python/ops/layer_collection.py: LayerCollection.register_softmax_cross_entropy_loss", "kfac/python/ops/layer_collection.py: LayerCollection.register_sigmoid_cross_entropy_loss"]}
{"id": "C90", "title": "The statistics of a registered convolution are taken at the places the convolution reads", "statement": "A layer registered with register_conv1d, register_conv2d, register_convolution, register_depthwise_conv2d, register_separable_conv2d or register_conv2d_multi with the arguments of the corresponding TensorFlow call gets a block whose factors read the patches of that convolution (same strides, dilations and padding along each spatial dimension), so that every output of the layer is the product of such a patch with the filter, and whose number of locations is the number of output positions. Data formats that do not put channels last are rejected.", "quantifier": "all filter shapes, strides, dilations, paddings, image sizes, images and filters", "why_tests_cant": "A test builds blocks for particular geometries; strides, dilations and paddings combine freely.", "anchors": ["kfac/python/ops/layer_collection.py: LayerCollection.register_conv1d", "kfac/python/ops/layer_collection.py: LayerCollection.register_conv2d", "kfac/python/ops/layer_collection.py: LayerCollection.register_convolution", "kfac/python/ops/layer_collection.py: LayerCollection.register_depthwise_conv2d", "kfac/python/ops/layer_collection.py: LayerCollection.register_separable_conv2d", "kfac/python/ops/layer_collection.py: LayerCollection.register_conv2d_multi", "kfac/python/ops/fisher_blocks.py: ConvKFCBasicFB", "kfac/python/ops/fisher_blocks.py: ConvDiagonalFB", "kfac/python/ops/fisher_factors.py: ConvInputKroneckerFactor"]}
{"id": "C91", "title": "Without damping, training does not depend on how a network's layers are parametrised", "statement": "Take two networks of fully connected layers that are parametrisations of the same network: the inputs of corresponding layers are related by an invertible linear map (affine where there is a bias) and their outputs before the activation by another, e.g. because one uses tanh and the other a rescaled sigmoid, or one gets whitened inputs. Any sequence of covariance updates, inverse updates with zero damping and training steps with momentum and norm constraint, on the same data, succeeds on both if the statistics are nonsingular, and leaves them parametrisations of the same network: they compute the same function after every step.", "quantifier": "all depths, widths, activations, losses, batches, invertible maps, decays, learning rates, momenta, norm constraints, orders and numbers of operations", "why_tests_cant": "Relates whole training runs of two differently parametrised models for all of their parametrisations; a test runs particular models.", "anchors": ["kfac/python/ops/fisher_blocks.py: FullyConnectedKFACBasicFB", "kfac/python/ops/fisher_blocks.py: KroneckerProductFB._multiply_factored_matrix", "kfac/python/ops/fisher_blocks.py: KroneckerProductFB._setup_damping", "kfac/python/ops/fisher_factors.py: FullyConnectedKroneckerFactor", "kfac/python/ops/fisher_factors.py: DenseSquareMatrixFactor.make_inverse_update_ops", "kfac/python/ops/optimizer.py: KfacOptimizer.apply_gradients", "kfac/python/ops/optimizer.py: KfacOptimizer._update_velocities", "kfac/python/ops/optimizer.py: KfacOptimizer._update_clip_coeff"]}
{"id": "C92", "title": "On linear regression K-FAC descends, converges to the least-squares solution, and is Newton's method when undamped", "statement": "Train one fully connected layer without activation on the squared error registered by register_squared_error_loss, with estimation mode 'exact' and no momentum, always on the whole training set. (1) After any sequence of covariance updates, inverse updates with positive damping and training steps, with or without a norm constraint, a training step with learning rate at most 2 succeeds and does not increase the mean squared error. (2) If the inputs span the space with second moments at least a, the damping is split into d for the inputs and e for the outputs with d*e = damping, and every training step shrinks the distance of the loss to the least possible loss at least by the factor 1 - 4c(1-c)a/(a+d), c = lr/(2+e), regardless of interleaved updates of the statistics. (3) For 0 < lr < 2 the loss converges to the least possible loss. (4) With zero damping each step multiplies the distance by exactly (1-lr)^2, so lr = 1 reaches the minimum in one step, and rates above 2 diverge.", "quantifier": "all training sets, numbers of inputs and outputs, bias or not, initial weights, decays, dampings, learning rates, pi rules, norm constraints, orders and numbers of operations", "why_tests_cant": "A convergence statement about infinitely many runs of every length; a test sees a few steps of one problem.", "anchors": ["kfac/python/ops/estimator.py: FisherEstimator._get_grads_lists_exact", "kfac/python/ops/layer_collection.py: LayerCollection.register_squared_error_loss", "kfac/python/ops/loss_functions.py: NormalMeanNegativeLogProbLoss.multiply_fisher_factor_replicated_one_hot", "kfac/python/ops/fisher_blocks.py: FullyConnectedKFACBasicFB", "kfac/python/ops/fisher_blocks.py: KroneckerProductFB._setup_damping", "kfac/python/ops/fisher_blocks.py: KroneckerProductFB._multiply_factored_matrix", "kfac/python/ops/fisher_factors.py: DenseSquareMatrixFactor.make_inverse_update_ops", "kfac/python/ops/optimizer.py: KfacOptimizer.apply_gradients", "kfac/python/ops/optimizer.py: KfacOptimizer._update_clip_coeff"]}
{"id": "C93", "title": "Gauss-Newton products agree with Hessian products wherever theory says so", "statement": "For every loss whose inputs are natural parameters (fixed-variance Gaussian, categorical, multi-Bernoulli) multiply_ggn is the Hessian of the loss by its inputs, for all targets. For any differentiable model and any list of such losses with coefficients, CurvatureMatrixVectorProductComputer.multiply_hessian(v) equals multiply_ggn(v) plus the second derivatives of the losses' inputs weighted with the derivatives of the losses; so the two agree exactly when the model is affine in the parameters, and for every model where the losses are stationary.", "quantifier": "all models twice continuously differentiable in their parameters, numbers of losses, coefficients, batch sizes, targets, parameters, vectors", "why_tests_cant": "Relates second derivatives of arbitrary functions to the library's closed-form products; a test compares particular products.", "anchors": ["kfac/python/ops/curvature_matrix_vector_products.py: CurvatureMatrixVectorProductComputer.multiply_hessian", "kfac/python/ops/curvature_matrix_vector_products.py: CurvatureMatrixVectorProductComputer.multiply_ggn", "kfac/python/ops/curvature_matrix_vector_products.py: CurvatureMatrixVectorProductComputer._multiply_jacobian_transpose", "kfac/python/ops/loss_functions.py: NaturalParamsNegativeLogProbLoss.multiply_ggn", "kfac/python/ops/loss_functions.py: CategoricalLogitsNegativeLogProbLoss.multiply_fisher", "kfac/python/ops/loss_functions.py: MultiBernoulliNegativeLogProbLoss.multiply_fisher", "kfac/python/ops/loss_functions.py: NormalMeanNegativeLogProbLoss.multiply_fisher", "kfac/python/ops/layer_collection.py: LayerCollection.total_loss"]}
{"id": "C94", "title": "minimize moves every registered variable by the update of the vector model and no other variable", "statement": "However the variables are grouped into blocks and whatever the order of var_list, minimize (with var_list=None or a list that names the registered variables) performs on the lists of (tensor, variable) pairs exactly the step that the update rule (momentum types 'regular', 'adam', 'qmodel', 'qmodel_fixedmu', norm constraint, weight decay, damping adaptation) prescribes for the concatenation of all registered variables, in any number of runs. Variables that are not registered, and their slots, never change. A list with a different set of variables is rejected with an error; so are gradients of a different set given to apply_gradients. compute_gradients() followed by apply_gradients is the same step if the trainable variables are the registered ones, and fails otherwise.", "quantifier": "all sets of variables, groupings into blocks, orders of var_list, gradients, states, configurations, numbers of runs", "why_tests_cant": "A test builds particular graphs; the correspondence of the dictionary and list code with the vector formulas is for every grouping and order.", "anchors": ["kfac/python/ops/optimizer.py: KfacOptimizer.minimize", "kfac/python/ops/optimizer.py: KfacOptimizer.compute_gradients", "kfac/python/ops/optimizer.py: KfacOptimizer.check_var_list", "kfac/python/ops/optimizer.py: KfacOptimizer.apply_gradients", "kfac/python/ops/optimizer.py: KfacOptimizer._compute_raw_update_steps", "kfac/python/ops/optimizer.py: KfacOptimizer._update_velocities", "kfac/python/ops/optimizer.py: KfacOptimizer._compute_qmodel", "kfac/python/ops/optimizer.py: KfacOptimizer._compute_prev_updates", "kfac/python/ops/layer_collection.py: LayerCollection.registered_variables", "kfac/python/ops/estimator.py: FisherEstimator._compute_transformation"]}
{"id": "C95", "title": "Arithmetic on lists of (tensor, variable) pairs checks that the lists match", "statement": "sum_p, ip_p and assert_variables_match_pairs_list raise a ValueError unless both arguments name the same variables in the same order. If they do, sum_p adds the tensors variable by variable and ip_p is the sum of the products of all entries.", "quantifier": "all lists, variables and tensors", "why_tests_cant": "No test file mentions sum_p, ip_p or assert_variables_match_pairs_list; the claim is for all lists.", "anchors": ["kfac/python/ops/utils.py: _check_match_lists_of_pairs", "kfac/python/ops/utils.py: sum_p", "kfac/python/ops/utils.py: ip_p", "kfac/python/ops/utils.py: ip", "kfac/python/ops/utils.py: assert_variables_match_pairs_list"]}
{"id": "C96", "title": "Blocks that share factors each use their own damping", "statement": "Blocks may share factors (e.g. two layers reading the same input). After registration, creation of the variables and any sequence of inverse updates of single factors, the powers, Cholesky factors and inverse Cholesky factors a block multiplies by are those of its factors' covariances plus that block's own part of the damping: the parts multiply to the damping normalised for the block's kind and stand in the ratio of the mean eigenvalues of the block's own two covariances, at the time the factor was last updated. If both factors were updated in the same run, multiply_inverse solves the system of the damped block exactly, and with the default normalisation the block's total damping is the estimator's. Factors of equal names, which would mix up dampings, make the creation of the variables fail.", "quantifier": "all sets of blocks and factors and ways of sharing, dimensions, numbers of locations and uses, exponents, damping, pi rules, schedules of inverse updates, covariances, constants", "why_tests_cant": "A test builds particular estimators; the claim is for all numbers of blocks and all ways of sharing factors.", "anchors": ["kfac/python/ops/fisher_blocks.py: KroneckerProductFB._setup_damping", "kfac/python/ops/fisher_blocks.py: KroneckerProductFB.register_matpower", "kfac/python/ops/fisher_blocks.py: KroneckerProductFB.multiply_matpower", "kfac/python/ops/fisher_blocks.py: PackagedFunc", "kfac/python/ops/estimator.py: FisherEstimator._register_matrix_functions", "kfac/python/ops/estimator.py: FisherEstimator.make_vars_and_create_op_thunks", "kfac/python/ops/fisher_factors.py: DenseSquareMatrixFactor.instantiate_inv_variables", "kfac/python/ops/fisher_factors.py: graph_func_to_id"]}
{"id": "C97", "title": "On a quadratic loss the 'qmodel' optimizer predicts its progress exactly, only lowers the damping, and converges linearly", "statement": "Let the loss be one quadratic function of the parameters (e.g. linear least squares with an l2 penalty) on the whole data at every run, with momentum_type 'qmodel', and let the damping start at or above its lower bound. As long as the two-by-two system is solvable: the change stored in qmodel_change is exactly the change of the loss; the reduction ratio stored at every adaptation is one; neither the loss nor the damping ever increases (qmodel_update_rescale between 0 and 2); if the preconditioned gradients are descent directions, the damping after any number of runs is the initial damping times omega to the number of adaptations, or its lower bound; and with preconditioners between m and M and curvature between mu and L the distance to the minimal loss shrinks at every run at least by the factor 1 - r(2-r)(m/M)^2 mu/(L+damping).", "quantifier": "all quadratics, dimensions, preconditioners, initial parameters, dampings, adaptation intervals, immediate or delayed adaptation, rescalings, numbers of runs", "why_tests_cant": "A statement about runs of every length and every problem; a test sees particular steps.", "anchors": ["kfac/python/ops/optimizer.py: KfacOptimizer._compute_qmodel", "kfac/python/ops/optimizer.py: KfacOptimizer._compute_qmodel_hyperparams", "kfac/python/ops/optimizer.py: KfacOptimizer._update_damping", "kfac/python/ops/optimizer.py: KfacOptimizer.maybe_pre_update_adapt_damping", "kfac/python/ops/optimizer.py: KfacOptimizer.apply_gradients"]}
{"id": "C98", "title": "Softmax and logistic regression with K-FAC descend, converge to the best possible loss, and learn separable data", "statement": "Train one fully connected layer without activation on the mean of any of the library's losses (categorical, multi-Bernoulli, Gaussian with fixed variance) on a training set, without momentum, with arbitrary covariance updates (any batches, any targets, sampled or true, any decays) and inverse updates with damping at least lam before each training step. (1) If curvature * learning_rate * mean squared input length <= 2*lam (curvature 1/2, 1/4, 1/variance), no training step increases the training loss, with or without norm constraint. (2) If the inequality is strict, the batches of the covariance updates and the dampings are bounded, the covariances are taken from classification losses and the first step comes after a covariance and an inverse update, then all steps succeed, the loss tends to the infimum of the losses of all linear models, attained or not, and the gradient to zero. (3) If some linear model classifies all examples correctly, the softmax loss tends to zero and from some step on every example is classified correctly.", "quantifier": "all training sets, numbers of inputs and outputs, bias or not, initial weights, schedules and batches of the statistics updates, decays, dampings, learning rates, pi rules, numbers of steps", "why_tests_cant": "A limit statement about every data set and schedule; a test sees a few steps of one problem.", "anchors": ["kfac/python/ops/estimator.py: FisherEstimator._get_grads_lists_gradients", "kfac/python/ops/estimator.py: FisherEstimator._get_grads_lists_empirical", "kfac/python/ops/layer_collection.py: LayerCollection.register_softmax_cross_entropy_loss", "kfac/python/ops/layer_collection.py: LayerCollection.register_sigmoid_cross_entropy_loss", "kfac/python/ops/loss_functions.py: CategoricalLogitsNegativeLogProbLoss", "kfac/python/ops/loss_functions.py: MultiBernoulliNegativeLogProbLoss", "kfac/python/ops/fisher_blocks.py: FullyConnectedKFACBasicFB", "kfac/python/ops/fisher_blocks.py: KroneckerProductFB._setup_damping", "kfac/python/ops/fisher_blocks.py: compute_pi_adjusted_damping", "kfac/python/ops/fisher_blocks.py: KroneckerProductFB._multiply_factored_matrix", "kfac/python/ops/fisher_factors.py: DenseSquareMatrixFactor.make_inverse_update_ops", "kfac/python/ops/optimizer.py: KfacOptimizer.apply_gradients", "kfac/python/ops/optimizer.py: KfacOptimizer._update_clip_coeff"]}
{"id": "C99", "title": "Global constants keep the value given last, and reach the variables created afterwards", "statement": "After any sequence of set_global_constants calls of the four modules and constructions of optimizers, every constant has the value given last (None changes nothing) or its documented default. The variables of factors created then start at zero or at the identity as init_covariances_at_zero and init_inverses_at_zero say; zero_debias counts as it is when the variables are created, making the covariance the weighted mean of the estimates (or the weighted sum), and later calls change nothing. Training steps before the first inverse update do not move the parameters. An optimizer runs with the replicator it was constructed with.", "quantifier": "all sequences of calls and constructions, constants, dimensions, covariance updates, networks, losses", "why_tests_cant": "The constants are process-wide state; a test sets particular ones in a particular order.", "anchors": ["kfac/python/ops/fisher_factors.py: set_global_constants", "kfac/python/ops/fisher_blocks.py: set_global_constants", "kfac/python/ops/optimizer.py: set_global_constants", "kfac/python/ops/utils.py: set_global_constants", "kfac/python/ops/optimizer.py: KfacOptimizer.__init__", "kfac/python/ops/fisher_factors.py: FisherFactor.instantiate_cov_variables", "kfac/python/ops/fisher_factors.py: DenseSquareMatrixFactor.instantiate_inv_variables", "kfac/python/ops/utils.py: MovingAverageVariable"]}
{"id": "C100", "title": "Training on replicas and towers is training on one machine with all the examples", "statement": "Distribute each batch in any way over R replicas with T towers each, in parts of equal size, and run the same sequence of covariance updates, inverse updates and training steps on every replica. Then all replicas have identical parameters, velocities and statistics at all times, namely those of one machine that sees the whole batch as one, for either value of TOWER_STRATEGY, with momentum and norm constraint; an operation fails on the replicas exactly when it fails on the one machine. So neither the number of replicas and towers nor the way the examples are distributed matters.", "quantifier": "all networks of fully connected layers, activations and losses differentiable where the steps are taken, numbers of replicas, towers and examples, ways of distributing them, schedules, settings, numbers of steps", "why_tests_cant": "A statement about whole trainings on every cluster; a test compares particular quantities for particular clusters.", "anchors": ["kfac/python/ops/fisher_factors.py: FisherFactor._compute_total_new_cov", "kfac/python/ops/fisher_factors.py: FisherFactor.make_covariance_update_op", "kfac/python/ops/fisher_blocks.py: InputOutputMultiTower._process_data", "kfac/python/ops/optimizer.py: KfacOptimizer.compute_gradients", "kfac/python/ops/utils.py: all_average", "kfac/python/ops/optimizer.py: KfacOptimizer.apply_gradients", "kfac/python/ops/optimizer.py: KfacOptimizer._update_velocities"]}
{"id": "C101", "title": "load_model restores the compiled model and the optimizer where training stopped", "statement": "load_model compiles the loaded model with the saved loss, metrics, weighted metrics, loss weights and sample weight mode; wherever these name a custom object (at any depth) that object is used, and a loss that is an object is restored. The optimizer has the settings of the saved one, with the hyperparameters' values at the time of saving and the new name if one is given, and all its variables have the saved values; values that do not fit are ignored as a whole. A model saved without having been compiled is rejected, the file is closed if load_model opened it, whatever fails, and the caller's dictionary of custom objects is not changed.", "quantifier": "all saved files, constructor arguments, hyperparameter values, nested structures of losses and metrics, custom objects, optimizer names", "why_tests_cant": "A test loads particular models; settings, custom objects, adaptive damping and failures combine freely.", "anchors": ["kfac/python/keras/saving_utils.py: load_model", "kfac/python/keras/saving_utils.py: _compile_args_from_training_config", "kfac/python/keras/optimizers.py: Kfac.get_config", "kfac/python/keras/optimizers.py: Kfac.name", "kfac/python/keras/optimizers.py: Kfac._create_optimizer"]}
{"id": "C102", "title": "PeriodicInvCovUpdateKfacOpt updates at the documented times and trains linear classifiers to the best possible loss", "statement": "Any number of executions of the op minimize returns are: num_burnin_steps covariance updates without decay, which leave the network as it is, and then at every execution a covariance update if the number of steps so far is divisible by cov_update_every, an inverse update with damping times precon_damping_mult if it is divisible by invert_every, and a training step, in this order; an execution fails exactly if one of these fails (which it does if an interval is zero). Training one fully connected layer on a whole training set with any of the losses, no momentum and no norm constraint, with curvature * learning_rate * mean squared input length < 2 * damping * precon_damping_mult, succeeds at every execution, never increases the loss, and reaches the infimum of the losses of all linear models in the limit, for all intervals and burn-ins.", "quantifier": "all networks of fully connected layers, batches, losses, intervals, burn-in lengths, decays, numbers of executions; for convergence all training sets, sampled targets and initial weights", "why_tests_cant": "A limit statement about the optimizer users run; a test checks a few executions.", "anchors": ["kfac/python/ops/kfac_utils/periodic_inv_cov_update_kfac_opt.py: PeriodicInvCovUpdateKfacOpt.minimize", "kfac/python/ops/kfac_utils/periodic_inv_cov_update_kfac_opt.py: PeriodicInvCovUpdateKfacOpt.apply_gradients", "kfac/python/ops/kfac_utils/periodic_inv_cov_update_kfac_opt.py: PeriodicInvCovUpdateKfacOpt.kfac_update_ops", "kfac/python/ops/estimator.py: FisherEstimator._create_cov_update_thunk"]}
{"id": "C103", "title": "The damping interpolates between gradient descent and the natural gradient", "statement": "For every Kronecker-factored block with its statistics held fixed, the preconditioned gradient after an inverse update is defined for every positive damping; its length and its inner product with the gradient (never negative) do not increase when the damping is raised, and its length is at most that of the gradient divided by the damping. When the damping grows without bound the preconditioned gradient times the damping tends to the gradient; when it goes to zero and the statistics are positive definite, it tends to the natural gradient, that is, to the solution of the undamped system.", "quantifier": "all kinds of Kronecker blocks (fully connected, convolutional, multiple uses), both pi rules, all NORMALIZE_DAMPING_POWER, statistics, gradients, dampings", "why_tests_cant": "Limits and monotonicity over all dampings; a test uses particular values.", "anchors": ["kfac/python/ops/fisher_blocks.py: KroneckerProductFB._setup_damping", "kfac/python/ops/fisher_blocks.py: compute_pi_adjusted_damping", "kfac/python/ops/fisher_blocks.py: KroneckerProductFB.multiply_matpower", "kfac/python/ops/fisher_factors.py: DenseSquareMatrixFactor.make_inverse_update_ops"]}
{"id": "C104", "title": "On any network a small enough K-FAC step decreases the loss", "statement": "Train a network of fully connected layers with any differentiable activations and any losses, on any batches and schedule of updates with non-negative decays and positive dampings. If the first operation is a covariance update no operation ever fails. At any time after the first inverse update, on any batch: a training step without momentum with any small enough learning rate strictly decreases the mean loss of the batch, unless no direction in the space of all parameters changes the loss to first order, and in that case a training step leaves the network as it is. To first order the decrease is the learning rate times the squared Fisher norm that the optimizer computes for the norm constraint.", "quantifier": "all networks (depths, widths, biases, activations), losses, batches, schedules, histories, settings", "why_tests_cant": "A statement about gradients of all layers at once and limits; a test trains particular networks for a few steps.", "anchors": ["kfac/python/ops/optimizer.py: KfacOptimizer.apply_gradients", "kfac/python/ops/optimizer.py: KfacOptimizer._squared_fisher_norm", "kfac/python/ops/optimizer.py: KfacOptimizer._update_clip_coeff", "kfac/python/ops/fisher_blocks.py: KroneckerProductFB.multiply_matpower", "kfac/python/ops/estimator.py: FisherEstimator.multiply_inverse"]}
{"id": "C105", "title": "The registered losses are the losses the documentation names", "statement": "Run any program that registers losses through the six registration functions (categorical predictive distribution, softmax cross-entropy, normal predictive distribution, squared error, multi-Bernoulli predictive distribution, sigmoid cross-entropy), with or without names, coefficients, targets, variances and reuse, in between other calls of the collection and other operations of the graph. Whatever was refused on the way, total_loss() is then, as a function of the parameters and up to one constant, the sum over the accepted registrations of the coefficient (1 by default) times the loss in the documentation: tf.nn.sparse_softmax_cross_entropy_with_logits, tf.nn.sigmoid_cross_entropy_with_logits, ||target - prediction||^2, or ||target - mean||^2/(2 var) with the squared distance as the default. It raises if a target is missing or nothing was registered. multiply_ggn of the collection multiplies by the Hessian of that sum for the model linearised at the current parameters, whatever the targets are. A loss without a name and without reuse is accepted: a new name is generated from the name of the function (for example squared_error_loss), and the losses under other names stay as they are.", "quantifier": "for all programs of registrations and other calls, all ways in which the graph makes up unused names, all models (functions from parameters to logits), batch sizes, numbers of outputs, targets, coefficients, variances > 0, parameter values and vectors", "why_tests_cant": "A test compares total_loss with a number for particular losses and targets; sums of losses, coefficients, refused registrations, clashing names and the agreement with the curvature combine freely.", "anchors": ["kfac/python/ops/layer_collection.py: LayerCollection.register_squared_error_loss", "kfac/python/ops/layer_collection.py: LayerCollection.register_normal_predictive_distribution", "kfac/python/ops/layer_collection.py: LayerCollection._register_loss_function", "kfac/python/ops/layer_collection.py: LayerCollection.total_loss", "kfac/python/ops/loss_functions.py: NegativeLogProbLoss", "kfac/python/ops/curvature_matrix_vector_products.py: CurvatureMatrixVectorProductComputer.multiply_ggn"]}
{"id": "C106", "title": "On deep linear networks the blocks of K-FAC are exact", "statement": "Take a network of fully connected layers whose activations are affine (a deep linear network), with a normal predictive distribution of fixed variance as its loss, and update the covariances from their initial state in the mode \"exact\" on any batches with any non-negative decays, the weights staying fixed. No update fails. For every layer the zero-debiased input and output factors A and G then give the exact curvature: for every change D of the parameters of that layer the decayed mean of the losses of the batches is its tangent plus half of the quadratic form of the Kronecker product of A and G at D, whatever the targets are. If A and G are positive definite, an inverse update without damping gives a preconditioned gradient which is the Newton step of the layer: the layer moved by it minimises the mean loss over all its parameters. In the modes \"gradients\" (targets drawn from the predictive distribution) and \"curvature_prop\" the expected statistics of each layer, of any network, are those of the mode \"exact\".", "quantifier": "all depths, widths, biases, affine activations, positions of the layer, weights, variances > 0, coefficients >= 0, non-empty sequences of batches of any sizes, targets, decays >= 0, changes D, pi rules; for the last part also all activations", "why_tests_cant": "Exactness of a curvature matrix is a statement about all changes of the parameters and about expectations over continuous targets; a test compares particular numbers.", "anchors": ["kfac/python/ops/estimator.py: FisherEstimator._get_grads_lists_exact", "kfac/python/ops/estimator.py: FisherEstimator._get_grads_lists_gradients", "kfac/python/ops/estimator.py: FisherEstimator._get_grads_lists_curvature_prop", "kfac/python/ops/fisher_blocks.py: FullyConnectedKFACBasicFB", "kfac/python/ops/fisher_factors.py: FullyConnectedKroneckerFactor._compute_new_cov", "kfac/python/ops/fisher_blocks.py: KroneckerProductFB.multiply_matpower"]}
{"id": "C107", "title": "K-FAC drives the gradient of any network to zero", "statement": "Train a network of fully connected layers with any differentiable activations and any differentiable losses on one training set without momentum, without end, with covariance updates on any batches (decays >= 0) and inverse updates with dampings of at least lambda > 0 between the training steps in any order. Suppose that below its first value the loss lies under parabolas of curvature L along lines in the space of all parameters, and that the learning rate is at most lambda / L. Whatever the covariances are: if the first operation is a covariance update, training never fails; no training step increases the loss, and without a norm constraint every one lowers it by at least half the learning rate times the squared Fisher norm which the optimizer computes, so that these norms add up to at most twice the total decrease divided by the learning rate. If the loss is bounded below, the squared Fisher norm of the training steps tends to zero, with or without a norm constraint. If moreover the data that the covariances see and the dampings are bounded, the derivatives of the loss at the training steps tend to zero in all directions.", "quantifier": "all networks (depths, widths, biases, activations), losses, data, schedules of updates, dampings >= lambda, learning rates <= lambda / L, norm constraints > 0, pi rules", "why_tests_cant": "A statement about infinitely many steps on all networks; a test runs a few steps on particular ones.", "anchors": ["kfac/python/ops/optimizer.py: KfacOptimizer.apply_gradients", "kfac/python/ops/optimizer.py: KfacOptimizer._squared_fisher_norm", "kfac/python/ops/optimizer.py: KfacOptimizer._update_clip_coeff", "kfac/python/ops/fisher_blocks.py: KroneckerProductFB._setup_damping", "kfac/python/ops/fisher_blocks.py: KroneckerProductFB.multiply_matpower", "kfac/python/ops/estimator.py: FisherEstimator.multiply_inverse"]}
{"id": "C108", "title": "With the quadratic model the adaptive damping stays bounded on any smooth loss", "statement": "Minimise, with the momentum type qmodel (learning rate and momentum chosen by the model, no weight decay), a loss whose gradient is Lipschitz with constant L; the curvature matrix and the preconditioner may be anything. As long as the two-by-two systems are solvable: the predicted change is never an increase, and at a damping of at least rL/(2(1-theta)) the loss falls by at least the fraction theta of the prediction (r is the rescaling of the update, 1 by default). Hence the damping is never raised when it is at least rL/(2(1-lower threshold)) and is lowered by omega at every adaptation when it is above rL/(2(1-upper threshold)) and the update moved the parameters. In all runs, with immediate as well as with delayed adaptation, it stays below the larger of its initial value and rL/(2(1-lower threshold))/omega, and an initial damping which is too high is forgotten geometrically. If the minimal damping is at least rL/2, no update increases the loss.", "quantifier": "all losses with a quadratic upper bound, curvature matrices, preconditioners, batches, thresholds 0 <= lower <= upper < 1, 0 < r < 2, decay constants, intervals, minimal dampings, l2 coefficients, numbers of runs", "why_tests_cant": "A bound over all losses and unbounded numbers of adaptations; a test checks particular numbers.", "anchors": ["kfac/python/ops/optimizer.py: KfacOptimizer._update_damping", "kfac/python/ops/optimizer.py: KfacOptimizer._compute_qmodel_hyperparams", "kfac/python/ops/optimizer.py: KfacOptimizer._maybe_pre_update_adapt_damping", "kfac/python/ops/optimizer.py: KfacOptimizer._maybe_post_update_adapt_damping", "kfac/python/ops/optimizer.py: KfacOptimizer.apply_gradients"]}
{"id": "C109", "title": "Statistics, inverses and gradients of every documented layer have shapes that fit", "statement": "Register a layer with data of the documented shapes and update its statistics, then multiply a gradient. For fully connected layers (dense, or indices with a diagonal input factor), two-dimensional convolutions, depthwise convolutions, scale and shift layers with parameters that broadcast to an example, parameters without structure, and layers used several times (a list of uses, one tensor with the uses folded into the batch, or for fully connected layers a dimension of its own for them), with each of their approximations except those for recurrent layers with a dimension for the uses and diagonal convolutions with a mask: no operation gets shapes it refuses, and the product has exactly the shapes of the parameters, with and without a bias, for any number of towers of different sizes and of gradient sources, with towers concatenated or not. Indices with a dense input factor are refused. Conversely, if a fully connected layer gets through an update and a multiplication then every input has as many features, every gradient as many entries and the bias as many entries as the weights say: nothing is broadcast in silence.", "quantifier": "all numbers and sizes of towers, numbers of sources, uses, sizes of layers, images, filters, strides, dilations, paddings, masks, sub-samplings, broadcasting patterns of scales and shifts", "why_tests_cant": "A test builds each block for particular shapes; formats of data, numbers of uses and sizes of towers combine freely.", "anchors": ["kfac/python/ops/fisher_blocks.py: KroneckerProductFB.multiply_matpower", "kfac/python/ops/fisher_blocks.py: InputOutputMultiTower", "kfac/python/ops/fisher_blocks.py: InputOutputMultiTowerMultiUse", "kfac/python/ops/fisher_blocks.py: FullyConnectedSeriesFB", "kfac/python/ops/fisher_blocks.py: ConvKFCBasicFB", "kfac/python/ops/fisher_blocks.py: DepthwiseConvDiagonalFB", "kfac/python/ops/fisher_factors.py: FullyConnectedMultiKF._vec_shape", "kfac/python/ops/fisher_factors.py: ConvInputKroneckerFactor._compute_new_cov", "kfac/python/ops/fisher_factors.py: ScaleAndShiftFactor", "kfac/python/ops/utils.py: layer_params_to_mat2d", "kfac/python/ops/utils.py: mat2d_to_layer_params"]}
{"id": "C110", "title": "Damping holds at every step, whatever mixture of blocks the network has", "statement": "Train with any differentiable loss of any parameters, divided among Kronecker blocks (fully connected or convolution, single or multiple use, each factor dense or diagonal), full and diagonal blocks in any mixture, with covariance updates with any positive semidefinite estimates, inverse updates and training steps in any order, all dampings at least lambda > 0. If the first operation is a covariance update nothing ever fails. At every time and for every gradient the preconditioned gradient has at most the length of the gradient over lambda and makes no obtuse angle with it. Hence without momentum, with a learning rate of at most lambda / L for a loss with parabolas of curvature L above it, no training step increases the loss; if the loss is bounded below the squared Fisher norm of the training steps tends to zero, and with bounded estimates and dampings the gradient tends to zero.", "quantifier": "all numbers and kinds of blocks, sizes, losses, estimates, decays >= 0, orders of operations, dampings >= lambda, learning rates <= lambda / L, norm constraints > 0, pi rules", "why_tests_cant": "A statement about infinitely many steps for all mixtures of blocks; a test preconditions particular vectors.", "anchors": ["kfac/python/ops/fisher_blocks.py: KroneckerProductFB._setup_damping", "kfac/python/ops/fisher_blocks.py: KroneckerProductFB.multiply_matpower", "kfac/python/ops/fisher_blocks.py: FullFB.multiply_matpower", "kfac/python/ops/fisher_blocks.py: DiagonalFB.multiply_matpower", "kfac/python/ops/fisher_factors.py: DiagonalFactor.get_matpower", "kfac/python/ops/fisher_factors.py: DenseSquareMatrixFactor.make_inverse_update_ops", "kfac/python/ops/optimizer.py: KfacOptimizer.apply_gradients", "kfac/python/ops/estimator.py: FisherEstimator.multiply_inverse"]}
{"id": "C111", "title": "K-FAC with momentum is stable and converges on any loss with a Lipschitz gradient", "statement": "Train as in C110 with momentum m, 0 <= m < 1 (momentum type \"regular\", zero velocity at first) on a loss that is bounded below and whose gradient is Lipschitz with constant L, with Kronecker blocks whose factors are both dense or both diagonal, full and diagonal blocks in any mixture, updates in any order, dampings of at least lambda > 0, and a learning rate of at most lambda (1-m)^2 / (L (1+m)), with or without a norm constraint. At every time the loss exceeds its lower bound by at most (1+m) times what it did at the start. Without a norm constraint the squared Fisher norms of all training steps add up to at most that excess times 2 (1-m) / (learning rate). The squared Fisher norms tend to zero; with bounded estimates and dampings the gradient tends to zero; the velocity tends to zero and the loss converges. For m = 0 the condition on the learning rate is the one of C107 and C110.", "quantifier": "all mixtures of blocks, sizes, losses, estimates, decays >= 0, orders of operations, dampings >= lambda, momenta in [0, 1), learning rates within the bound, norm constraints > 0, pi rules", "why_tests_cant": "A statement about infinitely many steps with a preconditioner that changes all the time; a test checks particular updates.", "anchors": ["kfac/python/ops/optimizer.py: KfacOptimizer._update_velocities", "kfac/python/ops/optimizer.py: KfacOptimizer.apply_gradients", "kfac/python/ops/optimizer.py: KfacOptimizer._update_clip_coeff", "kfac/python/ops/optimizer.py: KfacOptimizer._squared_fisher_norm", "kfac/python/ops/fisher_blocks.py: KroneckerProductFB.multiply_matpower", "kfac/python/ops/estimator.py: FisherEstimator.multiply_inverse"]}
{"id": "C112", "title": "The statistics of a convolution do not depend on how its patches are extracted", "statement": "The input factor of a convolution with extract_patches_fn None, \"extract_convolution_patches\", \"extract_image_patches\" or, for 1x1 filters with stride 1, \"extract_pointwise_conv2d_patches\" holds the means over examples and output positions of products of the inputs which two filter taps read (or 1 for the bias), each multiplied by the patch mask if there is one; so all extractors that apply give the same statistics, whether the size of the batch is known or not.", "quantifier": "all batches, images, filter sizes, strides, dilations, paddings, masks, with and without bias", "why_tests_cant": "A test of an extractor checks particular images; masks, extractors and unknown batch sizes combine freely.", "anchors": ["kfac/python/ops/fisher_factors.py: ConvInputKroneckerFactor._compute_new_cov", "kfac/python/ops/utils.py: extract_convolution_patches", "kfac/python/ops/utils.py: extract_pointwise_conv2d_patches"]}
{"id": "C113", "title": "How fast training approaches the minimum of the loss", "statement": "Train as in C110 without momentum, with Kronecker blocks whose factors are both dense or both diagonal, full and diagonal blocks in any mixture, estimates and dampings bounded, dampings at least lambda > 0 and a learning rate of at most lambda / L. Let c be a bound of the damped curvature of all blocks (an explicit function of the bounds and the sizes). If the squared gradient is at least 2 mu times the distance of the loss to its minimum (Polyak-Lojasiewicz), that distance shrinks after the first inverse update with every training step by at least the factor exp(-rho), rho = learning_rate * mu / c, with norm constraint nu the smaller of this and sqrt(nu mu / (2 c (first loss - minimum))); other operations do not change it. On a convex loss, without norm constraint, the loss exceeds the minimum after T training steps by at most 2 c R^2 / (learning_rate * T), R the largest distance to the minimiser among parameters whose loss is not above the first one.", "quantifier": "all mixtures of blocks, sizes, losses, estimates, decays >= 0, orders of operations, dampings >= lambda, learning rates <= lambda / L, norm constraints > 0, pi rules, numbers of steps", "why_tests_cant": "A rate is a statement about all numbers of steps and all losses of a class; a test runs a few steps on one problem.", "anchors": ["kfac/python/ops/optimizer.py: KfacOptimizer.apply_gradients", "kfac/python/ops/optimizer.py: KfacOptimizer._update_clip_coeff", "kfac/python/ops/optimizer.py: KfacOptimizer._squared_fisher_norm", "kfac/python/ops/fisher_blocks.py: KroneckerProductFB.multiply_matpower", "kfac/python/ops/fisher_blocks.py: KroneckerProductFB._setup_damping", "kfac/python/ops/estimator.py: FisherEstimator.multiply_inverse"]}
{"id": "C114", "title": "Training on randomly drawn mini-batches", "statement": "There are finitely many mini-batches with differentiable losses; every training step uses one drawn uniformly and independently. Covariances and inverses are updated before the first and after every step by any sequence of operations, and these and the damping may depend on all batches drawn so far; blocks, bounds and learning rate as in C113, without momentum and norm constraint; the mean of the losses lies below a parabola of curvature L and the gradients of the batches have a variance of at most v. Then no operation fails whatever is drawn; the expected squared gradients of the mean loss, summed over the first T steps, are at most 2 c (first loss - lower bound) / learning_rate + T * c L learning_rate v / lambda^2; and under the Polyak-Lojasiewicz condition with constant mu the expected loss approaches its minimum geometrically with the factor exp(-learning_rate mu / c) up to c L learning_rate v / (2 mu lambda^2).", "quantifier": "all finite sets of batches and losses, mixtures of blocks without mixed dense and diagonal factors, estimates, decays >= 0, dampings >= lambda, schedules depending on the drawn batches, learning rates <= lambda / L, numbers of steps", "why_tests_cant": "An expectation over all sequences of draws cannot be tested; a test sees one sequence and one problem.", "anchors": ["kfac/python/ops/optimizer.py: KfacOptimizer.apply_gradients", "kfac/python/ops/optimizer.py: KfacOptimizer.compute_gradients", "kfac/python/ops/optimizer.py: KfacOptimizer._multiply_preconditioner", "kfac/python/ops/fisher_blocks.py: KroneckerProductFB.multiply_matpower", "kfac/python/ops/fisher_blocks.py: KroneckerProductFB._setup_damping", "kfac/python/ops/estimator.py: FisherEstimator.multiply_inverse"]}
{"id": "C115", "title": "Sampling with the Cholesky factors", "statement": "Apply multiply_cholesky to random tensors whose entries have mean zero, variance one and no correlation: the results have mean zero and as covariance the damped curvature of the block (the Kronecker product of both damped factors times the renormalisation, the damped full matrix, the damped diagonal). Apply multiply_cholesky_inverse with transpose=True: the covariance is the inverse of the damped curvature. If the noise is Gaussian so are the results; whatever is uncorrelated with the noise of a block is uncorrelated with its result, so samples of different blocks stay uncorrelated.", "quantifier": "all Kronecker blocks with dense or diagonal factors and stored Cholesky factors, all full blocks after any registrations and inverse updates, all diagonal blocks; all sizes, statistics, dampings > 0 and noise on any probability space", "why_tests_cant": "A test compares a product with a Cholesky factor for particular matrices; the covariance of samples is a statement about a distribution.", "anchors": ["kfac/python/ops/estimator.py: FisherEstimator.multiply_cholesky", "kfac/python/ops/estimator.py: FisherEstimator.multiply_cholesky_inverse", "kfac/python/ops/fisher_blocks.py: KroneckerProductFB.multiply_cholesky", "kfac/python/ops/fisher_blocks.py: KroneckerProductFB.multiply_cholesky_inverse", "kfac/python/ops/fisher_blocks.py: FullFB.multiply_cholesky", "kfac/python/ops/fisher_blocks.py: DiagonalFB.multiply_cholesky", "kfac/python/ops/fisher_factors.py: DenseSquareMatrixFactor.get_cholesky"]}
{"id": "C116", "title": "What the moving averages of the statistics estimate, and how well", "statement": "Mini-batches are drawn independently from one distribution while the parameters do not change. After any positive number of covariance updates with any decays >= 0 the expectation of every entry of the statistics is the second moment of a row. With constant decay d < 1 the variance of an entry after T updates is that of the estimate of one batch times (1-d)/(1+d) * (1+d^T)/(1-d^T), with d = 1 it is divided by T; for independent rows that of a batch is that of one row divided by the number of rows. With d = 1 the statistics converge almost surely to the second moments and the stored inverse, with any damping > 0, to the inverse of the damped second moments. Diagonal factors hold the diagonal of the same statistics.", "quantifier": "all distributions of batches with square-integrable rows (the rows of one batch may depend on each other), numbers of rows, dimensions, decays in [0, 1], dampings > 0, numbers of updates", "why_tests_cant": "Expectations, variances and almost sure limits concern all sequences of batches; a test feeds particular batches.", "anchors": ["kfac/python/ops/fisher_factors.py: compute_cov", "kfac/python/ops/fisher_factors.py: FisherFactor.make_covariance_update_op", "kfac/python/ops/fisher_factors.py: DenseSquareMatrixFactor.make_inverse_update_ops", "kfac/python/ops/utils.py: MovingAverageVariable.add_to_average", "kfac/python/ops/utils.py: MovingAverageVariable.value", "kfac/python/ops/estimator.py: FisherEstimator._create_cov_update_thunk"]}
{"id": "C117", "title": "Every step is the best one within the norm constraint", "statement": "Let F be the inverse of the preconditioner (the damped curvature), symmetric and positive definite. With momentum_type \"adam\" every parameter update of every run is the unique minimiser of the model (accumulated gradient) . delta + delta^T F delta / (2 learning_rate) among all delta with delta^T F delta <= norm_constraint (among all delta without one). With \"regular\" the update less momentum times the previous update is the unique minimiser for the current gradient; without momentum this is the whole update.", "quantifier": "all numbers of parameters, gradients, symmetric positive definite preconditioners (different in every step), learning rates > 0, norm constraints > 0 or none, momenta, numbers of steps; no weight decay", "why_tests_cant": "Optimality compares the update with all other vectors; a test checks particular coefficients.", "anchors": ["kfac/python/ops/optimizer.py: KfacOptimizer._clip_updates", "kfac/python/ops/optimizer.py: KfacOptimizer._update_clip_coeff", "kfac/python/ops/optimizer.py: KfacOptimizer._squared_fisher_norm", "kfac/python/ops/optimizer.py: KfacOptimizer._update_velocities", "kfac/python/ops/optimizer.py: KfacOptimizer.apply_gradients"]}
{"id": "C118", "title": "A whole run with decay callbacks", "statement": "model.fit with a list of decay callbacks raises ValueError before any change exactly when a callback names an attribute the optimizer lacks or the optimizer has no iterations. Otherwise, with at most one callback per attribute, batch i counted over all epochs uses for every decayed attribute the value its own schedule alone gives, independently of the other callbacks, their order and the division into epochs; other attributes do not change. The logs of an epoch hold the values its last batch has used. A run cut between epochs and continued gives the same values, logs and printed lines. The value is printed every epoch when verbose > 1 and not otherwise.", "quantifier": "all lists of callbacks with all schedules and delays, optimizers, numbers of epochs and of batches per epoch", "why_tests_cant": "A test runs particular callbacks for a few epochs; the claim is for all schedules, delays and numbers of batches.", "anchors": ["kfac/python/keras/callbacks.py: HyperparameterDecay.__init__", "kfac/python/keras/callbacks.py: HyperparameterDecay.on_train_begin", "kfac/python/keras/callbacks.py: HyperparameterDecay.on_epoch_begin", "kfac/python/keras/callbacks.py: HyperparameterDecay.on_epoch_end", "kfac/python/keras/callbacks.py: HyperparameterDecay._get_global_step", "kfac/python/keras/callbacks.py: PolynomialDecay.on_batch_begin", "kfac/python/keras/callbacks.py: ExponentialDecay.on_batch_begin"]}
{"id": "C119", "title": "Dedicated workers divide the work completely", "statement": "In distributed_grads_and_ops_dedicated_workers every worker of the cluster has exactly one role (numbers outside a cluster of three or more raise ValueError), the first 60% compute gradients, the next 20% accumulate covariance statistics and the last 20% invert; every role is filled, and the synchronous optimizer waits for as many gradients as there are workers computing them.", "quantifier": "all numbers of workers, all worker numbers, any floating-point rounding of 0.6 * num_tasks; for the consequences all networks, optimizer settings and interleavings of the workers", "why_tests_cant": "The examples have no tests; the roles have to be compared over all sizes of clusters.", "anchors": ["kfac/examples/convnet.py: _is_gradient_task", "kfac/examples/convnet.py: _is_cov_update_task", "kfac/examples/convnet.py: _is_inv_update_task", "kfac/examples/convnet.py: _num_gradient_tasks", "kfac/examples/convnet.py: _make_distributed_train_op", "kfac/examples/convnet.py: distributed_grads_and_ops_dedicated_workers"]}
{"id": "C120", "title": "Mini-batches grow from the starting size to the training set", "statement": "_get_batch_size_schedule returns, for every number of examples, the sizes of the published exponential schedule rounded down: the first mini-batch has the starting size (all examples if there are fewer), sizes never decrease and never exceed the number of examples, and from the target iteration on every mini-batch is the whole training set. No size is refused by the data reader.", "quantifier": "all numbers of examples, target iterations >= 2, starting sizes > 0, global steps; for the reader all execution orders", "why_tests_cant": "The data set size is a literal in the examples, so a run shows one schedule and does not compare it with the formula.", "anchors": ["kfac/examples/autoencoder_mnist.py: _get_batch_size_schedule", "kfac/examples/classifier_mnist.py: _get_batch_size_schedule", "kfac/examples/rnn_mnist.py: main", "kfac/examples/autoencoder_mnist.py: main", "kfac/python/ops/kfac_utils/data_reader_alt.py: CachedDataReader"]}
{"id": "C121", "title": "The losses of the examples are the regularised loss", "statement": "In the MNIST examples the loss given to the optimizer, the loss it evaluates after an update to adapt the damping, and the losses printed by the evaluation are all the data loss at the respective weights plus l2_reg / 2 times the sum of squares of the same weights, which is what the argument l2_reg of KfacOptimizer is documented to mean; for l2_reg = 0 they are the data loss.", "quantifier": "all weights before and after the update, their averages, data losses and coefficients; for the evaluation both orders in which the regularisers can be read; for the damping all thresholds with 0 < increase <= decrease < 1", "why_tests_cant": "The examples have no tests; which weights a loss tensor reads shows only when losses before and after an update are compared.", "anchors": ["kfac/examples/classifier_mnist.py: compute_loss", "kfac/examples/classifier_mnist.py: Model._build", "kfac/examples/classifier_mnist.py: make_eval_ops", "kfac/examples/classifier_mnist.py: construct_train_quants", "kfac/examples/autoencoder_mnist.py: compute_loss", "kfac/examples/autoencoder_mnist.py: get_keras_autoencoder", "kfac/python/ops/optimizer.py: KfacOptimizer._get_current_loss", "kfac/python/ops/optimizer.py: KfacOptimizer._update_damping"]}
{"id": "C122", "title": "The recurrent example registers the right tensors", "statement": "In rnn_mnist.py the gradients of the loss with respect to the tensors s_in, s_rec and s of a time step are the same, so registering s_list for both layers (the two commented lines) would not change the algorithm; and the gradient of the loss with respect to the variables of the recurrent part is the sum over all registered uses of input times gradient of the output, which is what the approximations for layers used several times rest on.", "quantifier": "all sizes, numbers of time steps, variables, inputs, directions and differentiable losses of the final output; one example of the batch, exact numbers", "why_tests_cant": "The claim is a derivative identity for all parameters and lengths; a run of the example shows losses only.", "anchors": ["kfac/examples/rnn_mnist.py: eval_model"]}
{"id": "C123", "title": "The training loops of the examples do the same work on schedule", "statement": "The manual loop of convnet.py does in every run exactly what PeriodicInvCovUpdateKfacOpt with invert_every = _INVERT_EVERY and cov_update_every = 1 does, with the same failures. In the estimator example all inverses are computed at step 0 and one of them, in turn, at every later step, so that no inverse is ever older than the number of inverses less one. With a chief worker, the gradients of all workers are averaged.", "quantifier": "all networks, batches, settings, numbers of steps, starting steps that are multiples of the interval; all numbers of inverses; all numbers of workers and roundings of 0.6 * num_tasks", "why_tests_cant": "The examples have no tests; comparing two loops by running them shows agreement for the steps that were run.", "anchors": ["kfac/examples/convnet.py: minimize_loss_single_machine_manual", "kfac/examples/convnet.py: minimize_loss_single_machine", "kfac/examples/convnet.py: train_mnist_estimator", "kfac/examples/convnet.py: distributed_grads_only_and_ops_chief_worker", "kfac/examples/convnet.py: _make_distributed_train_op", "kfac/python/ops/utils.py: batch_execute"]}
{"id": "C124", "title": "The examples build the optimizer that their flags ask for", "statement": "make_train_op of the autoencoder, classifier and recurrent examples succeeds for exactly the documented values of --optimizer and --lrmu_adaptation, with the documented momentum type, learning rate, momentum and damping, for every value of the other flags; the loss that the damping adaptation needs is built on the current batch with --update_damping_immediately and on the previous batch without, on TPU as well.", "quantifier": "all flag values, loss functions and batches", "why_tests_cant": "Building the graph needs TensorFlow, Sonnet and the data; the examples have no tests, and the flags combine freely.", "anchors": ["kfac/examples/autoencoder_mnist.py: make_train_op", "kfac/examples/classifier_mnist.py: make_train_op", "kfac/examples/rnn_mnist.py: make_train_op", "kfac/examples/autoencoder_mnist_tpu_estimator.py: make_train_op", "kfac/examples/autoencoder_mnist_tpu_strategy.py: make_train_op", "kfac/examples/classifier_mnist_tpu_estimator.py: make_train_op", "kfac/python/ops/optimizer.py: KfacOptimizer.__init__", "kfac/python/ops/optimizer.py: KfacOptimizer._get_current_loss", "kfac/python/ops/optimizer.py: KfacOptimizer._maybe_post_update_adapt_damping"]}
{"id": "C125", "title": "Training on several towers is training on their joint batches", "statement": "train_mnist_multitower runs to the end for every list of devices, and its losses, accuracies and parameters are those of training without towers on batches of 128 times the number of devices, each example being used once.", "quantifier": "all data, lists of devices, models (any vector averaged over examples), updates and numbers of passes", "why_tests_cant": "The examples have no tests; a run on data whose size is a multiple of the batch size shows nothing wrong.", "anchors": ["kfac/examples/convnet.py: train_mnist_multitower", "kfac/examples/mnist.py: load_mnist_as_iterator"]}
{"id": "C126", "title": "The reported learning rate, momentum and damping explain the updates", "statement": "The learning rate and momentum that a training run prints (print_logs, or the properties learning_rate and momentum read after it) explain its update: the change of the parameters is the printed momentum times the previous change minus the printed learning rate times the preconditioned gradient, for every momentum type. The printed damping is the one that the run used. Iterations are numbered from 0, the printed loss is the one before the update, and learning rate and momentum are numbers from the first run on.", "quantifier": "all configurations, inputs (losses, gradients, preconditioners, batches), initial parameters and numbers of runs from zero velocity", "why_tests_cant": "A test can compare one update with one printed line; whether the line explains the update depends on clipping, weight decay, momentum type and adaptation in all combinations.", "anchors": ["kfac/python/ops/optimizer.py: KfacOptimizer.learning_rate", "kfac/python/ops/optimizer.py: KfacOptimizer.momentum", "kfac/python/ops/optimizer.py: KfacOptimizer.damping", "kfac/python/ops/optimizer.py: KfacOptimizer._maybe_print_logging_info", "kfac/python/ops/optimizer.py: KfacOptimizer.apply_gradients", "kfac/python/ops/optimizer.py: KfacOptimizer._compute_raw_update_steps"]}
{"id": "C127", "title": "qmodel_fixedmu keeps the momentum that was asked for", "statement": "An optimizer with momentum_type \"qmodel_fixedmu\" that can be constructed uses the same momentum, the one given, in every run (\"only controls the learning rate\"), also when it is made through keras.optimizers.Kfac; a momentum that a type cannot work with is refused by the constructor.", "quantifier": "all configurations, momenta (numbers or None), inputs and numbers of runs; for Keras all keyword arguments", "why_tests_cant": "A momentum that is not fixed shows only over several runs, and all accepted arguments have to be considered.", "anchors": ["kfac/python/ops/optimizer.py: KfacOptimizer.__init__", "kfac/python/ops/optimizer.py: KfacOptimizer._compute_raw_update_steps", "kfac/python/ops/optimizer.py: KfacOptimizer._compute_qmodel_hyperparams", "kfac/python/ops/optimizer.py: KfacOptimizer._update_velocities", "kfac/python/keras/optimizers.py: _configure_kfac_kwargs_for_adaptive", "kfac/python/keras/optimizers.py: Kfac.__init__", "kfac/python/keras/optimizers.py: Kfac._create_optimizer"]}
{"id": "C128", "title": "Every product that was asked for can be computed, and every other is refused", "statement": "A FisherEstimator that was created for given powers, Cholesky factors and inverse Cholesky factors can multiply by exactly these functions of every block that supports them, and by the matrix itself and all functions of diagonal blocks without being asked in advance; everything else raises an exception instead of giving a result, and functions that a block does not support raise NotImplementedError. The optimizer can multiply by the inverse and by the matrix for all kinds of blocks.", "quantifier": "all lists of blocks of all kinds (full, diagonal, Kronecker with dense, diagonal and SUA factors, series), shared factors, damping functions, real exponents, settings of the estimator", "why_tests_cant": "A test asks a few functions of a few blocks; which calls fail depends on the kinds of blocks and factors, on the sharing of factors and on the settings in all combinations.", "anchors": ["kfac/python/ops/fisher_blocks.py: FullFB.register_matpower", "kfac/python/ops/fisher_blocks.py: DiagonalFB.multiply_cholesky", "kfac/python/ops/fisher_blocks.py: KroneckerProductFB.register_cholesky", "kfac/python/ops/fisher_blocks.py: KroneckerProductFB.multiply_matpower", "kfac/python/ops/fisher_blocks.py: FullyConnectedSeriesFB.multiply_cholesky", "kfac/python/ops/fisher_blocks.py: FullyConnectedSeriesFB.multiply_matpower", "kfac/python/ops/fisher_factors.py: DenseSquareMatrixFactor.get_matpower", "kfac/python/ops/fisher_factors.py: ConvInputSUAKroneckerFactor.register_cholesky", "kfac/python/ops/estimator.py: FisherEstimator._register_matrix_functions", "kfac/python/ops/estimator.py: FisherEstimator.multiply_cholesky", "kfac/python/ops/optimizer.py: KfacOptimizer._compute_approx_qmodel_change"]}
{"id": "C129", "title": "Every variable that K-FAC creates has its own name", "statement": "Creating the variables of a model (make_vars_and_create_op_thunks) succeeds for every registered collection of layers: one variable for every statistic and one for every function of a factor and damping that was asked for, with the right shape and pairwise different names, so that no two factors share a statistic and blocks that share a factor each read the inverse for their own damping.", "quantifier": "all collections of blocks with one or two factors (dense, diagonal, SUA and multi-use factors, any sharing of factors, both recurrent options), exponents, damping values, tensor names and variables already in the graph", "why_tests_cant": "Names are built from the names of tensors and from the sharing of factors; a collision shows only for particular models, either as an exception or as statistics that are silently mixed.", "anchors": ["kfac/python/ops/fisher_factors.py: scope_string_from_params", "kfac/python/ops/fisher_factors.py: graph_func_to_string", "kfac/python/ops/fisher_factors.py: FisherFactor.instantiate_cov_variables", "kfac/python/ops/fisher_factors.py: DenseSquareMatrixFactor.instantiate_inv_variables", "kfac/python/ops/fisher_factors.py: ConvInputSUAKroneckerFactor.instantiate_inv_variables", "kfac/python/ops/fisher_factors.py: FullyConnectedMultiKF.instantiate_inv_variables", "kfac/python/ops/fisher_blocks.py: KroneckerProductFB._setup_damping", "kfac/python/ops/estimator.py: FisherEstimator.make_vars_and_create_op_thunks", "kfac/python/ops/utils.py: MovingAverageVariable.__init__"]}
{"id": "C130", "title": "get_cov_vars and get_inv_vars list all variables of every factor", "statement": "After the variables were made, get_cov_vars() and get_inv_vars() of an optimizer or estimator return one list for each factor, in the order of the factors, which together have every variable of the statistics and every variable that an inverse update assigns exactly once, so that saving and restoring them is enough to continue as before.", "quantifier": "all collections of blocks with one or two factors (dense, diagonal, SUA and multi-use factors, any sharing of factors, both recurrent options), exponents and damping values; all values, decays and weights of moving averages", "why_tests_cant": "A test can compare the lists of one model with what its author remembers of the variables; what is missing depends on the kinds of factors, and shows only when training is continued from restored values.", "anchors": ["kfac/python/ops/estimator.py: FisherEstimator.get_cov_vars", "kfac/python/ops/estimator.py: FisherEstimator.get_inv_vars", "kfac/python/ops/fisher_factors.py: FisherFactor.get_cov_vars", "kfac/python/ops/fisher_factors.py: FullyConnectedMultiKF.get_cov_vars", "kfac/python/ops/fisher_factors.py: DenseSquareMatrixFactor.get_inv_vars", "kfac/python/ops/fisher_factors.py: ConvInputSUAKroneckerFactor.get_inv_vars", "kfac/python/ops/fisher_factors.py: FullyConnectedMultiKF.get_inv_vars", "kfac/python/ops/utils.py: MovingAverageVariable.value", "kfac/python/ops/optimizer.py: KfacOptimizer.get_cov_vars"]}
{"id": "C131", "title": "When the same parameters fit every mini-batch, training on mini-batches converges", "statement": "Setting as in C114, but without a bound on the variance of the gradients: instead the loss of every batch i has a lower bound m_i and lies below parabolas of curvature M, and the mean loss satisfies the Polyak-Lojasiewicz condition with constant mu for the mean m of the m_i (so the same parameters come close to all m_i at once). If 2 c L learning_rate M <= lambda^2 mu, the expected squared gradients of the mean loss have the sum of at most 4 c (first loss - m) / learning_rate over any number of steps; the expected loss minus m after T steps is at most exp(-learning_rate mu T / (2 c)) times the first one, with no remaining level; and the probability that the loss minus m is above eps after T steps, or at any time from T to T', is at most this bound divided by eps, or by eps (1 - exp(-learning_rate mu / (2 c))).", "quantifier": "all finite sets of batches and losses, mixtures of blocks without mixed dense and diagonal factors, estimates, decays >= 0, dampings >= lambda, schedules depending on the drawn batches, learning rates below the threshold, eps > 0, numbers of steps", "why_tests_cant": "A statement about the distribution of all runs; a test draws a few runs of a few steps, and the variance of the gradients has no bound.", "anchors": ["kfac/python/ops/optimizer.py: KfacOptimizer.apply_gradients", "kfac/python/ops/optimizer.py: KfacOptimizer.compute_gradients", "kfac/python/ops/optimizer.py: KfacOptimizer._multiply_preconditioner", "kfac/python/ops/fisher_blocks.py: KroneckerProductFB.multiply_matpower", "kfac/python/ops/fisher_blocks.py: KroneckerProductFB._setup_damping", "kfac/python/ops/estimator.py: FisherEstimator.multiply_inverse"]}
{"id": "C132", "title": "Layers registered by hand in the examples", "statement": "With --auto_register_layers=false the autoencoder example, and with register_layers_manually the convolutional example on any number of towers, build and register their network without an exception. The collection then has exactly one block for every layer, with the Kronecker approximation, holding for each tower the tensor that enters the layer and its result before the activation function; each tower has its loss; and the check of the registration passes for the list of all variables in any order. Building the autoencoder without the collection, as for the losses of other batches, gives the same network and registers nothing; building it again with the collection raises.", "quantifier": "all lists of encoder and decoder layers with pairwise different variables, input tensors that do not depend on layers, names of the loss, positive numbers of towers, orders of variables", "why_tests_cant": "The examples have no tests; a wrong tensor in a registration is not noticed, because training still proceeds.", "anchors": ["kfac/examples/autoencoder_mnist.py: MLPManualReg._build", "kfac/examples/autoencoder_mnist.py: AutoEncoderManualReg._build", "kfac/examples/autoencoder_mnist.py: construct_train_quants", "kfac/examples/convnet.py: build_model", "kfac/examples/convnet.py: fc_layer", "kfac/examples/convnet.py: conv_layer", "kfac/examples/convnet.py: train_mnist_multitower", "kfac/python/ops/layer_collection.py: LayerCollection.check_registration"]}
{"id": "C133", "title": "Learning rates that change while training", "statement": "Setting as in C114, with a learning rate given as a tensor whose value r_t depends on the number t of steps so far, every r_t at most lambda / L. No operation fails, also with momentum. Without momentum the expected squared gradients weighted by the r_t have the sum of at most 2 c (first loss - lower bound) + c L v / lambda^2 times the sum of the r_t^2; so if the sum of the r_t is unbounded and that of the r_t^2 is bounded, the expected squared gradient falls below every positive number again and again. Under the Polyak-Lojasiewicz condition with constant mu and r_t = beta / (gamma + t), c < beta mu <= c gamma, the expected loss minus its minimum after t steps is at most a constant divided by gamma + t: the level that remains in C114 vanishes; and the probability that the loss exceeds its minimum by more than eps at any time after T is at most a constant divided by eps (gamma + T - 1), so almost every run approaches the minimum. With momentum m < 1 and gradients of length at most G no parameter moves by more than G / (lambda (1 - m)) times the sum of the r_t; with the exponential decay and momentum of train_mnist_estimator in convnet.py this is at most 4 G / lambda however long the training is.", "quantifier": "all finite sets of batches and losses, mixtures of blocks without mixed dense and diagonal factors, estimates, decays >= 0, dampings >= lambda, schedules of updates depending on the drawn batches, sequences of learning rates <= lambda / L, eps > 0, numbers of steps, drawn batches", "why_tests_cant": "Limits over infinitely many steps and expectations over all draws cannot be tested.", "anchors": ["kfac/python/ops/optimizer.py: KfacOptimizer.__init__", "kfac/python/ops/optimizer.py: KfacOptimizer.apply_gradients", "kfac/python/ops/optimizer.py: KfacOptimizer._update_velocities", "kfac/python/ops/optimizer.py: KfacOptimizer._multiply_preconditioner", "kfac/python/ops/estimator.py: FisherEstimator.multiply_inverse", "kfac/examples/convnet.py: train_mnist_estimator"]}
{"id": "C134", "title": "Training on randomly drawn mini-batches with momentum", "statement": "Setting as in C114, but with momentum 0 <= m < 1 and velocities that start at zero; the gradient of the mean loss has the Lipschitz constant L and the gradients of the batches a variance of at most v; L learning_rate (1 + m + m / (1 - m)^2) <= lambda (1 - m). Then no operation fails, and the expected squared gradients of the mean loss, summed over the first T steps, are at most 2 c (1 - m) (first loss - lower bound) / learning_rate + T c L learning_rate v (1 + m / (1 - m)^2) / (lambda^2 (1 - m)); so at one of these steps the expected squared gradient is at most the T-th part of this; for m = 0 this is the bound of C114. If moreover the mean loss satisfies the Polyak-Lojasiewicz condition with constant mu <= L, and the learning rate is small enough also with 2 m instead of m in the last fraction, the expected loss minus its minimum after T steps is at most 2 exp(-rho T) times the first one plus L learning_rate^2 v (1 + 2 m / (1 - m)^2) / (rho lambda^2 (1 - m)^2), rho the smaller of learning_rate mu / (2 c (1 - m)) and (1 - m) / 4.", "quantifier": "all finite sets of batches and losses, mixtures of blocks without mixed dense and diagonal factors, estimates, decays >= 0, dampings >= lambda, schedules of updates depending on the drawn batches, momenta in [0, 1), learning rates below the threshold, numbers of steps", "why_tests_cant": "An expectation over all sequences of draws cannot be tested; the velocity mixes the gradients of all earlier batches.", "anchors": ["kfac/python/ops/optimizer.py: KfacOptimizer.apply_gradients", "kfac/python/ops/optimizer.py: KfacOptimizer.compute_gradients", "kfac/python/ops/optimizer.py: KfacOptimizer._update_velocities", "kfac/python/ops/optimizer.py: KfacOptimizer._multiply_preconditioner", "kfac/python/ops/fisher_blocks.py: KroneckerProductFB.multiply_matpower", "kfac/python/ops/estimator.py: FisherEstimator.multiply_inverse"]}
