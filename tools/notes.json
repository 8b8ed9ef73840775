{
 "C01": {
  "note": "Lists of all lengths and shapes. The empty list is rejected by tf.concat, stated as C01_empty_list_rejected."
 },
 "C02": {
  "note": "Weights of any rank whose last dimension is non-zero (tf.reshape with -1 rejects zero); IndexedSlices pass-through not modelled."
 },
 "C03": {
  "note": ""
 },
 "C04": {
  "note": ""
 },
 "C05": {
  "note": "KroneckerProductFB.multiply for all sizes, with/without bias, dense and diagonal factors; full_fisher_block agrees with multiply at zero damping. Exact reals."
 },
 "C06": {
  "note": "Both orders; positive semidefinite statistics, positive dampings and renormalisation; inverses refreshed with the current damping."
 },
 "C07": {
  "note": "Any factor L with L Lᵀ equal to the damped matrix (tf.linalg.cholesky) and inverse solving L X = I."
 },
 "C08": {
  "note": "Both pi rules and 'off', all block kinds (power of num_locations); negative trace rejected by the assert in compute_pi_tracenorm/adjusted."
 },
 "C09": {
  "note": "Any history of covariance/inverse updates with non-empty batches, decays in [0,1] and positive dampings; inverses may be stale. Exact reals; blocks of Kronecker type with dense or diagonal factors."
 },
 "C10": {
  "note": "Weighted mean since the last reset, bounds, constants, undefined before the first update, relation of debiased to undebiased value."
 },
 "C11": {
  "note": "All operation sequences including read_value_and_reset; undefined (0/0) with nothing accumulated."
 },
 "C12": {
  "note": "Equal towers and tower order proved for dense and diagonal covariances. The rejection clause is false: the size check zips sources with towers, so with one source no tower is compared (counterexample); partial theorem says which pairs are checked."
 },
 "C13": {
  "note": "All four loss classes, any batch size and width; positive variance for the Gaussians. Rank-2 inputs."
 },
 "C14": {
  "note": "Discrete losses: finite sum over all target assignments weighted by model probability. Gaussian losses: Bochner integral over the product of the per-coordinate Gaussians, with integrability proved. The score is the derivative (Mathlib deriv) of the modelled loss."
 },
 "C15": {
  "note": "Every in-range index gives the column of B; wrong-length and out-of-range indices are errors."
 },
 "C16": {
  "status": "partial",
  "note": "Holds for the three natural-parameter losses' factor shapes. The mean-variance loss declares a static shape with the batch dimension doubled instead of the width (counterexample), and estimator.py:708 reads an attribute that no loss class defines (counterexample), so exact-GGN estimation fails."
 },
 "C17": {
  "status": "partial",
  "note": "Proved for every list of losses whose inputs are single tensors (all losses that the public registration functions create). The mean-variance loss returns tuples and the product raises (counterexample)."
 },
 "C18": {
  "note": "All step numbers, batch sizes and numbers of thunks (batch size 0 included where meaningful). Integers are unbounded."
 },
 "C19": {
  "note": "All contexts and counts. The external replicator's own map_gather is trusted to evaluate element i on one replica and hand the value to all."
 },
 "C20": {
  "status": "partial",
  "note": "all_sum in every context. all_average divides by the number of replicas in the cross-replica context of a strategy, where a single copy runs and nothing was summed (counterexample); proved in all other contexts."
 },
 "C21": {
  "status": "partial",
  "note": "Proved for device sequences and for none. The documentation also allows iterators; a one-shot iterator makes the second vector transformation return no results (counterexample)."
 },
 "C22": {
  "status": "partial",
  "note": "Proved for factors that report all their inverse variables individually. Fails for models without inverse variables, for recurrent option 1/2 factors (tuples), and leaves replicas inconsistent for the SUA factor (counterexamples)."
 },
 "C23": {
  "note": "Every shuffle outcome; shuffle is modelled as tf.data's bounded buffer with arbitrary choices, names distinct."
 },
 "C24": {
  "note": "Arbitrarily nested key arguments; zip truncation on length mismatch is modelled and shown in an example."
 },
 "C25": {
  "note": "Proved over all histories of insertions and deletions of single-variable keys, by an invariant on the dictionary. Deletion of tuple keys and of tuple components violates the claim (two counterexamples)."
 },
 "C26": {
  "note": "All reachable collections (any sequence of interface calls); the overlap check and reuse rules are stated on the registered groups."
 },
 "C27": {
  "note": "Every rejected layer registration leaves the collection unchanged when the argument lists have equal lengths and sparse inputs come without a bias; three counterexamples for the remaining cases."
 },
 "C28": {
  "note": "Invariant over all later calls. English statement amended: the estimator finalises on first use, not on construction."
 },
 "C29": {
  "note": "Invariant against the list of successful registrations. AUTO_REUSE on a new name raises (counterexample)."
 },
 "C30": {
  "note": "Precedence stated as a relation on the history, with uniqueness; the block in the table is the one for that name."
 },
 "C31": {
  "note": "Characterised for duplicate-free variable lists and histories whose earlier checks passed; two counterexamples for the rest."
 },
 "C32": {
  "note": "Disjointness and persistence of links for all histories; repeating an identical link raises (counterexample)."
 },
 "C33": {
  "note": "Sharing proved for all request sequences over any key type. Names: different prefixes never collide, single-tensor fully-connected factors are characterised, and four kinds of collision are shown."
 },
 "C34": {
  "note": "All programs built from reads, failures, sequencing, with-blocks and try-blocks. Exception exits violate the claim for every raising body (counterexample)."
 },
 "C35": {
  "note": "Proved for the update rule (with the ratio, the bound and the special case of a rise that was not predicted), for zero and NaN predictions, and for runs of any length (C35_run: positivity, lower bound, growth and decay bounds by the number of adaptations). When nothing was predicted the ratio is infinite with the sign of the loss change, so a higher loss lowers the damping (C35_zero_prediction)."
 },
 "C36": {
  "note": "Immediate (chief) and delayed adaptation are proved for all runs with the quantities of the same step, plus the exact number of adaptations. False for workers that are not the chief with immediate adaptation: the predicted change stays NaN for ever (C36_not_chief_counterexample), hence C36_immediate_partial assumes the chief."
 },
 "C37": {
  "note": "Proved for all runs when adaptation is immediate, or delayed with the read of the damping ordered after its assignment (C37_partial); C37_stale shows staleness when intervals do not line up. With delayed adaptation the read is not ordered by any control dependency (tensor created in the constructor, optimizer.py 406), so the claim can fail (C37_race_counterexample)."
 },
 "C38": {
  "note": "Proved for all runs: exact list of covariance updates and exact origin of the inverses used at each step."
 },
 "C39": {
  "note": "Proved for all N and runs."
 },
 "C40": {
  "note": "Proved when cov_ema_decay is passed (C40_explicit_partial: closed form of the statistics over all runs). False for the default value, which is not raised to the update period (C40_default_counterexample, for every period other than 1)."
 },
 "C41": {
  "note": "Proved for the clipped preconditioned vector for all positive definite preconditioners (C41_clip), and for the whole change with 'adam'. With 'regular' only the new part of the change is bounded (C41_regular_partial); the whole change exceeds every bound over a run (C41_regular_counterexample)."
 },
 "C42": {
  "note": "Optimality and the recorded value are proved for all inputs if the previous update is zero or the gradient is not orthogonal to it (C42_*_partial). The code takes the zero-previous-update branch whenever gradient^T prev_update is 0, also for non-zero velocity, where the claim is false (C42_*_counterexample). Weight decay is excluded."
 },
 "C43": {
  "note": "Proved for 'regular' (also with norm constraint) with the damping other than l2 removed as the code does, and for 'adam' without norm constraint with the preconditioner's full curvature (C43_*_partial). With 'adam' and an active norm constraint the formula gives a wrong value (C43_adam_clipped_counterexample). Weight decay is not part of the recorded change."
 },
 "C44": {
  "note": "Proved for all runs, both momentum types, with clipping and weight decay. All variables are one concatenated vector, so the order of variables is not a separate statement; C01 covers the correspondence."
 },
 "C45": {
  "note": "Proved for all n > 0, all momentum types, all runs and the three kinds of replicated context: replicas stay equal and follow the single machine with pooled data. Assumes what the documentation requires (equal per-replica batch sizes) and that stored inverses are the same in all replicas."
 },
 "C46": {
  "note": "Full characterisation. Observations: norm_constraint is accepted with 'adam' although documented for 'regular' only; momentum=None is accepted for 'qmodel_fixedmu'; nothing is validated about adapt_damping (loss_fn, train_batch)."
 },
 "C47": {
  "note": "tf.self_adjoint_eig and tf.linalg.cholesky are parameters satisfying their documentation (Linalg.Good, shown satisfiable). Proved for non-positive clipping threshold (default 0)."
 },
 "C48": {
  "note": "Over every history of covariance and inverse updates; also that the stored channel covariance stays positive semidefinite. One damping id is modelled, the others are independent copies."
 },
 "C49": {
  "note": "False for every kernel with at least two channels and two positions (counterexample for all such sizes); true for one channel or 1x1 kernels, and in channel-major coordinates."
 },
 "C50": {
  "note": "Proved for positive semidefinite symmetrised lag-one statistics after any history (the bound |psi|<1 that keeps gamma finite is proved from the data). False in general: negative temporal correlation loses its sign in posdef_eig."
 },
 "C51": {
  "note": "Reference equality for arbitrary statistics, and the stronger claim that the result solves the two-sided infinite series (convergence proved). Not when the same factor also has option-1 quantities registered (counterexample: leaked symmetrisation)."
 },
 "C63": {
  "note": "Holds without the zero-mean assumption and without bias; with zero mean and bias the bias entry is 0 (counterexample for all data)."
 },
 "C52": {
  "note": "Both readers as sets of TensorFlow operations executed in any order compatible with their dependencies. The cached batch, the value of the previous batch during the read and the alternative reader's distinct rows are proved for every order. Rejection is partial: the storage is not touched, but the assignment of the size does not wait for the size assertion, so a rejected read can change cached_batch (counterexamples for both readers)."
 },
 "C53": {
  "note": "The continuation-passing matcher against a declarative semantics: success iff an assignment exists, soundness, and enumeration, for patterns without names inside negations. Two counterexamples: the list of results is shared by all calls of an all-matches matcher, and a negation containing a name gives order dependent answers."
 },
 "C64": {
  "note": "The reshape and slicing of the time-major tensor give exactly the sum over consecutive steps of one example, divided by T·B."
 },
 "C54": {
  "note": "Matches are records of parameters, tensor sets and data; the graph search that produces them is the subject of C53 and left open here. The surviving groups are characterised exactly, the ambiguity error has an exact condition, and the user's blocks are proved untouched for whole runs of register_layers over any number of towers, whether or not it raises."
 },
 "C55": {
  "note": "For every collection reachable by any calls, every variable list and any matches per tower. The sorting of the groups is an arbitrary permutation."
 },
 "C65": {
  "note": "Dense fully connected layers and 2-d convolutions, single and multi-use, are registered with the right class. Two counterexamples: embeddings used once always raise (the approximation name used does not exist for single-use layers), and for batch normalisation a linked 'diagonal' is replaced by the default of generic layers."
 },
 "C66": {
  "note": "Exact for folded inputs. Counterexample for three-dimensional inputs: the second dimension, the batch size, is taken for the number of uses."
 },
 "C61": {
  "note": "Membership and termination of the loop for any graph (cycles included), use counts for graphs whose relay ops have no cycle (as TensorFlow graphs without loops), filter_list."
 },
 "C62": {
  "note": "Proved for strides with batch and channel entries, no dilation, filter not larger than the image. The dilation is not an argument of the function; strides over spatial dimensions only raise IndexError; a filter larger than the image gives a wrong sign or value."
 },
 "C67": {
  "note": "The subgraph of the collection flattens the inputs and is right; the search passes tuples, so that only losses with a single input are followed and a tuple coming first raises AttributeError."
 },
 "C68": {
  "note": "Two spatial dimensions, arbitrary padding amounts; tf.nn.convolution is external and given by its definition."
 },
 "C56": {
  "note": "Polynomial decay proved in full; exponential decay for nonzero optional arguments, with a counterexample for an explicit 0 and the floor/final behaviour stated separately."
 },
 "C57": {
  "note": "Explicit arguments are kept except the interval pair and the momentum settings of adaptive mode, for which counterexamples hold for every value."
 },
 "C58": {
  "note": "Proved when cov_ema_decay, momentum, loss_fn and batch_size are passed where their defaults matter and losses are names, functions or lists/dictionaries of them; each exception is a counterexample stated for all arguments."
 },
 "C59": {
  "note": "Order, lists and dictionaries for all nestings; positional lists need different names of the trainable layers."
 },
 "C60": {
  "note": "Which layer gets which loss is proved for all nestings with different names; the weights only for outputs that are plain layers."
 },
 "C69": {
  "note": "Equality for lists of predictions with matching lengths and for a single unweighted output; the other cases are counterexamples."
 },
 "C70": {
  "note": "Losses are arbitrary differentiable functions of the layer's outputs. Partial: patch masks are multiplied without reshaping; proved for 1x1 filters, counterexample otherwise."
 },
 "C71": {
  "note": "Partial: a scale that enlarges the inputs is accepted; counterexample. The shift is fully characterised."
 },
 "C72": {
  "note": "Both approximations, with and without shift, and the size of the covariance variable."
 },
 "C73": {
  "note": "The KFC assumptions are stated as equations on the batch means."
 },
 "C74": {
  "note": "Expectation is the average over all permutations."
 },
 "C75": {
  "note": "Also the equality with the dense branch on one-hot rows."
 },
 "C76": {
  "note": "Independence is used through integrals of products."
 },
 "C77": {
  "note": "Exact arithmetic; eigenvalue clipping off (threshold <= 0) for the full block, as in the defaults."
 },
 "C78": {
  "note": "Proved for the block that LayerCollection registers. For DepthwiseConvKFCBasicFB the inverse claim is false in general (counterexample) and proved for factors that do not couple channels."
 },
 "C79": {
  "note": "Full for gradients and empirical. curvature_prop and exact are proved for losses with one input tensor; exact also needs every loss to depend on the tensor and Kronecker-type blocks. The remaining cases are proved to fail (counterexamples)."
 },
 "C80": {
  "note": "The estimator part is proved in full; the replica placement ignores distribute_transformations=False (counterexample)."
 },
 "C81": {
  "note": "Proved for both formats and strategies where towers have equal sizes or are concatenated; single tensors are not concatenated under \"concat\" (counterexample)."
 },
 "C82": {
  "note": "Proved for single and repeated use, with bias."
 },
 "C83": {
  "note": "C83_input_counterexample: the block passes num_uses as sub_sample_inputs, so inputs are always subsampled. C83_input_partial and C83_exact_partial: the claims hold in expectation over the shuffle; C83_input_named: the factor class itself is right when called without that argument."
 },
 "C84": {
  "note": "C84_sparse_partial covers diagonal input and dense output factors (embeddings). C84_unsupported_counterexample: Cholesky multiplications without transpose, dense input factors and diagonal output factors raise. C84_transpose_a_counterexample: transpose_a of matmul_sparse_dense is wrong."
 },
 "C85": {
  "note": "Scheduling, fairness and termination are proved for every interleaving. The default thread count is max(n/2, 10) instead of the documented min, and cov_devices/inv_devices are dropped by the constructor: counterexamples for all inputs."
 },
 "C86": {
  "note": "End to end: the statistics are shown to be the Fréchet derivative of the mean total loss. A tuple of variables makes graph construction fail (counterexample); the curvature_prop mean is restricted to the losses that mode supports (C79)."
 },
 "C87": {
  "note": "Partial: dilated convolutions, lookups along another axis and batched weights are recorded as what they are not (counterexamples). Proved for all other layers, in both directions for affine, scale-and-shift and embedding layers; batch normalisation records are sound."
 },
 "C88": {
  "note": "Proved for activations that are a single operation (or none), exact layer classes, non-zero scales and normalisation over the last axis; the counterexamples show that each restriction is needed."
 },
 "C89": {
  "note": "Categorical losses are proved for softmax activations and for logits; squared error and binary cross entropy in the form n * Keras loss = registered loss (+ constant), hence as stated for one component. The counterexamples show the factor, probabilities from a Softmax layer, and models called twice."
 },
 "C90": {
  "note": "Proved for every registration function where it holds: conv2d (kron, diagonal), conv2d_multi, depthwise and separable for all geometries (number of locations: with padding, or undilated), conv1d unless both strided and dilated, convolution without strides. The counterexamples show the remaining cases fail."
 },
 "C91": {
  "note": "Martens and Grosse (2015), Theorem 1, for whole runs. Feed-forward chains of fully connected layers with one tower; momentum of type 'regular'."
 },
 "C92": {
  "note": "Descent for every history of operations, geometric rate and convergence to the least-squares loss with damping, exact factor (1-lr)^2 without, Newton step at lr = 1."
 },
 "C93": {
  "note": "Hessian = Gauss-Newton + residual term for every C2 model; equality for affine models and stationary losses; multiply_ggn of each loss is its Hessian for all targets."
 },
 "C94": {
  "note": "Refinement of the vector model of Opt/Model.lean by the list and dictionary code: one apply_gradients, one minimize and any number of runs, for all momentum types. Partial because a var_list naming a variable twice is accepted and moves the variable twice (C94_repeated_counterexample); the theorems for minimize assume a list without repetitions and a loss that depends on every registered variable (otherwise C94_unconnected: an AttributeError)."
 },
 "C95": {
  "note": "Proved for lists of equal length. Partial because lists of different lengths are truncated instead of rejected (C95_prefix_counterexample) and empty lists fail (C95_empty_counterexample)."
 },
 "C96": {
  "note": "Dense factors; Kronecker blocks of all kinds that use the base-class multiplications and full blocks. TensorFlow's refusal to create two variables of one name is modelled; eigendecomposition and Cholesky are the documented ones (hypothesis Linalg.Good)."
 },
 "C97": {
  "note": "Proved as long as every two-by-two system is solvable (the `Solvable` hypothesis of each run). Violations: singular system with one scalar parameter, 0/0 at a stationary point."
 },
 "C98": {
  "note": "One layer without activation, momentum 0, one loss with coefficient 1 per example; the covariance batches carry targets that are fixed in advance (any of them, in particular any sampled ones), the output gradients are those of the current weights. Losses of the covariance updates in C98_converges are classification losses since the gradients of a Gaussian loss with fixed targets are not bounded. Every loss of the update is an exact real."
 },
 "C99": {
  "note": "All constants, zero_debias and the safeguard are proved for all sequences of calls. Not true of the code: the two initialisation flags (fixed at import) and optimizers without a replicator after one with a replicator; both have a general counterexample theorem."
 },
 "C100": {
  "note": "Refinement for all clusters, networks, batches and operation sequences. Unequal parts are excluded by the statement (C12 shows that unequal towers do change the statistics)."
 },
 "C101": {
  "note": "Compilation arguments, resumption for optimizers C58 covers without adaptive damping, all-or-nothing weights, rejection of uncompiled models. Four counterexamples: adaptive damping cannot be loaded, custom loss classes are not looked up, the file leaks if Keras raises, the caller's dictionary is changed."
 },
 "C102": {
  "note": "Refinement of the training op to the sequence of operations at the documented times, burn-in, and convergence through C98."
 },
 "C103": {
  "note": "All kinds of Kronecker blocks; eigenbases of both statistics give the preconditioned gradient in closed form. `total` equals the damping for the default NORMALIZE_DAMPING_POWER = 1."
 },
 "C104": {
  "note": "Uses the training model of C91; the derivative along a direction of all parameters is shown to be the sum of the layers' inner products, and the statistics to stay positive semidefinite under every schedule."
 },
 "C105": {
  "note": "Proved: after any program of registrations and other calls, total_loss is the documented sum up to a constant, raises exactly when a target is missing or nothing is registered (the two directions are C105_total and C105_total_raises), and multiply_ggn is the Hessian of the documented sum for the linearised model. Partial: an unnamed loss is accepted if no user-given name equals the generated one; the counterexample shows the refusal otherwise, and that reuse=True without a name does not raise."
 },
 "C106": {
  "note": "Proved for networks of fully connected layers with one use each, a normal predictive distribution of fixed variance and the basic Kronecker-factored block."
 },
 "C107": {
  "note": "Exact reals. Smoothness of the loss (the hypothesis of the usual descent lemma) is asked only on the sublevel set of the first loss; that the iterates stay in it is part of the proof. The constant does not depend on the covariances: the damped factors are at least the damping. The concrete case is a loss that is not globally smooth."
 },
 "C108": {
  "note": "Conditional on solvable two-by-two systems as in C97 (their failure is C97_one_parameter_counterexample). Uses only the model functions of Opt; the curvature matrix is arbitrary."
 },
 "C109": {
  "note": "Shapes only: values are the subject of the other properties. Partial because of the two counterexamples (series blocks with three-dimensional inputs, diagonal convolutions with a mask)."
 },
 "C110": {
  "note": "C110_succeeds and C110_synced hold for all blocks, C110_bounded for every block that is not mixed (one dense and one diagonal factor), the others (partial) for networks without mixed blocks. C110_mixed_counterexample: with a mixed block the loss increases tenfold in one step although all hypotheses hold."
 },
 "C111": {
  "note": "Momentum type \"regular\"; blocks with one dense and one diagonal factor are excluded in the statement, because they break the damping (C110_mixed_counterexample)."
 },
 "C112": {
  "note": "Partial: masks with the default extractor and filters of more than one tap give wrong statistics or fail, and the pointwise extractor needs a known batch size (counterexamples); everything else is proved."
 },
 "C113": {
  "note": "Mixed blocks are excluded in the statement because of C110."
 },
 "C114": {
  "note": "Expected value: the mean over all sequences of drawn batches. The batch of a training step is drawn independently of the statistics in use at that step (updates of a step come after it). No momentum, no norm constraint, no blocks with one dense and one diagonal factor."
 },
 "C115": {
  "note": "Blocks for fully connected layers used several times raise NotImplementedError by design; depthwise convolutions are not covered."
 },
 "C116": {
  "note": "One replica, one source and one tower; C12 reduces the others to it."
 },
 "C117": {
  "note": "Weight decay, which is added after the clipping, is excluded."
 },
 "C118": {
  "note": "Everything but the printing holds in full; a verbosity of 1 prints every epoch although the documentation says only values above 1 do."
 },
 "C119": {
  "note": "Roles and aggregation hold for all clusters; staffing holds for five workers or more. Counterexamples: fewer than five workers never accumulate statistics (the weights never change), and only one worker inverts instead of 20%."
 },
 "C120": {
  "note": "Partial: the schedule fails with a division by zero when the number of examples equals the starting size (counterexample). For all other numbers of examples it is proved equal to the published sizes, rounded down. Floating point is exact."
 },
 "C121": {
  "note": "Partial: proved for the loss of a training mini-batch, and for the evaluation of the trained weights when the regularisers are read after the assignment. Counterexamples: l2_reg = 0 in the classifier, the loss after an update (and its effect on the damping), averaged weights, and Keras models."
 },
 "C122": {
  "note": "Proved by back-propagation through time for one example of the batch with exact numbers."
 },
 "C123": {
  "note": "Partial: the manual loop and the estimator's inverses are proved. With three or more workers the chief worker averages fewer gradients than documented (counterexample)."
 },
 "C124": {
  "note": "Counterexamples: rnn_mnist.py always fails, the TPU examples fail without immediate adaptation. The remaining flag combinations are characterised exactly."
 },
 "C125": {
  "note": "Counterexamples: an uneven last batch and an empty list of devices. Completion is characterised exactly, and equality with training without towers holds whenever a run ends."
 },
 "C126": {
  "note": "Proved without weight decay and norm constraint, for adam while the preconditioner does not change; the exact discrepancy otherwise is in the counterexamples. The printed damping is characterised for both adaptation modes."
 },
 "C127": {
  "note": "Proved for every number as momentum; with None the type is proved equal to qmodel for all inputs. For Keras it is proved which momenta can reach the wrapped optimizer."
 },
 "C128": {
  "note": "Proved: what was asked for is served, the matrix and diagonal blocks need no registration, everything else is an error, creation succeeds if all blocks support what is asked. Counterexamples: Cholesky functions of series blocks raise TypeError after a successful registration, SUA blocks raise TypeError or ValueError at creation, and the optimizer's approximate model change raises NotImplementedError with series blocks."
 },
 "C129": {
  "note": "Partial: for collections whose factors have different scopes (C33 says when) the variables are created without an error, with pairwise different names, and each block finds its own inverses, also for the variables of SUA factors that are created outside the factor's scope. Counterexamples: options 1 and 2 on the same factors both create Lmat; diagonal input factors with and without bias ask for one variable with two shapes; convolution input factors for one and for several uses silently share the covariance variable (AUTO_REUSE). The exponents and the damping are given by their strings; other blocks have one factor and one damping."
 },
 "C130": {
  "note": "Partial because the code does not do it: get_cov_vars lists tensors instead of variables and leaves out total weights and the SUA mean, and get_inv_vars of the SUA factor leaves out three of its four kinds of variables (counterexamples). For all other kinds of factors the listing of inverse variables is proved exact."
 },
 "C131": {
  "note": "Probability: the share of all sequences of drawn batches of the given length. Restrictions as in C114 (batch drawn independently of the statistics in use, no momentum, no norm constraint, no blocks with one dense and one diagonal factor). The example has losses whose gradients have unbounded variance, so that C114 does not apply."
 },
 "C132": {
  "note": "The network is a chain of operations; multiplying by the weights (or convolving) and adding the bias is one operation. The collection is that of C25-C31. Sizes of the layers do not matter for the registration; the numbers of layers of encoder and decoder are arbitrary."
 },
 "C133": {
  "note": "Learning rates as a function of the number of steps: success (also with momentum), weighted sum of expected squared gradients, stationarity under Robbins-Monro rates, O(1/t) under Polyak-Lojasiewicz in expectation, a maximal inequality for all later times (probabilities as shares of the sequences of draws), a bound on how far parameters move (with momentum), and the rates of convnet.py. Convergence theorems without momentum and norm constraint."
 },
 "C134": {
  "note": "Momentum of type regular and mini-batches: success, the sum of the expected squared gradients and the best of the first T steps, with the constants of C114 for momentum zero, and geometric convergence up to a level under the Polyak-Lojasiewicz condition. No norm constraint, constant learning rate."
 }
}