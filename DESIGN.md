# Formal model of tensorflow/kfac in Lean 4 — design

Source modelled: `/repo` (tensorflow/kfac at the pinned commit), read as text. The code is never run.

## 1. Trusted base

* Lean 4.33.0 kernel, and Mathlib as compiled on this machine.
* Axioms: every property theorem depends on at most `propext`, `Classical.choice`, `Quot.sound`.
  No own axioms, no `sorry`/`admit`, no `native_decide`, no `bv_decide`.
* The correspondence between the Lean definitions and the Python code. It is by reading only: each
  definition cites the file and lines it models and says where it simplifies.

### Modelled abstractly / simplifications that apply everywhere

* **Numbers.** Floating point tensors are modelled by exact ordered-field arithmetic (`ℝ`, `ℚ` or a
  generic field). Rounding, overflow and dtype casts are not modelled. NaN is modelled only where
  the property is about it (an uninitialised variable is `none`).
* **TensorFlow.** A TF op is modelled by the mathematical function it documents (`tf.reshape` is
  row-major, `tf.linalg.inv` is the matrix inverse, `tf.self_adjoint_eig` returns an
  orthonormal eigendecomposition, `tf.cond` is `if`). Graph-mode control dependencies are modelled as
  sequential composition in the order the code imposes with `tf.control_dependencies`.
  `tf.data` shuffle is an arbitrary permutation per epoch.
* **Python.** Exceptions are values (`Except`), dictionaries are association lists or functions,
  mutable objects are states threaded through step functions.
* **Not modelled.** Device execution, threads and memory, float rounding, TF1 graph construction
  (names beyond those used as keys), tf.Variable initialisation order, gradient computation itself
  (the Jacobian is an arbitrary linear map), random sampling quality, HDF5/JSON encoding.

## 2. Layout

`lean/Verif/<Area>/Model.lean` — the model, function by function, with citations.
`lean/Verif/<Area>/Lemmas.lean` — helper lemmas (where needed).
`lean/Verif/<Area>/Props.lean` — specifications and the property theorems (`Cnn_*`), each with an
`example` showing that its hypotheses are satisfiable by a concrete non-trivial case.

Where the code violates a property as stated, the negation is proved with a concrete witness
(`Cnn_*_counterexample`) and the strongest true part is named `Cnn_*_partial`; the disagreement is
recorded in section 4.

## 3. Plan per property

| id | what is modelled | how it is proved |
|----|------------------|------------------|
| C01 | tensors as (shape, row-major data); reshape/concat/slice with running offset | round trip by induction on the list |
| C02 | weight as shape+data, matrix as list of rows; reshape [-1,last], concat bias row, slices | round trip both directions |
| C03 | filters as index functions and as row-major data; eye-multiplication and reshapes | index arithmetic; error branch |
| C04 | reshape/broadcast-multiply/reshape on row-major data | entry law by index arithmetic (div/mod) |
| C05 | matrices over a commutative ring, row-major vec | `vec` lemma, entrywise |
| C06 | same with inverse factors from positive definiteness | matrix algebra |
| C07 | Cholesky factors as arbitrary L with L Lᵀ = M | matrix algebra, both flags |
| C08 | the three damping functions over ℝ incl. sqrt and zero case | real arithmetic |
| C09 | compute_cov, EMA state machine over matrices, damped Kronecker block | invariant by induction over update history; PosDef algebra |
| C10 | MovingAverageVariable as state machine | closed form by induction on history |
| C11 | AccumulatorVariable as state machine | invariant over operation lists |
| C12 | _compute_total_new_cov over towers; check_partial_batch_sizes loop | algebra; counterexample for undetected unequal towers |
| C13–C15 | the four losses' closed forms over ℝ with softmax/sigmoid | finite sums |
| C16 | shape lists | equality; counterexamples where code differs |
| C17 | Jacobian as linear map/matrix, losses as matrices with factor | linear algebra |
| C18 | the modular condition | residue counting, induction over steps |
| C19 | per-replica program + cross-replica sum | finite sums |
| C20 | context as inductive type | case analysis; counterexample context |
| C21 | zip with cycle | list induction |
| C22 | per-replica variable states, map_gather, assign back | proof for proper factors; counterexamples |
| C23 | stream of epochs, each a permutation | permutation counting |
| C24, C25 | association lists / set of tensors, operations as steps | invariants by induction |
| C26–C32 | LayerCollection as state machine with Except results | invariants and frame lemmas by induction over histories |
| C33 | factor table as association list; scope-name function on strings | invariant; name-collision witness |
| C34 | context manager as program with exceptions | case analysis over bodies |
| C35–C39 | optimizer as step machine: counter, damping, prev_loss, qmodel_change, cov/inv versions | invariants by induction over runs |
| C40 | kwargs presence | algebra + counterexample for the defaulted argument |
| C41–C44 | vectors in a real inner-product setting (`ι → ℝ`), preconditioner as PD matrix | real analysis, algebra, induction |
| C45 | n replicas with averaged gradient | finite sums |
| C46 | constructor as `Except`-valued function | full decision table |
| C47 | registration sets, path selection, eigendecomposition as hypothesis | matrix algebra |
| C48, C49 | operator matrices on (channel × location) index types | Sherman–Morrison; support argument and witness |
| C50, C51 | the formulas of FullyConnectedSeriesFB / FullyConnectedMultiKF | matrix algebra; geometric sums by induction on T |
| C63 | as C48 | entrywise means over rows |
| C64 | row-major index arithmetic of the time-major tensor | reindexing finite sums |
| C52 | storage array + size as state; operations executed in any order their dependencies allow | invariant over schedules and read sequences |
| C53 | patterns as inductive type, combinators in continuation-passing style | structural induction against a relational semantics |
| C54, C55, C65, C66 | records as (params, tensor set); filters as list functions; registration on the LayerCollection model | list reasoning; sequences of registrations as traces |
| C61, C67 | graph as producer/inputs/outputs/consumers relations; `SubGraph` as the loop on an explicit stack | loop invariant, termination measure; inductive dependence relation |
| C62, C68 | `num_conv_locations` on integers with Python floor division; convolution by its definition over a commutative ring | counting of positions; sums over `Fin` |
| C56 | callbacks as step functions over iteration counter | induction over iterations |
| C57, C58 | keyword dictionaries as partial functions, `__init__`, `get_config`, `_create_optimizer` | case analysis; counterexamples |
| C59, C60 | layer trees, the explicit-stack loop, the registration loop | loop invariant; counterexamples for nested weights and equal names |
| C69 | the closure made by `get_loss_fn`, callables opaque | list algebra; counterexamples |
| C70 | `fcDiagonal`, `convDiagonal` on batches as functions; losses are arbitrary differentiable functions of the layer outputs | uniqueness of derivatives of affine maps; counterexample for masks |
| C71 | `broadcastDims` (Reg) against an independent `Fits` | index arithmetic on the loop over dimensions |
| C72 | `scaleShiftGrads` and the two factors | derivative of the broadcast layer |
| C73 | patch matrices as rows, `computeCov` | sums over the grid of positions; independence assumptions as equations |
| C74 | `randomGather` with an explicit permutation | average over the symmetric group |
| C75 | `sparseDiagonal` against `denseDiagonal` | counting |
| C76 | `naiveFull`, `naiveDiagonal` | independence and integrability (measure theory) |
| C77 | `multiplyMatrix` on single tensors and lists, over the dense factor of C47 and a diagonal one | flattening/unflattening as mutually inverse; C47, C70 |
| C78 | the filter conversions of C03 around `multiplyMatrix`/`multiplyFactored` | entries of the converted filter; 2 × 2 counterexample for the Kronecker version |
| C79 | `gradsGradients`, `gradsEmpirical`, `gradsCurvatureProp`, `gradsExact`, `noMissing` over losses with given row-wise Jacobians (one tower) | closed-form Fisher matrices, `jointLaw` (product measure), average over all sign assignments |
| C80 | `vecsDict`, `computeTransformation` (SequenceDict and placement from C21/C24), `replicaTransformations` | `blockwise`: the block containing the variable, applied to the assignment of vectors |
| C81 | `processSources`, `processUses`, `mergeUses` (both formats), `multiPartialBatchSize`; statistics as in C12 and C64 | data indexed by tower, use and example; `useMean`, `useLag` |
| C82 | `processUses`, `homogCov`, `computeCov` | true gradients (`IsGrad`) of a loss of the outputs of all uses, `batchMean` of their products |
| C83 | `blockInputFactor`, `convInputMulti`, `convOutputMulti`, `multiRenorm`, `processUses` | `meanUses` of what the taps read (`rowReads`), true gradients (`IsGrad`) |
| C84 | `matmulSparseDense`, `matmulDiagSparse`, `LinOp.matmulSparse`, `LinOp.matmulRightSparse`, `multiplyFactoredSparse`, `KBlock.*Sparse` | `densify` of the slices, compared with the dense operations of C05 |
| C85 | `asyncThreads`, `asyncForwarded`, `asyncThunks`, `threadStep`, `asyncStep`, `asyncRun` | `NameOrder`, interleavings as event lists; counts of started, finished and running operations; `documentedThreads` |
| C86 | `evalLosses`, `multiplier`, `totalLoss`, `totalSampledLoss`, `gradTensors`, `splitGrads`, `paramsStats`, `averagedStats` | Fréchet derivative (`IsGrad`) of the total loss as a function of the parameter; expectation over `jointLaw` and over signs |
| C87 | `TFGraph`, `expandInputs`, `reduce`, the patterns `affineP`, `scaleAndShiftP`, `batchNormP`, `fusedBatchNormP`, `embedP`, `record*`, `tryPattern`, `recordsOf` | any assignment of values to tensors that agrees with the operations (`Evaluates`, `OpSem`); `Describes` |
| C88 | `KLayer`, `isInstance`, `getParent`, `preActivation`, `registerNorm`, `registerConv`, `dispatch`, `registerLayer` | `kerasValue`: the functions computed by Keras layers, for any semantics `KSem` of product, convolution and lookup; `Says`: what a registration call claims about tensors |
| C89 | `LossArg`, `normName`, `registerLoss`, `KLayer.output` | `kerasMSE`, `kerasCCE`, `kerasBCE`: the losses as Keras documents them, against the negative log-likelihoods of the registered distributions |
| C90 | `registerConv1d`, `registerConv2d`, `registerConvolution`, `registerDepthwise`, `registerSeparable`, `registerConv2dMulti`, `reuseBlock`, `ConvBlock.reads`, `ConvBlock.numLocations` | the documented arguments of the TensorFlow calls; `positions`; convolution by its definition with any amounts of padding |
| C91 | `Net.covUpdate`, `Net.invUpdate`, `Net.trainStep`, `Net.run` (using `homogCov`'s rows, `computeCov`, `MovAvg`, `setupDamping`, `KBlock.multiplyInverse`) | `Corresponds` (inputs, pre-activations and activations of the two networks correspond), `Net.eval` |
| C92 | `Net.covExact`, `exactSources` (using `NormalMean.oneHot`), `Net.regStep`, `Net.regRun` (using `Net.invUpdate`, `Net.trainStep`) | `meanLoss`, `IsLeast` over all linear models, `Spans` (second moments of the inputs bounded below), powers of the contraction factor |
| C93 | `multiplyHessian`, `fnMultiplyGGN` (using `multiplyGGN`, `evaluate` of the losses) | derivatives (`fderiv`, `deriv`) of the evaluated losses and of the model |
| C94 | `minimizeL`, `computeGradients`, `applyGradientsL`, `rawUpdateStepsL`, `updateVelocities`, `computeQmodelL` and the rest of `Opt/Lists.lean` (using `computeTransformation` of C80) | the vector model of `Opt/Model.lean` on the registered part of the state (`restrict`, `vectorIn`), `Lists`, `Described` |
| C95 | `sumP`, `ipP`, `checkMatch`, `assertVariablesMatch` | `SameVars`, finite sums |
| C96 | estimator with blocks referring to shared factor objects; ids of damping functions as lists of atoms; variable names | registrations as a list of calls, projection to one factor, ids determine values, C47 and C08 |
| C97 | `applyGradients`, `trace`, `updateDamping` (no new definitions) | `Quadratic` (Taylor identity of the loss), `GoodRun`; induction over the run |
| C98 | `exampleLoss`, `Upkeep`, `Net.fit` (using `Net.run`, `Head.evaluate`) | `meanHead`, `curvature`, `meanSquare`, `IsGLB` over all linear models, `Tendsto`; convexity and smoothness of the losses from C93, induction over the rounds |
| C99 | `Verif/Global/Model.lean`, `Global/PropsGlobal.lean`: the constants as a record, the modules' state changed by a list of calls; `latest` (last value given) is the specification, proved field by field; closed form of the average for `zero_debias`; zero inverses freeze a network of any depth | module state is one record; the replicator is an opaque value |
| C100 | `Verif/Train/Cluster.lean`, `Train/PropsCluster.lean`: every replica has its own copy of all variables; refinement to the single-machine network of `Train/Model.lean` by induction over the network and the operations; any bijection between the examples of the cluster and of the one machine | losses differentiable at the weights where steps are taken (`C100_smooth`: differentiable activations and losses); no placement of inverses on single replicas (C22) |
| C101 | keras/saving_utils.py | Keras/Saving, PropsSaving | `tf.nest.map_structure` walks dictionaries and lists; Keras reading the architecture and `compile` external; `set_weights` = equality of the list of shapes; `losses.get` knows a given set of classes |
| C102 | periodic_inv_cov_update_kfac_opt.py | Train/Periodic, PropsPeriodic | the whole of `minimize` for chains of fully connected layers, without adaptive damping (for that see C36-C38); the covariances are taken on the batch of the run |
| C103 | fisher_blocks.py, fisher_factors.py | Damping/Model, PropsDamping | one inverse update and one multiplication as a function of the damping; `total` is the damping times the factor by which the code's normalisation changes it (1 for fully connected layers and for NORMALIZE_DAMPING_POWER = 1) |
| C104 | optimizer.py, fisher_blocks.py, fisher_factors.py | Train/Model, PropsDeep | networks of fully connected layers of any depth; `Net.Tangent`, `Net.move` and `batchLoss` are the specification: directions in the space of all parameters |
| C105 | layer_collection.py, loss_functions.py, curvature_matrix_vector_products.py | Loss/Register, PropsRegister | the registration functions of losses, run in programs with other calls; `LossFn.documented` (the losses named in the docstrings) and `documentedTotal` are the specification; the graph's name generation is any function giving an unused name |
| C106 | estimator.py, fisher_blocks.py, fisher_factors.py, loss_functions.py | Train/Modes, PropsLinear | the three estimation modes run on whole networks (`Net.covUpdateBy`, with the model of C79 for the loss as each layer sees it); `decayedLoss`, `IsAffine`, `Net.comp` are the specification |
| C107 | optimizer.py, fisher_blocks.py, fisher_factors.py | Train/Model, PropsSum | networks of fully connected layers of any depth; `Net.Alike`, `SmoothBelow` and `Trajectory` are the specification: smoothness of the loss is asked only below its first value and only as far as the loss stays there |
| C108 | optimizer.py | Opt/Model, PropsSmooth | `SmoothLoss`: every loss looked at is `f`, below parabolas of curvature L; nothing about the curvature matrix; `SmoothRun`: a run with solvable systems |
| C109 | fisher_blocks.py, fisher_factors.py, utils.py | Shape/Model, PropsX, PropsNoticed | shapes of all tensors of a block through registration, update and multiplication, TensorFlow's shape rules as `Except` |
| C110 | fisher_blocks.py, fisher_factors.py, estimator.py, optimizer.py | Mix/Model, PropsMix | parameters of a block as one vector; estimates of the covariances are arbitrary (their formulas are C09, C70, C72, C76); `Trajectory`, `SmoothBelow`, `Op.Fits`, `Op.Moderate` are the specification; one replica |
| C111 | optimizer.py, fisher_blocks.py, fisher_factors.py, estimator.py | Mix/Model, PropsMomentum | the model of C110; `Run` collects the hypotheses, `Lipschitz` is the specification of the loss; mixed blocks are excluded because of C110; the proof uses the energy of `energyAt`, which is no part of the statements |
| C112 | fisher_factors.py, utils.py | Grad/Extract, PropsExtract | patches as dense tensors with shapes, so that broadcasting the mask is modelled as TensorFlow does it; `tf.nn.convolution` and `tf.extract_image_patches` are external; geometry is given (C90 derives it from registrations); no subsampling (see C73) |
| C113 | optimizer.py, fisher_blocks.py, fisher_factors.py, estimator.py | Mix/Model, PropsRate | the model of C110; `Plain` collects the hypotheses, `Steep` is the Polyak-Łojasiewicz condition, convexity is Mathlib's `ConvexOn`, `trainings` counts training steps |
| C114 | optimizer.py, estimator.py, fisher_blocks.py, fisher_factors.py | Mix/Model, PropsStochastic | expectation is the mean over all sequences of draws; the batch of a step is drawn independently of the statistics used in that step |
| C115 | estimator.py 320-359, fisher_blocks.py 304-311, 393-400, 884-901 | Block/Model, Full, PropsSampling | covariance of samples, on any probability space |
| C116 | fisher_factors.py 219-240, 585-601, utils.py 1296-1320 | Stats/Model, PropsConsistent | one replica and tower (C12 reduces the others to it) |
| C117 | optimizer.py 783-857, 1175-1197 | Opt/Model, PropsTrust | specification `SolvesTrustRegion` |
| C118 | callbacks.py 27-68 | Keras/Decay, Fit, PropsFit | the loop of `model.fit` is trusted |
| C119 | examples/convnet.py 318-349, 485-541 | Examples/Workers, PropsWorkers | a round of the inverse queue is one operation; networks of Train/Model |
| C120 | examples/autoencoder_mnist.py, classifier_mnist.py, rnn_mnist.py | Examples/Schedule, PropsSchedule | floats exact |
| C121 | examples/classifier_mnist.py, autoencoder_mnist.py, optimizer.py | Examples/Loss, PropsLoss | a regulariser of a Sonnet variable has one value per run; all regularisers of the evaluation model are read early or all late |
| C122 | examples/rnn_mnist.py | Examples/Rnn, PropsRnn | one example of the batch; tensors are perturbed to state derivatives by them |
| C123 | examples/convnet.py | Examples/Loops, PropsLoops | fully connected networks as in Train; the chief worker's aggregation only counts gradients |
| C124 | examples/*_mnist*.py, optimizer.py | Examples/TrainOp, PropsTrainOp | both branches of every tf.cond are built, as in TF 1 graphs; the estimator is assumed to be created |
| C125 | examples/convnet.py, mnist.py | Examples/Towers, PropsTowers | shuffling is a permutation done beforehand; what is averaged is any vector per example and the update any function of the average |
| C126 | ops/optimizer.py | Opt/Report, PropsReport | the loss tensor that is printed is the one the gradients were computed from, evaluated before the update |
| C127 | ops/optimizer.py, keras/optimizers.py | Opt/Report, PropsReport; Keras/PropsFixedMu | None as a factor of a tensor raises TypeError |
| C128 | ops/fisher_blocks.py, fisher_factors.py, estimator.py | Block/Support, PropsSupport | registrations and look-ups only, values are in Factor/Dense, Shared, Sua and Rnn; a call that does not fit the signature of a method raises TypeError; names of variables are in C129 |
| C129 | ops/fisher_factors.py, fisher_blocks.py, estimator.py, utils.py | Reg/Vars, PropsVars | names relative to the scope of the estimator; an element of a damping identifier is its string; powers and Cholesky factors that SUA factors refuse are in C128; `tf.get_variable` fails for an existing name unless reuse is allowed and the shapes agree |
| C130 | ops/estimator.py, fisher_factors.py, utils.py | Reg/Listing, PropsListing (with Reg/Vars, Stats/Model) | dictionaries are lists of keys and variables in the order of insertion; a listed thing is a variable, a tuple of variables or the tensor of a moving average |
| C131 | optimizer.py, estimator.py, fisher_blocks.py, fisher_factors.py | Mix/Model, PropsInterpolation (with PropsStochastic) | as C114; probabilities are shares of all sequences of draws |
| C132 | examples/autoencoder_mnist.py, examples/convnet.py, layer_collection.py | Examples/Manual, PropsManual (with Reg/Model) | a layer with its bias is one operation with one input; regularizers, loss values and accuracy are left out; uses of variables are counted below the logits |
| C133 | optimizer.py, estimator.py, fisher_blocks.py, convnet.py | Mix/Model, PropsSchedule (with PropsStochastic) | as C114; the value of the learning rate tensor in step t is a function of t; tf.train.exponential_decay with staircase as documented, read with the number of completed steps |
| C134 | optimizer.py, estimator.py, fisher_blocks.py, fisher_factors.py | Mix/Model, PropsDrawnMomentum (with PropsStochastic, PropsMomentum, PropsSchedule) | as C114 |

Nothing in the list is considered inexpressible; what is left out of each model is said next to the
definitions and in MANIFEST.json notes.

## 4. Disagreements between code and stated property

Each entry is a theorem named `Cnn_*_counterexample` unless noted otherwise.

- C12: the consistency check of batch sizes zips sources with towers instead of taking all pairs.
- C16: `NormalMeanVarianceNegativeLogProbLoss` reports a static inner shape that is not the one of its
  factors, and estimator.py:708 reads an attribute `fisher_ggn_inner_static_shape` that does not exist.
- C17: curvature products with tuple inputs raise `AttributeError` for `NormalMeanVariance`.
- C20: `all_average` outside a replica context still divides by the number of replicas.
- C21: one-shot iterators passed as device lists are exhausted after the first round.
- C22: `zip(*())` raises if all factors are diagonal; `get_inv_vars` of the recurrent factors contains tuples;
  the SUA factor leaves out its extra inverse variables.
- C25: deleting a tuple key raises `KeyError` after partial changes; deleting a component of a tuple frees it.
- C27: separable convolutions, multi-use registrations with different lengths, and sparse inputs with a bias are
  not atomic.
- C28: (note) a failed check leaves the collection finalised.
- C29: `AUTO_REUSE` is truthy and therefore does not register new losses.
- C30: (note, `C30_reuse_keeps_first`) reuse with another approximation of the same class is accepted silently.
- C31: repeated variables hide missing ones; a failed check registers what it looked at.
- C32: repeating an identical link raises.
- C33: variable scopes are not distinct (bias flag of `DiagonalKroneckerFactor`, multi-use convolution factors,
  `/` versus `_`).
- C34: an exception in `with lc.as_default()` leaves the default set for good.
- C35: (note, `C35_zero_prediction`) with a predicted change of zero a higher loss lowers the damping.
- C36: immediate adaptation on a worker that is not the chief never has a predicted change.
- C37: with delayed adaptation nothing orders the read of the damping for the inverses after its adaptation.
- C40: the default `cov_ema_decay` is not raised to `cov_update_every`.
- C41: with momentum type regular the velocity is not clipped.
- C42: a non-zero previous update orthogonal to the gradient is treated as zero.
- C43: adam with a norm constraint records a wrong predicted change.
- C46: (note) `norm_constraint` is accepted with adam contrary to the documentation; `momentum=None` is accepted
  with qmodel_fixedmu; the needs of `adapt_damping` are not validated.
- C49: the SUA operator indexes its rows channel-major while the parameter matrix is location-major, so weights of
  different filter positions are correlated whenever there are two channels and two positions.
- C50: `posdef_eig` takes absolute eigenvalues of the normalised lag-one covariance, which is not positive
  semidefinite in general.
- C51: a factor that has option-1 quantities registered uses the symmetrised lag-one covariance for option 2 too.
- C63: in the zero-mean mode the bias entry is 0 instead of 1.
- C52: the assignment of the cached size does not depend on the size assertion, so a rejected read may change
  `cached_batch`.
- C53: `matcher` collects all matches in one list per compiled pattern, so a second call also returns the first call's
  matches; a name inside a negation makes the answer depend on the order of the conjuncts.
- C65: an embedding used once is registered with the approximation `kron_indep_in_diag`, which only multi-use layers
  have, and so raises; batch normalisation with a linked `diagonal` gets the default generic approximation.
- C66: with inputs `[num_uses, batch_size, input_size]` the search passes `batch_size` as the number of uses.
- C62: `num_conv_locations` ignores dilations, raises on strides along the spatial dimensions only (as documented), and
  gives a product of two negative numbers for a filter larger than the image.
- C67: `register_layers` builds the subgraph from `loss.inputs` without flattening, so that losses with several inputs
  are not followed (or raise).
- C56: an explicit `final_value=0` or `decay_rate=0` of the exponential decay is taken for a missing argument.
- C57: passing only one of `invert_every` and `damping_adaptation_interval` with adaptive damping overwrites it; adaptive
  mode overwrites a momentum instead of raising, and turns on adaptive damping that was turned off.
- C58: a restored optimizer raises the default `cov_ema_decay` to `cov_update_every`, has no generated loss function and
  no inferred batch size; restoring raises for instances of loss classes and for the momentum types `qmodel...` without a
  momentum.
- C59: two layers of the same name in different nested models both get the approximation listed for the second.
- C60: the weight of an output that is a nested model, or whose name is not that of the last layer, is ignored; the user's
  dictionary of losses is modified for nested models.
- C69: the weight of a single output is ignored, a dictionary with a single output and a serialised loss class raise, and
  missing weights drop losses.
- C70: `ConvDiagonalFactor` multiplies the `[kh, kw, c]` mask with `[batch, oh, ow, kh * kw * c]` patches without the reshape
  that `ConvInputKroneckerFactor` does: it raises, or (where the sizes happen to broadcast) masks output positions.
- C71: a scale that is larger than the inputs is not rejected; its statistics do not fit the covariance variable.
- C78: `DepthwiseConvKFCBasicFB.multiply_inverse` is not the inverse of `multiply` when a factor couples two channels: each
  converts back to a depthwise filter and drops the entries between channels. (`LayerCollection` only builds the diagonal
  block for depthwise layers.)
- C79: `exact_GGN` fails for every model (it reads `fisher_ggn_inner_static_shape`, which no loss has); `curvature_prop` and
  `exact` fail with a mean-variance Gaussian (`value.dtype` of a tuple); `exact` rejects tensors that only some of the losses
  depend on (it takes gradients of one loss at a time, and `None` gradients raise); `exact` with `register_generic` blocks
  adds the gradients of the examples before squaring (the one-hot vectors are replicated over the batch).
- C80: `ReplicaRoundRobinPlacementMixin` stores `distribute_transformations` but never reads it; transformations are always
  distributed.
- C81: under TOWER_STRATEGY "concat" data given as single tensors is not concatenated over the towers (nor is an unknown strategy
  rejected), so towers of unequal sizes are weighted equally, unlike the same data given as lists.
- C83: `ConvKFCBasicMultiIndepFB` passes `num_uses` in the position of `sub_sample_inputs` of `ConvInputMultiKF`, so the inputs are
  randomly subsampled (to a fifth) whatever the settings say.
- C84: the Cholesky multiplications of sparse vectors with transpose=False always raise (an assertion in `_matmul_right_sparse`), and
  all multiplications raise for dense input or diagonal output factors; `matmul_sparse_dense` with transpose_a transposes the
  values of the slices but keeps the indices.
- C85: without an explicit number `AsyncInvCovUpdateKfacOpt` starts at least ten threads (`max` where the documentation says capped);
  `cov_devices` and `inv_devices` are accepted (indeed required) but not passed on, so nothing is placed on them.
- C86: `compute_params_stats` with a tuple of variables (documented for `var_list` of `KfacOptimizer`) raises a TypeError
  (`list + tuple`).
C87: `record_affine_from_bindings` (graph_search.py 71-158) does not read the dilations of a convolution, so a dilated convolution is registered as a plain one (`C87_dilation_counterexample`); the axis of a `GatherV2` is matched but not inspected, so a lookup of columns is registered as an embedding (`C87_axis_counterexample`); a `BatchMatMulV2` whose weights have rank 3, one matrix for every element of the batch, is registered as a fully connected layer (`C87_weights_rank_counterexample`).
- C88: with an activation made of several operations (for instance `swish`) `get_parent` registers an intermediate result as the output (`C88_composite_counterexample`); a layer without parameters whose last operation has two inputs is rejected (`C88_passed_counterexample`); subclasses of `Conv2D` such as `Conv2DTranspose` and `DepthwiseConv2D` are registered as plain convolutions (`C88_subclass_counterexample`); a channel with scale exactly zero makes the recovered inputs undefined (`C88_zero_scale_counterexample`); normalisation over an axis other than the last is registered wrongly (`C88_axis_counterexample`); with the learning phase given as the number 0 the test `!= False` fails, and an extra use is registered (`C88_phase_counterexample`).
- C89: Keras averages squared errors and binary cross entropies over the components as well as the batch, the registered losses do not, so they are larger by the number of components (`C89_mse_counterexample`, `C89_binary_counterexample`); probabilities made by a `Softmax` layer, or a linear output trained with the default `from_logits=False`, are registered as logits (`C89_softmax_layer_counterexample`); for a model that was called again the squared error is registered for the output of the first call (`layer.output`; here Keras is taken to return the first node, other versions raise an error) while the layers are registered for the last (`C89_output_counterexample`).
- C90: `register_conv2d` with "kron_sua" drops the strides, so the number of locations is wrong (`C90_sua_counterexample`); dilated filters without padding get a wrong number of locations (`C90_dilation_counterexample`); `register_convolution` with strides along the spatial dimensions, as documented, fails when the number of locations is computed (`C90_convolution_counterexample`); a strided and dilated `conv1d`, which TensorFlow supports, fails in `tf.nn.convolution`, which does not support both (`C90_conv1d_counterexample`); registering a layer again with `reuse` keeps the geometry of the first registration without an error (`C90_reuse_counterexample`).
- C94: `check_var_list` compares sets, so a list that names a variable twice is accepted and moves it twice (`C94_repeated_counterexample`). A registered variable on which the loss does not depend makes `compute_gradients` fail with an AttributeError (`C94_unconnected`), where TF optimizers skip the variable. `compute_gradients()` takes all trainable variables instead of the registered ones (`C94_default_gradients`).
- C95: the comparison zips the lists, so a list that continues where the other one ends is accepted and the rest ignored (`C95_prefix_counterexample`); empty lists fail although they match (`C95_empty_counterexample`).
- C97: with one scalar parameter, velocity and preconditioned gradient are always parallel and the determinant divided by in `_two_by_two_solve` is zero from the second run on (`C97_one_parameter_counterexample`); at a stationary point alpha is 0/0 (`C97_stationary_counterexample`). The positive theorems assume the system solvable (`Solvable`).
- **C99**: `set_global_constants(init_covariances_at_zero=False)` and `(init_inverses_at_zero=False)` have no effect: the initializers are chosen from the flags while fisher_factors.py is being imported (192-208) and never again (`C99_initial_counterexample`, for every program). And since None means "leave unchanged", an optimizer constructed with `tf_replicator=None` after one with a replicator runs with the other's replicator (`C99_replicator_counterexample`).
- C101: `load_model` cannot load a model whose optimizer adapts the damping once its weights are in the file (`_make_train_function` runs before a train batch can be registered, and the train batch is not in the config: `C101_adaptive_counterexample`); a loss of a user's own class cannot be restored even if it is passed in `custom_objects` (`tf.keras.losses.get` at saving_utils.py 50 is not given them: `C101_custom_loss_counterexample`); the file stays open if `tf.keras.models.load_model` raises, as that call is before the `try` (`C101_leak_counterexample`); the caller's non-empty `custom_objects` dictionary is modified (`C101_caller_counterexample`).
- **C105** (names of losses): a name given by the user is used as the key but never made known to the graph, so a later registration without a name can generate the same one: with `reuse=False` it is refused with KeyError although no name was given. `reuse=True` without a name is documented to raise ValueError; the name is generated first, so the check never fires, and the loss is added as a further minibatch of the loss that happens to have the generated name, or KeyError is raised.
- C109: the series blocks ("kron_series_1", "kron_series_2") with the documented inputs of shape `[num_uses, batch_size, input_size]`: `FullyConnectedMultiKF._vec_shape` (fisher_factors.py 2629-2632) takes the second dimension, here the batch size, for the size of the input, and the assignment of the eigenvalues fails unless the two agree (`C109_series_counterexample`).
- C109: `ConvDiagonalFB` with a mask multiplies patches by a mask of another rank and the update fails (`C109_conv2d_diagonal_counterexample`; compare C70).
- C110: in blocks with one dense and one diagonal factor ("kron_in_diag", "kron_out_diag") the two halves of the preconditioner belong to different times: a diagonal factor uses its covariance, the damping and pi of the moment of the multiplication (fisher_factors.py 1034-1041, fisher_blocks.py 782-797, 876-883), a dense factor the inverse stored by the last inverse update. The product of the two dampings is then not the damping: with the default decay and damping 1, one covariance update between the inverse update and the training step can make the step 4.5 times as long as the damping allows and increase a quadratic loss tenfold at a safe learning rate (`C110_mixed_counterexample`). The default schedules (`PeriodicInvCovUpdateKfacOpt`: covariances every step, inverses every tenth) run in this regime. Right after an inverse update the bound holds for all blocks (`C110_synced`), and at all times for all other blocks (`C110_bounded`, `C110_descends_partial`, `C110_vanishes_partial`, `C110_stationary_partial`).
- C112: `ConvInputKroneckerFactor` multiplies the mask, reshaped to one dimension, with the patches "due to broadcasting" (fisher_factors.py 1908-1911). The default extractor returns patches of shape `[.., kh, kw, c]`, so for more than one tap the update fails if there are several channels (`C112_fails_counterexample`), and with one channel the product is silently an outer product whose second moments are all the same number (`C112_silent_counterexample`). `register_conv2d` passes masks only together with "extract_image_patches", so this concerns blocks built directly. The pointwise extractor passes the static batch size to `tf.reshape` and fails if it is unknown (utils.py 900-905, `C112_unknown_counterexample`); the default extractor uses -1.
- C118: the documentation of `verbose` says "When > 1, the hyperparameter value is printed every epoch", but `on_epoch_begin` tests `verbose > 0` (callbacks.py 37-38, 55): a verbosity of 1 prints as well.
- C119: with fewer than five workers `_is_cov_update_task` holds for nobody, with fewer than three neither does `_is_inv_update_task` (examples/convnet.py 318-336): the inverses stay zero and the weights never change, or an inverse of 0/0 is taken (`C119_small_counterexample`). The documentation says that the last 20% of the workers invert; it is always exactly one (`C119_shares_counterexample`).
- C120: with exactly as many examples as the starting size (1000) the batch size schedule divides by log(1) = 0 (ZeroDivisionError).
- C121: classifier_mnist.py with --l2_reg=0 makes no regularisers and fails in tf.add_n([]); with update_damping_immediately the loss after the update has the regulariser of the old weights, so the reduction ratio misses the change of the regulariser and the damping can be increased where it should be decreased; the evaluation of the averaged weights uses the regulariser of other weights; the Keras autoencoder's regulariser (l times the sum of squares) is twice the one the optimizer is told of. The two graph claims rest on TF 1 semantics read from its source conventions (regulariser tensors are created once with the variable), not on a run.
- C123: distributed_grads_only_and_ops_chief_worker lets all workers compute gradients and documents that all are averaged, but replicas_to_aggregate is _num_gradient_tasks, which is smaller than the number of workers from three workers on.
- C124: rnn_mnist.py never gets a train op. It passes prev_train_batch but neither train_batch nor update_damping_immediately, whose defaults are None and True, so _get_current_loss calls loss_fn(None), which indexes None.
- C124: the TPU examples pass prev_train_batch=None; with --noupdate_damping_immediately and adapted damping they call loss_fn(None) and fail while building the graph.
- C125: train_mnist_multitower splits every batch evenly, and load_mnist_as_iterator keeps the smaller last batch, so a run fails at its last batch unless the number of devices divides the number of examples. Without devices it prepares one tower and fails to index the devices. It also returns None, although the accuracy is documented (read from the text, not stated as a theorem).
- C126: the printed learning rate is not the one in effect when the norm constraint clips, weight decay is not shown, for the type adam the relation fails whenever the preconditioner has changed, and with immediate adaptation the damping printed by a run that adapts it is the one of the next run.
- C127: `qmodel_fixedmu` with momentum=None is accepted and behaves exactly like `qmodel` (optimizer.py 1265-1268); `regular` and `adam` with momentum=None are accepted and fail in the first call of apply_gradients. The Keras optimizer refuses every momentum other than None and 0 for `qmodel_fixedmu` (keras/optimizers.py 86-90), so that the only fixed momenta it can have are 0 and, if none is passed, the default 0.9; for `qmodel` without adaptive mode, leaving the momentum out passes this check and then fails in the constructor of the wrapped optimizer.
- C128: `FullyConnectedSeriesFB.multiply_cholesky` and `multiply_cholesky_inverse` (fisher_blocks.py 1836-1842) lack the parameter `transpose` that the estimator passes (estimator.py 333, 358), so TypeError is raised instead of NotImplementedError; the registration of these functions is inherited and succeeds. `register_cholesky` and `register_cholesky_inverse` of SUA factors (fisher_factors.py 2396-2402) lack the parameter `damping_func`, so an estimator made for Cholesky factors raises TypeError when it is created; other powers raise ValueError. Series blocks cannot be multiplied by the matrix itself (fisher_blocks.py 1725-1728), so with regular momentum and adapt_damping the optimizer raises NotImplementedError (optimizer.py 1121-1122) for every network that has one.
- C129: both options of the recurrent approximation call a variable `Lmat_damp…` (fisher_factors.py 2685 and 2710, where `Pmat` was meant), so two layers with the same factors of which one uses option 1 and the other option 2 cannot be used (`C129_options_counterexample`). The scope of a diagonal Kronecker factor leaves out the bias (C33), so two layers with the same inputs registered with `kron_in_diag`, one with and one without a bias, ask for one covariance variable with two shapes, and an exception is raised (`C129_diagonal_counterexample`). Moving averages are created with `AUTO_REUSE` (utils.py 1273), so two factors of the same scope and shape silently share one covariance that both update (`C129_shared_counterexample`). The positive theorems assume different scopes that do not contain `_cov_ff` (the word that separates the names in a damping string).
- C130: `get_cov_vars` returns the tensors `factor.cov` (fisher_factors.py 617-622), not variables, so nothing can be assigned to them (`C130_covariances_counterexample`). The total weights are missing, and with `ZERO_DEBIAS`, the default, equal estimates with different total weights move apart at the next update (`C130_weight_counterexample`). The mean of the SUA factor is in no list either. `get_inv_vars` of the SUA factor (2064-2067) leaves out the damping variable and the two variables of the rank one correction, which the inverse update assigns (`C130_sua_counterexample`); for what this does on several replicas see C22. Proved: for all other factors the listing of inverses is exact (`C130_inverses_partial`), and without `ZERO_DEBIAS` the estimates determine all later ones (`C130_unnormalised`).
