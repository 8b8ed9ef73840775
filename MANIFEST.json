{
 "claims": [
  {
   "property": "C01",
   "status": "proved",
   "theorems": [
    "Kfac.Params.C01_unpack_pack",
    "Kfac.Params.C01_pack_unpack",
    "Kfac.Params.C01_short_column_rejected",
    "Kfac.Params.C01_single",
    "Kfac.Params.C01_empty_list_rejected",
    "Kfac.Params.C01_surplus_ignored"
   ],
   "note": "Lists of all lengths and shapes. The empty list is rejected by tf.concat, stated as C01_empty_list_rejected."
  },
  {
   "property": "C02",
   "status": "proved",
   "theorems": [
    "Kfac.Params.C02_weight_roundtrip",
    "Kfac.Params.C02_weight_bias_roundtrip",
    "Kfac.Params.C02_matrix_roundtrip",
    "Kfac.Params.C02_matrix_roundtrip_nobias",
    "Kfac.Params.C02_bias_mismatch_rejected",
    "Kfac.Params.C02_scalar_rejected"
   ],
   "note": "Weights of any rank whose last dimension is non-zero (tf.reshape with -1 rejects zero); IndexedSlices pass-through not modelled."
  },
  {
   "property": "C03",
   "status": "proved",
   "theorems": [
    "Kfac.Params.C03_conv_entries",
    "Kfac.Params.C03_roundtrip",
    "Kfac.Params.C03_rejects_indivisible",
    "Kfac.Params.C03_rejects_no_channels"
   ],
   "note": ""
  },
  {
   "property": "C04",
   "status": "proved",
   "theorems": [
    "Kfac.Params.C04_kronecker_entries",
    "Kfac.Params.C04_indices_cover"
   ],
   "note": ""
  },
  {
   "property": "C05",
   "status": "proved",
   "theorems": [
    "Kfac.Block.C05_factored",
    "Kfac.Block.C05_multiply",
    "Kfac.Block.C05_full_fisher_block"
   ],
   "note": "KroneckerProductFB.multiply for all sizes, with/without bias, dense and diagonal factors; full_fisher_block agrees with multiply at zero damping. Exact reals."
  },
  {
   "property": "C06",
   "status": "proved",
   "theorems": [
    "Kfac.Block.C06_inverse"
   ],
   "note": "Both orders; positive semidefinite statistics, positive dampings and renormalisation; inverses refreshed with the current damping."
  },
  {
   "property": "C07",
   "status": "proved",
   "theorems": [
    "Kfac.Block.C07_cholesky_factors",
    "Kfac.Block.C07_cholesky_inverse"
   ],
   "note": "Any factor L with L L\u1d40 equal to the damped matrix (tf.linalg.cholesky) and inverse solving L X = I."
  },
  {
   "property": "C08",
   "status": "proved",
   "theorems": [
    "Kfac.Block.C08_split",
    "Kfac.Block.C08_total_damping",
    "Kfac.Block.C08_off",
    "Kfac.Block.C08_negative_trace_rejected"
   ],
   "note": "Both pi rules and 'off', all block kinds (power of num_locations); negative trace rejected by the assert in compute_pi_tracenorm/adjusted."
  },
  {
   "property": "C09",
   "status": "proved",
   "theorems": [
    "Kfac.Stats.C09_covariance_psd",
    "Kfac.Stats.C09_diagonal_nonneg",
    "Kfac.Stats.C09_descent"
   ],
   "note": "Any history of covariance/inverse updates with non-empty batches, decays in [0,1] and positive dampings; inverses may be stale. Exact reals; blocks of Kronecker type with dense or diagonal factors."
  },
  {
   "property": "C10",
   "status": "proved",
   "theorems": [
    "Kfac.Stats.C10_weighted_mean",
    "Kfac.Stats.C10_between",
    "Kfac.Stats.C10_constant",
    "Kfac.Stats.C10_undefined",
    "Kfac.Stats.C10_debias_factor"
   ],
   "note": "Weighted mean since the last reset, bounds, constants, undefined before the first update, relation of debiased to undebiased value."
  },
  {
   "property": "C11",
   "status": "proved",
   "theorems": [
    "Kfac.Stats.C11_mean",
    "Kfac.Stats.C11_read_and_reset"
   ],
   "note": "All operation sequences including read_value_and_reset; undefined (0/0) with nothing accumulated."
  },
  {
   "property": "C12",
   "status": "partial",
   "theorems": [
    "Kfac.Stats.C12_equal_towers",
    "Kfac.Stats.C12_tower_order",
    "Kfac.Stats.C12_concat_strategy",
    "Kfac.Stats.C12_diagonal_pairs_rejected_partial",
    "Kfac.Stats.C12_unequal_towers_accepted_counterexample"
   ],
   "note": "Equal towers and tower order proved for dense and diagonal covariances. The rejection clause is false: the size check zips sources with towers, so with one source no tower is compared (counterexample); partial theorem says which pairs are checked."
  },
  {
   "property": "C13",
   "status": "proved",
   "theorems": [
    "Kfac.Loss.C13_normal_mean",
    "Kfac.Loss.C13_normal_mean_variance",
    "Kfac.Loss.C13_categorical",
    "Kfac.Loss.C13_multi_bernoulli"
   ],
   "note": "All four loss classes, any batch size and width; positive variance for the Gaussians. Rank-2 inputs."
  },
  {
   "property": "C14",
   "status": "proved",
   "theorems": [
    "Kfac.Loss.C14_normal_mean",
    "Kfac.Loss.C14_normal_mean_variance",
    "Kfac.Loss.C14_categorical",
    "Kfac.Loss.C14_multi_bernoulli",
    "Kfac.Loss.C14_score_mean_zero"
   ],
   "note": "Discrete losses: finite sum over all target assignments weighted by model probability. Gaussian losses: Bochner integral over the product of the per-coordinate Gaussians, with integrability proved. The score is the derivative (Mathlib deriv) of the modelled loss."
  },
  {
   "property": "C15",
   "status": "proved",
   "theorems": [
    "Kfac.Loss.C15_normal_mean",
    "Kfac.Loss.C15_normal_mean_variance",
    "Kfac.Loss.C15_categorical",
    "Kfac.Loss.C15_multi_bernoulli",
    "Kfac.Loss.C15_wrong_length_rejected",
    "Kfac.Loss.C15_out_of_range_rejected"
   ],
   "note": "Every in-range index gives the column of B; wrong-length and out-of-range indices are errors."
  },
  {
   "property": "C16",
   "status": "partial",
   "theorems": [
    "Kfac.Loss.C16_mean_variance_counterexample",
    "Kfac.Loss.C16_static_shape_partial",
    "Kfac.Loss.C16_exact_coordinates_partial",
    "Kfac.Loss.C16_ggn_exact_counterexample"
   ],
   "note": "Holds for the three natural-parameter losses' factor shapes. The mean-variance loss declares a static shape with the batch dimension doubled instead of the width (counterexample), and estimator.py:708 reads an attribute that no loss class defines (counterexample), so exact-GGN estimation fails."
  },
  {
   "property": "C17",
   "status": "partial",
   "theorems": [
    "Kfac.Loss.C17_products_partial",
    "Kfac.Loss.C17_tuple_inputs_counterexample",
    "Kfac.Loss.C17_inner_products"
   ],
   "note": "Proved for every list of losses whose inputs are single tensors (all losses that the public registration functions create). The mean-variance loss returns tuples and the product raises (counterexample)."
  },
  {
   "property": "C18",
   "status": "proved",
   "theorems": [
    "Kfac.Exec.C18_count_per_step",
    "Kfac.Exec.C18_fair",
    "Kfac.Exec.C18_no_starvation"
   ],
   "note": "All step numbers, batch sizes and numbers of thunks (batch size 0 included where meaningful). Integers are unbounded."
  },
  {
   "property": "C19",
   "status": "proved",
   "theorems": [
    "Kfac.Exec.C19_results",
    "Kfac.Exec.C19_single_evaluation"
   ],
   "note": "All contexts and counts. The external replicator's own map_gather is trusted to evaluate element i on one replica and hand the value to all."
  },
  {
   "property": "C20",
   "status": "partial",
   "theorems": [
    "Kfac.Exec.C20_all_sum",
    "Kfac.Exec.C20_all_average_partial",
    "Kfac.Exec.C20_average_cross_replica_counterexample",
    "Kfac.Exec.C20_unreplicated"
   ],
   "note": "all_sum in every context. all_average divides by the number of replicas in the cross-replica context of a strategy, where a single copy runs and nothing was summed (counterexample); proved in all other contexts."
  },
  {
   "property": "C21",
   "status": "partial",
   "theorems": [
    "Kfac.Exec.C21_thunks",
    "Kfac.Exec.C21_unpinned",
    "Kfac.Exec.C21_transformations",
    "Kfac.Exec.C21_iterator_counterexample"
   ],
   "note": "Proved for device sequences and for none. The documentation also allows iterators; a one-shot iterator makes the second vector transformation return no results (counterexample)."
  },
  {
   "property": "C22",
   "status": "partial",
   "theorems": [
    "Kfac.Exec.C22_constructor",
    "Kfac.Exec.C22_same_inverses_partial",
    "Kfac.Exec.C22_which_factors",
    "Kfac.Exec.C22_no_inverse_variables_counterexample",
    "Kfac.Exec.C22_option_tuples_counterexample",
    "Kfac.Exec.C22_sua_counterexample"
   ],
   "note": "Proved for factors that report all their inverse variables individually. Fails for models without inverse variables, for recurrent option 1/2 factors (tuples), and leaves replicas inconsistent for the SUA factor (counterexamples)."
  },
  {
   "property": "C23",
   "status": "proved",
   "theorems": [
    "Kfac.Exec.C23_permutation",
    "Kfac.Exec.C23_recurrence",
    "Kfac.Exec.C23_count"
   ],
   "note": "Every shuffle outcome; shuffle is modelled as tf.data's bounded buffer with arbitrary choices, names distinct."
  },
  {
   "property": "C24",
   "status": "proved",
   "theorems": [
    "Kfac.Exec.C24_read_sequence",
    "Kfac.Exec.C24_write_read",
    "Kfac.Exec.C24_flat"
   ],
   "note": "Arbitrarily nested key arguments; zip truncation on length mismatch is modelled and shown in an example."
  },
  {
   "property": "C25",
   "status": "partial",
   "theorems": [
    "Kfac.Reg.C25_one_key_per_variable_partial",
    "Kfac.Reg.C25_insert_partial",
    "Kfac.Reg.C25_delete_partial",
    "Kfac.Reg.C25_tuple_delete_counterexample",
    "Kfac.Reg.C25_component_delete_counterexample"
   ],
   "note": "Proved over all histories of insertions and deletions of single-variable keys, by an invariant on the dictionary. Deletion of tuple keys and of tuple components violates the claim (two counterexamples)."
  },
  {
   "property": "C26",
   "status": "proved",
   "theorems": [
    "Kfac.Reg.C26_one_block_per_variable",
    "Kfac.Reg.C26_overlap_rejected",
    "Kfac.Reg.C26_reuse"
   ],
   "note": "All reachable collections (any sequence of interface calls); the overlap check and reuse rules are stated on the registered groups."
  },
  {
   "property": "C27",
   "status": "partial",
   "theorems": [
    "Kfac.Reg.C27_unchanged_partial",
    "Kfac.Reg.C27_rejections",
    "Kfac.Reg.C27_malformed",
    "Kfac.Reg.C27_separable_counterexample",
    "Kfac.Reg.C27_lengths_counterexample",
    "Kfac.Reg.C27_sparse_bias_counterexample"
   ],
   "note": "Every rejected layer registration leaves the collection unchanged when the argument lists have equal lengths and sparse inputs come without a bias; three counterexamples for the remaining cases."
  },
  {
   "property": "C28",
   "status": "proved",
   "theorems": [
    "Kfac.Reg.C28_frozen",
    "Kfac.Reg.C28_finalize",
    "Kfac.Reg.C28_estimator"
   ],
   "note": "Invariant over all later calls. English statement amended: the estimator finalises on first use, not on construction."
  },
  {
   "property": "C29",
   "status": "partial",
   "theorems": [
    "Kfac.Reg.C29_towers",
    "Kfac.Reg.C29_outcome_partial",
    "Kfac.Reg.C29_auto_reuse_counterexample"
   ],
   "note": "Invariant against the list of successful registrations. AUTO_REUSE on a new name raises (counterexample)."
  },
  {
   "property": "C30",
   "status": "proved",
   "theorems": [
    "Kfac.Reg.C30_defaults_supported",
    "Kfac.Reg.C30_precedence",
    "Kfac.Reg.C30_initial",
    "Kfac.Reg.C30_fixed_types",
    "Kfac.Reg.C30_reuse_keeps_first"
   ],
   "note": "Precedence stated as a relation on the history, with uniqueness; the block in the table is the one for that name."
  },
  {
   "property": "C31",
   "status": "partial",
   "theorems": [
    "Kfac.Reg.C31_check_partial",
    "Kfac.Reg.C31_pass_unchanged",
    "Kfac.Reg.C31_repeated_variable_counterexample",
    "Kfac.Reg.C31_failed_check_counterexample"
   ],
   "note": "Characterised for duplicate-free variable lists and histories whose earlier checks passed; two counterexamples for the rest."
  },
  {
   "property": "C32",
   "status": "partial",
   "theorems": [
    "Kfac.Reg.C32_disjoint",
    "Kfac.Reg.C32_outcome_partial",
    "Kfac.Reg.C32_repeat_counterexample"
   ],
   "note": "Disjointness and persistence of links for all histories; repeating an identical link raises (counterexample)."
  },
  {
   "property": "C33",
   "status": "partial",
   "theorems": [
    "Kfac.Reg.C33_sharing",
    "Kfac.Reg.C33_class_partial",
    "Kfac.Reg.C33_scale_shift_partial",
    "Kfac.Reg.C33_fc_names_partial",
    "Kfac.Reg.C33_names_counterexample"
   ],
   "note": "Sharing proved for all request sequences over any key type. Names: different prefixes never collide, single-tensor fully-connected factors are characterised, and four kinds of collision are shown."
  },
  {
   "property": "C34",
   "status": "partial",
   "theorems": [
    "Kfac.Reg.C34_restored_partial",
    "Kfac.Reg.C34_exception_counterexample"
   ],
   "note": "All programs built from reads, failures, sequencing, with-blocks and try-blocks. Exception exits violate the claim for every raising body (counterexample)."
  },
  {
   "property": "C35",
   "status": "proved",
   "theorems": [
    "Kfac.Opt.C35_rule",
    "Kfac.Opt.C35_zero_prediction",
    "Kfac.Opt.C35_nan",
    "Kfac.Opt.C35_run"
   ],
   "note": "Proved for the update rule (with the ratio, the bound and the special case of a rise that was not predicted), for zero and NaN predictions, and for runs of any length (C35_run: positivity, lower bound, growth and decay bounds by the number of adaptations). When nothing was predicted the ratio is infinite with the sign of the loss change, so a higher loss lowers the damping (C35_zero_prediction)."
  },
  {
   "property": "C36",
   "status": "partial",
   "theorems": [
    "Kfac.Opt.C36_immediate_partial",
    "Kfac.Opt.C36_delayed",
    "Kfac.Opt.C36_constant",
    "Kfac.Opt.C36_count",
    "Kfac.Opt.C36_not_chief_counterexample"
   ],
   "note": "Immediate (chief) and delayed adaptation are proved for all runs with the quantities of the same step, plus the exact number of adaptations. False for workers that are not the chief with immediate adaptation: the predicted change stays NaN for ever (C36_not_chief_counterexample), hence C36_immediate_partial assumes the chief."
  },
  {
   "property": "C37",
   "status": "partial",
   "theorems": [
    "Kfac.Opt.C37_partial",
    "Kfac.Opt.C37_stale",
    "Kfac.Opt.C37_race_counterexample"
   ],
   "note": "Proved for all runs when adaptation is immediate, or delayed with the read of the damping ordered after its assignment (C37_partial); C37_stale shows staleness when intervals do not line up. With delayed adaptation the read is not ordered by any control dependency (tensor created in the constructor, optimizer.py 406), so the claim can fail (C37_race_counterexample)."
  },
  {
   "property": "C38",
   "status": "proved",
   "theorems": [
    "Kfac.Opt.C38_schedule"
   ],
   "note": "Proved for all runs: exact list of covariance updates and exact origin of the inverses used at each step."
  },
  {
   "property": "C39",
   "status": "proved",
   "theorems": [
    "Kfac.Opt.C39_burnin"
   ],
   "note": "Proved for all N and runs."
  },
  {
   "property": "C40",
   "status": "partial",
   "theorems": [
    "Kfac.Opt.C40_explicit_partial",
    "Kfac.Opt.C40_default_counterexample"
   ],
   "note": "Proved when cov_ema_decay is passed (C40_explicit_partial: closed form of the statistics over all runs). False for the default value, which is not raised to the update period (C40_default_counterexample, for every period other than 1)."
  },
  {
   "property": "C41",
   "status": "partial",
   "theorems": [
    "Kfac.Opt.C41_clip",
    "Kfac.Opt.C41_adam",
    "Kfac.Opt.C41_regular_partial",
    "Kfac.Opt.C41_regular_counterexample"
   ],
   "note": "Proved for the clipped preconditioned vector for all positive definite preconditioners (C41_clip), and for the whole change with 'adam'. With 'regular' only the new part of the change is bounded (C41_regular_partial); the whole change exceeds every bound over a run (C41_regular_counterexample)."
  },
  {
   "property": "C42",
   "status": "partial",
   "theorems": [
    "Kfac.Opt.C42_qmodel_partial",
    "Kfac.Opt.C42_fixedmu_partial",
    "Kfac.Opt.C42_qmodel_counterexample",
    "Kfac.Opt.C42_fixedmu_counterexample"
   ],
   "note": "Optimality and the recorded value are proved for all inputs if the previous update is zero or the gradient is not orthogonal to it (C42_*_partial). The code takes the zero-previous-update branch whenever gradient^T prev_update is 0, also for non-zero velocity, where the claim is false (C42_*_counterexample). Weight decay is excluded."
  },
  {
   "property": "C43",
   "status": "partial",
   "theorems": [
    "Kfac.Opt.C43_regular_partial",
    "Kfac.Opt.C43_adam_partial",
    "Kfac.Opt.C43_adam_clipped_counterexample"
   ],
   "note": "Proved for 'regular' (also with norm constraint) with the damping other than l2 removed as the code does, and for 'adam' without norm constraint with the preconditioner's full curvature (C43_*_partial). With 'adam' and an active norm constraint the formula gives a wrong value (C43_adam_clipped_counterexample). Weight decay is not part of the recorded change."
  },
  {
   "property": "C44",
   "status": "proved",
   "theorems": [
    "Kfac.Opt.C44_regular",
    "Kfac.Opt.C44_adam"
   ],
   "note": "Proved for all runs, both momentum types, with clipping and weight decay. All variables are one concatenated vector, so the order of variables is not a separate statement; C01 covers the correspondence."
  },
  {
   "property": "C45",
   "status": "proved",
   "theorems": [
    "Kfac.Opt.C45_step",
    "Kfac.Opt.C45_run",
    "Kfac.Opt.C45_change"
   ],
   "note": "Proved for all n > 0, all momentum types, all runs and the three kinds of replicated context: replicas stay equal and follow the single machine with pooled data. Assumes what the documentation requires (equal per-replica batch sizes) and that stored inverses are the same in all replicas."
  },
  {
   "property": "C46",
   "status": "proved",
   "theorems": [
    "Kfac.Opt.C46_accepts"
   ],
   "note": "Full characterisation. Observations: norm_constraint is accepted with 'adam' although documented for 'regular' only; momentum=None is accepted for 'qmodel_fixedmu'; nothing is validated about adapt_damping (loss_fn, train_batch)."
  },
  {
   "property": "C47",
   "status": "proved",
   "theorems": [
    "Kfac.Factor.C47_power",
    "Kfac.Factor.C47_agree",
    "Kfac.Factor.C47_unregistered",
    "Kfac.Factor.C47_choice"
   ],
   "note": "tf.self_adjoint_eig and tf.linalg.cholesky are parameters satisfying their documentation (Linalg.Good, shown satisfiable). Proved for non-positive clipping threshold (default 0)."
  },
  {
   "property": "C48",
   "status": "proved",
   "theorems": [
    "Kfac.Factor.C48_inverse",
    "Kfac.Factor.C48_cov_psd"
   ],
   "note": "Over every history of covariance and inverse updates; also that the stored channel covariance stays positive semidefinite. One damping id is modelled, the others are independent copies."
  },
  {
   "property": "C49",
   "status": "partial",
   "theorems": [
    "Kfac.Factor.C49_separate_taps_partial",
    "Kfac.Factor.C49_channel_major_partial",
    "Kfac.Factor.C49_mixed_taps_counterexample"
   ],
   "note": "False for every kernel with at least two channels and two positions (counterexample for all such sizes); true for one channel or 1x1 kernels, and in channel-major coordinates."
  },
  {
   "property": "C50",
   "status": "partial",
   "theorems": [
    "Kfac.Factor.C50_option1_partial",
    "Kfac.Factor.C50_negative_counterexample"
   ],
   "note": "Proved for positive semidefinite symmetrised lag-one statistics after any history (the bound |psi|<1 that keeps gamma finite is proved from the data). False in general: negative temporal correlation loses its sign in posdef_eig."
  },
  {
   "property": "C51",
   "status": "partial",
   "theorems": [
    "Kfac.Factor.C51_reference_partial",
    "Kfac.Factor.C51_inverts_partial",
    "Kfac.Factor.C51_leak_counterexample"
   ],
   "note": "Reference equality for arbitrary statistics, and the stronger claim that the result solves the two-sided infinite series (convergence proved). Not when the same factor also has option-1 quantities registered (counterexample: leaked symmetrisation)."
  },
  {
   "property": "C52",
   "status": "partial",
   "theorems": [
    "Kfac.Reader.C52_cached",
    "Kfac.Reader.C52_previous",
    "Kfac.Reader.C52_reject_partial",
    "Kfac.Reader.C52_reject_counterexample",
    "Kfac.Reader.C52_alt",
    "Kfac.Reader.C52_alt_previous",
    "Kfac.Reader.C52_alt_reject_partial",
    "Kfac.Reader.C52_alt_reject_counterexample"
   ],
   "note": "Both readers as sets of TensorFlow operations executed in any order compatible with their dependencies. The cached batch, the value of the previous batch during the read and the alternative reader's distinct rows are proved for every order. Rejection is partial: the storage is not touched, but the assignment of the size does not wait for the size assertion, so a rejected read can change cached_batch (counterexamples for both readers)."
  },
  {
   "property": "C53",
   "status": "partial",
   "theorems": [
    "Kfac.Match.C53_iff_partial",
    "Kfac.Match.C53_sound_partial",
    "Kfac.Match.C53_all_partial",
    "Kfac.Match.C53_all_calls_counterexample",
    "Kfac.Match.C53_negation_counterexample"
   ],
   "note": "The continuation-passing matcher against a declarative semantics: success iff an assignment exists, soundness, and enumeration, for patterns without names inside negations. Two counterexamples: the list of results is shared by all calls of an all-matches matcher, and a negation containing a name gives order dependent answers."
  },
  {
   "property": "C54",
   "status": "proved",
   "theorems": [
    "Kfac.Auto.C54_groups",
    "Kfac.Auto.C54_ambiguous",
    "Kfac.Auto.C54_user_blocks"
   ],
   "note": "Matches are records of parameters, tensor sets and data; the graph search that produces them is the subject of C53 and left open here. The surviving groups are characterised exactly, the ambiguity error has an exact condition, and the user's blocks are proved untouched for whole runs of register_layers over any number of towers, whether or not it raises."
  },
  {
   "property": "C55",
   "status": "proved",
   "theorems": [
    "Kfac.Auto.C55_covered",
    "Kfac.Auto.C55_nothing_else"
   ],
   "note": "For every collection reachable by any calls, every variable list and any matches per tower. The sorting of the groups is an arbitrary permutation."
  },
  {
   "property": "C56",
   "status": "partial",
   "theorems": [
    "Kfac.Keras.Decay.C56_polynomial",
    "Kfac.Keras.Decay.C56_exponential_accepted_partial",
    "Kfac.Keras.Decay.C56_zero_counterexample",
    "Kfac.Keras.Decay.C56_exponential_steps",
    "Kfac.Keras.Decay.C56_exponential_floor",
    "Kfac.Keras.Decay.C56_exponential_final"
   ],
   "note": "Polynomial decay proved in full; exponential decay for nonzero optional arguments, with a counterexample for an explicit 0 and the floor/final behaviour stated separately."
  },
  {
   "property": "C57",
   "status": "partial",
   "theorems": [
    "Kfac.Keras.C57_kept_partial",
    "Kfac.Keras.C57_filled",
    "Kfac.Keras.C57_learning_rate",
    "Kfac.Keras.C57_interval_counterexample",
    "Kfac.Keras.C57_momentum_counterexample"
   ],
   "note": "Explicit arguments are kept except the interval pair and the momentum settings of adaptive mode, for which counterexamples hold for every value."
  },
  {
   "property": "C58",
   "status": "partial",
   "theorems": [
    "Kfac.Keras.C58_restored_partial",
    "Kfac.Keras.C58_current",
    "Kfac.Keras.C58_cov_ema_decay_counterexample",
    "Kfac.Keras.C58_loss_fn_counterexample",
    "Kfac.Keras.C58_batch_size_counterexample",
    "Kfac.Keras.C58_class_loss_counterexample",
    "Kfac.Keras.C58_fixed_momentum_counterexample"
   ],
   "note": "Proved when cov_ema_decay, momentum, loss_fn and batch_size are passed where their defaults matter and losses are names, functions or lists/dictionaries of them; each exception is a counterexample stated for all arguments."
  },
  {
   "property": "C59",
   "status": "partial",
   "theorems": [
    "Kfac.Keras.Layers.C59_order",
    "Kfac.Keras.Layers.C59_list_partial",
    "Kfac.Keras.Layers.C59_list_length",
    "Kfac.Keras.Layers.C59_dict",
    "Kfac.Keras.Layers.C59_dict_unknown",
    "Kfac.Keras.Layers.C59_same_name_counterexample"
   ],
   "note": "Order, lists and dictionaries for all nestings; positional lists need different names of the trainable layers."
  },
  {
   "property": "C60",
   "status": "partial",
   "theorems": [
    "Kfac.Keras.Layers.C60_losses",
    "Kfac.Keras.Layers.C60_once",
    "Kfac.Keras.Layers.C60_weights_partial",
    "Kfac.Keras.Layers.C60_dict_kept_partial",
    "Kfac.Keras.Layers.C60_nested_counterexample",
    "Kfac.Keras.Layers.C60_single_counterexample"
   ],
   "note": "Which layer gets which loss is proved for all nestings with different names; the weights only for outputs that are plain layers."
  },
  {
   "property": "C61",
   "status": "proved",
   "theorems": [
    "Kfac.SubGraph.C61_members",
    "Kfac.SubGraph.C61_uses",
    "Kfac.SubGraph.C61_filter"
   ],
   "note": "Membership and termination of the loop for any graph (cycles included), use counts for graphs whose relay ops have no cycle (as TensorFlow graphs without loops), filter_list."
  },
  {
   "property": "C62",
   "status": "partial",
   "theorems": [
    "Kfac.Conv.C62_locations_partial",
    "Kfac.Conv.C62_dilation_counterexample",
    "Kfac.Conv.C62_spatial_strides_counterexample",
    "Kfac.Conv.C62_large_filter_counterexample"
   ],
   "note": "Proved for strides with batch and channel entries, no dilation, filter not larger than the image. The dilation is not an argument of the function; strides over spatial dimensions only raise IndexError; a filter larger than the image gives a wrong sign or value."
  },
  {
   "property": "C63",
   "status": "partial",
   "theorems": [
    "Kfac.Factor.C63_first_update",
    "Kfac.Factor.C63_zero_mean_partial",
    "Kfac.Factor.C63_zero_mean_bias_counterexample"
   ],
   "note": "Holds without the zero-mean assumption and without bias; with zero mean and bias the bias entry is 0 (counterexample for all data)."
  },
  {
   "property": "C64",
   "status": "proved",
   "theorems": [
    "Kfac.Factor.C64_lag_statistic"
   ],
   "note": "The reshape and slicing of the time-major tensor give exactly the sum over consecutive steps of one example, divided by T\u00b7B."
  },
  {
   "property": "C65",
   "status": "partial",
   "theorems": [
    "Kfac.Auto.C65_registered_partial",
    "Kfac.Auto.C65_embedding_counterexample",
    "Kfac.Auto.C65_batch_norm_counterexample"
   ],
   "note": "Dense fully connected layers and 2-d convolutions, single and multi-use, are registered with the right class. Two counterexamples: embeddings used once always raise (the approximation name used does not exist for single-use layers), and for batch normalisation a linked 'diagonal' is replaced by the default of generic layers."
  },
  {
   "property": "C66",
   "status": "partial",
   "theorems": [
    "Kfac.Auto.C66_num_uses_partial",
    "Kfac.Auto.C66_separate_counterexample"
   ],
   "note": "Exact for folded inputs. Counterexample for three-dimensional inputs: the second dimension, the batch size, is taken for the number of uses."
  },
  {
   "property": "C67",
   "status": "partial",
   "theorems": [
    "Kfac.SubGraph.C67_collection",
    "Kfac.SubGraph.C67_search_partial",
    "Kfac.SubGraph.C67_search_counterexample"
   ],
   "note": "The subgraph of the collection flattens the inputs and is right; the search passes tuples, so that only losses with a single input are followed and a tuple coming first raises AttributeError."
  },
  {
   "property": "C68",
   "status": "proved",
   "theorems": [
    "Kfac.Conv.C68_patches",
    "Kfac.Conv.C68_product",
    "Kfac.Conv.C68_strides"
   ],
   "note": "Two spatial dimensions, arbitrary padding amounts; tf.nn.convolution is external and given by its definition."
  },
  {
   "property": "C69",
   "status": "partial",
   "theorems": [
    "Kfac.Keras.LossFn.C69_many_partial",
    "Kfac.Keras.LossFn.C69_single_partial",
    "Kfac.Keras.LossFn.C69_single_weight_counterexample",
    "Kfac.Keras.LossFn.C69_single_dict_counterexample",
    "Kfac.Keras.LossFn.C69_short_weights_counterexample",
    "Kfac.Keras.LossFn.C69_class_counterexample"
   ],
   "note": "Equality for lists of predictions with matching lengths and for a single unweighted output; the other cases are counterexamples."
  },
  {
   "property": "C70",
   "status": "partial",
   "theorems": [
    "Kfac.Grad.C70_fully_connected",
    "Kfac.Grad.C70_convolution",
    "Kfac.Grad.C70_mask_partial",
    "Kfac.Grad.C70_mask_counterexample"
   ],
   "note": "Losses are arbitrary differentiable functions of the layer's outputs. Partial: patch masks are multiplied without reshaping; proved for 1x1 filters, counterexample otherwise."
  },
  {
   "property": "C71",
   "status": "partial",
   "theorems": [
    "Kfac.Auto.C71_unknown_dimensions",
    "Kfac.Grad.C71_shift_accepted",
    "Kfac.Grad.C71_shift_dims",
    "Kfac.Grad.C71_scale_partial",
    "Kfac.Grad.C71_scale_counterexample",
    "Kfac.Grad.C71_registration"
   ],
   "note": "Partial: a scale that enlarges the inputs is accepted; counterexample. The shift is fully characterised."
  },
  {
   "property": "C72",
   "status": "proved",
   "theorems": [
    "Kfac.Grad.C72_scale_and_shift",
    "Kfac.Grad.C72_scale_only",
    "Kfac.Grad.C72_size"
   ],
   "note": "Both approximations, with and without shift, and the size of the covariance variable."
  },
  {
   "property": "C73",
   "status": "proved",
   "theorems": [
    "Kfac.Grad.C73_input_taps",
    "Kfac.Grad.C73_input_bias",
    "Kfac.Grad.C73_bias_bias",
    "Kfac.Grad.C73_output",
    "Kfac.Grad.C73_exact"
   ],
   "note": "The KFC assumptions are stated as equations on the batch means."
  },
  {
   "property": "C74",
   "status": "proved",
   "theorems": [
    "Kfac.Grad.C74_sample",
    "Kfac.Grad.C74_gather",
    "Kfac.Grad.C74_patches",
    "Kfac.Grad.C74_all_patches",
    "Kfac.Grad.C74_inputs",
    "Kfac.Grad.C74_both"
   ],
   "note": "Expectation is the average over all permutations."
  },
  {
   "property": "C75",
   "status": "proved",
   "theorems": [
    "Kfac.Grad.C75_dense",
    "Kfac.Grad.C75_frequency",
    "Kfac.Grad.C75_exact",
    "Kfac.Grad.C75_diagonal"
   ],
   "note": "Also the equality with the dense branch on one-hot rows."
  },
  {
   "property": "C76",
   "status": "proved",
   "theorems": [
    "Kfac.Grad.C76_full",
    "Kfac.Grad.C76_diagonal"
   ],
   "note": "Independence is used through integrals of products."
  },
  {
   "property": "C77",
   "status": "proved",
   "theorems": [
    "Kfac.Block.C77_full_power",
    "Kfac.Block.C77_full_cholesky",
    "Kfac.Block.C77_diagonal_power",
    "Kfac.Block.C77_diagonal_cholesky",
    "Kfac.Block.C77_diagonal_damping",
    "Kfac.Block.C77_fully_connected",
    "Kfac.Block.C77_convolution"
   ],
   "note": "Exact arithmetic; eigenvalue clipping off (threshold <= 0) for the full block, as in the defaults."
  },
  {
   "property": "C78",
   "status": "partial",
   "theorems": [
    "Kfac.Block.C78_diagonal",
    "Kfac.Block.C78_inverse",
    "Kfac.Block.C78_kfc_multiply",
    "Kfac.Block.C78_kfc_inverse_partial",
    "Kfac.Block.C78_kfc_counterexample"
   ],
   "note": "Proved for the block that LayerCollection registers. For DepthwiseConvKFCBasicFB the inverse claim is false in general (counterexample) and proved for factors that do not couple channels."
  },
  {
   "property": "C79",
   "status": "partial",
   "theorems": [
    "Kfac.Est.C79_gradients",
    "Kfac.Est.C79_curvature_prop_partial",
    "Kfac.Est.C79_exact_partial",
    "Kfac.Est.C79_empirical",
    "Kfac.Est.C79_unused_tensor_rejected",
    "Kfac.Est.C79_exact_ggn_counterexample",
    "Kfac.Est.C79_mean_variance_counterexample",
    "Kfac.Est.C79_exact_two_heads_counterexample",
    "Kfac.Est.C79_exact_naive_counterexample"
   ],
   "note": "Full for gradients and empirical. curvature_prop and exact are proved for losses with one input tensor; exact also needs every loss to depend on the tensor and Kronecker-type blocks. The remaining cases are proved to fail (counterexamples)."
  },
  {
   "property": "C80",
   "status": "partial",
   "theorems": [
    "Kfac.Est.C80_blockwise",
    "Kfac.Est.C80_order",
    "Kfac.Est.C80_inverse",
    "Kfac.Est.C80_missing_vector",
    "Kfac.Est.C80_unregistered_variable",
    "Kfac.Est.C80_wrong_structure",
    "Kfac.Est.C80_distribute_counterexample"
   ],
   "note": "The estimator part is proved in full; the replica placement ignores distribute_transformations=False (counterexample)."
  },
  {
   "property": "C81",
   "status": "partial",
   "theorems": [
    "Kfac.Factor.C81_statistics_partial",
    "Kfac.Factor.C81_wrong_num_uses",
    "Kfac.Factor.C81_lengths_differ",
    "Kfac.Factor.C81_inconsistent_towers",
    "Kfac.Factor.C81_unknown_num_uses",
    "Kfac.Factor.C81_concat_tensors_counterexample"
   ],
   "note": "Proved for both formats and strategies where towers have equal sizes or are concatenated; single tensors are not concatenated under \"concat\" (counterexample)."
  },
  {
   "property": "C82",
   "status": "proved",
   "theorems": [
    "Kfac.Grad.C82_factors_data",
    "Kfac.Grad.C82_exact",
    "Kfac.Grad.C82_single_use",
    "Kfac.Grad.C82_single_example"
   ],
   "note": "Proved for single and repeated use, with bias."
  },
  {
   "property": "C83",
   "status": "partial",
   "theorems": [
    "Kfac.Grad.C83_factors_data",
    "Kfac.Grad.C83_output",
    "Kfac.Grad.C83_input_partial",
    "Kfac.Grad.C83_input_named",
    "Kfac.Grad.C83_exact_partial",
    "Kfac.Grad.C83_input_counterexample"
   ],
   "note": "C83_input_counterexample: the block passes num_uses as sub_sample_inputs, so inputs are always subsampled. C83_input_partial and C83_exact_partial: the claims hold in expectation over the shuffle; C83_input_named: the factor class itself is right when called without that argument."
  },
  {
   "property": "C84",
   "status": "partial",
   "theorems": [
    "Kfac.Block.C84_sparse_dense",
    "Kfac.Block.C84_diag_sparse",
    "Kfac.Block.C84_out_of_range",
    "Kfac.Block.C84_sparse_partial",
    "Kfac.Block.C84_unsupported_counterexample",
    "Kfac.Block.C84_transpose_a_counterexample"
   ],
   "note": "C84_sparse_partial covers diagonal input and dense output factors (embeddings). C84_unsupported_counterexample: Cholesky multiplications without transpose, dense input factors and diagonal output factors raise. C84_transpose_a_counterexample: transpose_a of matmul_sparse_dense is wrong."
  },
  {
   "property": "C85",
   "status": "partial",
   "theorems": [
    "Kfac.Exec.C85_order_exists",
    "Kfac.Exec.C85_order",
    "Kfac.Exec.C85_fair",
    "Kfac.Exec.C85_in_flight",
    "Kfac.Exec.C85_alive",
    "Kfac.Exec.C85_stop_starts",
    "Kfac.Exec.C85_stop_joins",
    "Kfac.Exec.C85_threads_partial",
    "Kfac.Exec.C85_threads_counterexample",
    "Kfac.Exec.C85_devices_counterexample"
   ],
   "note": "Scheduling, fairness and termination are proved for every interleaving. The default thread count is max(n/2, 10) instead of the documented min, and cov_devices/inv_devices are dropped by the constructor: counterexamples for all inputs."
  },
  {
   "property": "C86",
   "status": "partial",
   "theorems": [
    "Kfac.Est.C86_eval_losses",
    "Kfac.Est.C86_batch_size_required",
    "Kfac.Est.C86_split_partial",
    "Kfac.Est.C86_tuple_counterexample",
    "Kfac.Est.C86_empirical_gradient",
    "Kfac.Est.C86_sampled_mean",
    "Kfac.Est.C86_signs_mean_partial"
   ],
   "note": "End to end: the statistics are shown to be the Fr\u00e9chet derivative of the mean total loss. A tuple of variables makes graph construction fail (counterexample); the curvature_prop mean is restricted to the losses that mode supports (C79)."
  },
  {
   "property": "C87",
   "status": "partial",
   "theorems": [
    "Kfac.Match.C87_identities",
    "Kfac.Match.C87_consumers",
    "Kfac.Match.C87_variables",
    "Kfac.Match.C87_affine_partial",
    "Kfac.Match.C87_affine_found",
    "Kfac.Match.C87_linear_found",
    "Kfac.Match.C87_scale_shift",
    "Kfac.Match.C87_scale_shift_found",
    "Kfac.Match.C87_embed_partial",
    "Kfac.Match.C87_batch_norm",
    "Kfac.Match.C87_fused_batch_norm",
    "Kfac.Match.C87_dilation_counterexample",
    "Kfac.Match.C87_embed_found",
    "Kfac.Match.C87_axis_counterexample",
    "Kfac.Match.C87_weights_rank_counterexample"
   ],
   "note": "Partial: dilated convolutions, lookups along another axis and batched weights are recorded as what they are not (counterexamples). Proved for all other layers, in both directions for affine, scale-and-shift and embedding layers; batch normalisation records are sound."
  },
  {
   "property": "C88",
   "status": "partial",
   "theorems": [
    "Kfac.Keras.RegLayer.C88_layer_partial",
    "Kfac.Keras.RegLayer.C88_norm_partial",
    "Kfac.Keras.RegLayer.C88_uses_partial",
    "Kfac.Keras.RegLayer.C88_rejects_partial",
    "Kfac.Keras.RegLayer.C88_rejects_format",
    "Kfac.Keras.RegLayer.C88_rejects_scale",
    "Kfac.Keras.RegLayer.C88_passed_partial",
    "Kfac.Keras.RegLayer.C88_composite_counterexample",
    "Kfac.Keras.RegLayer.C88_passed_counterexample",
    "Kfac.Keras.RegLayer.C88_subclass_counterexample",
    "Kfac.Keras.RegLayer.C88_zero_scale_counterexample",
    "Kfac.Keras.RegLayer.C88_axis_counterexample",
    "Kfac.Keras.RegLayer.C88_phase_counterexample"
   ],
   "note": "Proved for activations that are a single operation (or none), exact layer classes, non-zero scales and normalisation over the last axis; the counterexamples show that each restriction is needed."
  },
  {
   "property": "C89",
   "status": "partial",
   "theorems": [
    "Kfac.Keras.RegLayer.C89_categorical_partial",
    "Kfac.Keras.RegLayer.C89_binary_partial",
    "Kfac.Keras.RegLayer.C89_mse_partial",
    "Kfac.Keras.RegLayer.C89_rejects",
    "Kfac.Keras.RegLayer.C89_several",
    "Kfac.Keras.RegLayer.C89_softmax_layer_counterexample",
    "Kfac.Keras.RegLayer.C89_mse_counterexample",
    "Kfac.Keras.RegLayer.C89_binary_counterexample",
    "Kfac.Keras.RegLayer.C89_output_counterexample"
   ],
   "note": "Categorical losses are proved for softmax activations and for logits; squared error and binary cross entropy in the form n * Keras loss = registered loss (+ constant), hence as stated for one component. The counterexamples show the factor, probabilities from a Softmax layer, and models called twice."
  },
  {
   "property": "C90",
   "status": "partial",
   "theorems": [
    "Kfac.Conv.C90_conv2d_partial",
    "Kfac.Conv.C90_depthwise_partial",
    "Kfac.Conv.C90_separable_partial",
    "Kfac.Conv.C90_conv1d_partial",
    "Kfac.Conv.C90_convolution_partial",
    "Kfac.Conv.C90_product",
    "Kfac.Conv.C90_format",
    "Kfac.Conv.C90_sua_counterexample",
    "Kfac.Conv.C90_dilation_counterexample",
    "Kfac.Conv.C90_convolution_counterexample",
    "Kfac.Conv.C90_conv1d_counterexample",
    "Kfac.Conv.C90_reuse_counterexample"
   ],
   "note": "Proved for every registration function where it holds: conv2d (kron, diagonal), conv2d_multi, depthwise and separable for all geometries (number of locations: with padding, or undilated), conv1d unless both strided and dilated, convolution without strides. The counterexamples show the remaining cases fail."
  },
  {
   "property": "C91",
   "status": "proved",
   "theorems": [
    "Kfac.Train.C91_invariance",
    "Kfac.Train.C91_function"
   ],
   "note": "Martens and Grosse (2015), Theorem 1, for whole runs. Feed-forward chains of fully connected layers with one tower; momentum of type 'regular'."
  },
  {
   "property": "C92",
   "status": "proved",
   "theorems": [
    "Kfac.Train.C92_descent",
    "Kfac.Train.C92_rate",
    "Kfac.Train.C92_converges",
    "Kfac.Train.C92_undamped",
    "Kfac.Train.C92_newton"
   ],
   "note": "Descent for every history of operations, geometric rate and convergence to the least-squares loss with damping, exact factor (1-lr)^2 without, Newton step at lr = 1."
  },
  {
   "property": "C93",
   "status": "proved",
   "theorems": [
    "Kfac.Loss.C93_loss_hessian",
    "Kfac.Loss.C93_decomposition",
    "Kfac.Loss.C93_linear",
    "Kfac.Loss.C93_stationary"
   ],
   "note": "Hessian = Gauss-Newton + residual term for every C2 model; equality for affine models and stationary losses; multiply_ggn of each loss is its Hessian for all targets."
  },
  {
   "property": "C94",
   "status": "partial",
   "theorems": [
    "Kfac.Opt.C94_apply",
    "Kfac.Opt.C94_minimize_partial",
    "Kfac.Opt.C94_trace_partial",
    "Kfac.Opt.C94_order",
    "Kfac.Opt.C94_rejects",
    "Kfac.Opt.C94_apply_rejects",
    "Kfac.Opt.C94_default_gradients",
    "Kfac.Opt.C94_unconnected",
    "Kfac.Opt.C94_repeated_counterexample"
   ],
   "note": "Refinement of the vector model of Opt/Model.lean by the list and dictionary code: one apply_gradients, one minimize and any number of runs, for all momentum types. Partial because a var_list naming a variable twice is accepted and moves the variable twice (C94_repeated_counterexample); the theorems for minimize assume a list without repetitions and a loss that depends on every registered variable (otherwise C94_unconnected: an AttributeError)."
  },
  {
   "property": "C95",
   "status": "partial",
   "theorems": [
    "Kfac.Opt.C95_matching",
    "Kfac.Opt.C95_mismatch_partial",
    "Kfac.Opt.C95_prefix_counterexample",
    "Kfac.Opt.C95_empty_counterexample"
   ],
   "note": "Proved for lists of equal length. Partial because lists of different lengths are truncated instead of rejected (C95_prefix_counterexample) and empty lists fail (C95_empty_counterexample)."
  },
  {
   "property": "C96",
   "status": "proved",
   "theorems": [
    "Kfac.Factor.C96_matpower",
    "Kfac.Factor.C96_multiply",
    "Kfac.Factor.C96_inverse",
    "Kfac.Factor.C96_cholesky",
    "Kfac.Factor.C96_cholesky_inverse",
    "Kfac.Factor.C96_full",
    "Kfac.Factor.C96_names"
   ],
   "note": "Dense factors; Kronecker blocks of all kinds that use the base-class multiplications and full blocks. TensorFlow's refusal to create two variables of one name is modelled; eigendecomposition and Cholesky are the documented ones (hypothesis Linalg.Good)."
  },
  {
   "property": "C97",
   "status": "partial",
   "theorems": [
    "Kfac.Opt.C97_step",
    "Kfac.Opt.C97_damping",
    "Kfac.Opt.C97_monotone",
    "Kfac.Opt.C97_closed_form",
    "Kfac.Opt.C97_converges",
    "Kfac.Opt.C97_ratio",
    "Kfac.Opt.C97_least_squares",
    "Kfac.Opt.C97_one_parameter_counterexample",
    "Kfac.Opt.C97_stationary_counterexample"
   ],
   "note": "Proved as long as every two-by-two system is solvable (the `Solvable` hypothesis of each run). Violations: singular system with one scalar parameter, 0/0 at a stationary point."
  },
  {
   "property": "C98",
   "status": "proved",
   "theorems": [
    "Kfac.Train.C98_descent",
    "Kfac.Train.C98_converges",
    "Kfac.Train.C98_separable"
   ],
   "note": "One layer without activation, momentum 0, one loss with coefficient 1 per example; the covariance batches carry targets that are fixed in advance (any of them, in particular any sampled ones), the output gradients are those of the current weights. Losses of the covariance updates in C98_converges are classification losses since the gradients of a Gaussian loss with fixed targets are not bounded. Every loss of the update is an exact real."
  },
  {
   "property": "C99",
   "status": "partial",
   "theorems": [
    "Kfac.Global.C99_factor_constants",
    "Kfac.Global.C99_other_constants",
    "Kfac.Global.C99_initial_partial",
    "Kfac.Global.C99_initial_counterexample",
    "Kfac.Global.C99_zero_debias",
    "Kfac.Global.C99_zero_debias_diagonal",
    "Kfac.Global.C99_safeguard",
    "Kfac.Global.C99_replicator_partial",
    "Kfac.Global.C99_replicator_counterexample"
   ],
   "note": "All constants, zero_debias and the safeguard are proved for all sequences of calls. Not true of the code: the two initialisation flags (fixed at import) and optimizers without a replicator after one with a replicator; both have a general counterexample theorem."
  },
  {
   "property": "C100",
   "status": "proved",
   "theorems": [
    "Kfac.Train.C100_cluster",
    "Kfac.Train.C100_in_step",
    "Kfac.Train.C100_smooth",
    "Kfac.Train.C100_distribution"
   ],
   "note": "Refinement for all clusters, networks, batches and operation sequences. Unequal parts are excluded by the statement (C12 shows that unequal towers do change the statistics)."
  },
  {
   "property": "C101",
   "status": "partial",
   "theorems": [
    "Kfac.Keras.C101_compiled",
    "Kfac.Keras.C101_resumed_partial",
    "Kfac.Keras.C101_adaptive_counterexample",
    "Kfac.Keras.C101_custom_loss_counterexample",
    "Kfac.Keras.C101_closed_partial",
    "Kfac.Keras.C101_leak_counterexample",
    "Kfac.Keras.C101_not_compiled",
    "Kfac.Keras.C101_all_or_nothing",
    "Kfac.Keras.C101_caller_counterexample"
   ],
   "note": "Compilation arguments, resumption for optimizers C58 covers without adaptive damping, all-or-nothing weights, rejection of uncompiled models. Four counterexamples: adaptive damping cannot be loaded, custom loss classes are not looked up, the file leaks if Keras raises, the caller's dictionary is changed."
  },
  {
   "property": "C102",
   "status": "proved",
   "theorems": [
    "Kfac.Train.C102_schedule",
    "Kfac.Train.C102_burnin",
    "Kfac.Train.C102_zero_interval",
    "Kfac.Train.C102_converges"
   ],
   "note": "Refinement of the training op to the sequence of operations at the documented times, burn-in, and convergence through C98."
  },
  {
   "property": "C103",
   "status": "proved",
   "theorems": [
    "Kfac.Damping.C103_total",
    "Kfac.Damping.C103_shorter",
    "Kfac.Damping.C103_gradient",
    "Kfac.Damping.C103_natural"
   ],
   "note": "All kinds of Kronecker blocks; eigenbases of both statistics give the preconditioned gradient in closed form. `total` equals the damping for the default NORMALIZE_DAMPING_POWER = 1."
  },
  {
   "property": "C104",
   "status": "proved",
   "theorems": [
    "Kfac.Train.C104_succeeds",
    "Kfac.Train.C104_descends",
    "Kfac.Train.C104_rate",
    "Kfac.Train.C104_stationary"
   ],
   "note": "Uses the training model of C91; the derivative along a direction of all parameters is shown to be the sum of the layers' inner products, and the statistics to stay positive semidefinite under every schedule."
  },
  {
   "property": "C105",
   "status": "partial",
   "theorems": [
    "Kfac.Loss.C105_total",
    "Kfac.Loss.C105_total_raises",
    "Kfac.Loss.C105_curvature",
    "Kfac.Loss.C105_unnamed_partial",
    "Kfac.Loss.C105_made_up",
    "Kfac.Loss.C105_name_counterexample"
   ],
   "note": "Proved: after any program of registrations and other calls, total_loss is the documented sum up to a constant, raises exactly when a target is missing or nothing is registered (the two directions are C105_total and C105_total_raises), and multiply_ggn is the Hessian of the documented sum for the linearised model. Partial: an unnamed loss is accepted if no user-given name equals the generated one; the counterexample shows the refusal otherwise, and that reuse=True without a name does not raise."
  },
  {
   "property": "C106",
   "status": "proved",
   "theorems": [
    "Kfac.Train.C106_exact",
    "Kfac.Train.C106_newton",
    "Kfac.Train.C106_modes"
   ],
   "note": "Proved for networks of fully connected layers with one use each, a normal predictive distribution of fixed variance and the basic Kronecker-factored block."
  },
  {
   "property": "C107",
   "status": "proved",
   "theorems": [
    "Kfac.Train.C107_succeeds",
    "Kfac.Train.C107_descends",
    "Kfac.Train.C107_total",
    "Kfac.Train.C107_vanishes",
    "Kfac.Train.C107_stationary"
   ],
   "note": "Exact reals. Smoothness of the loss (the hypothesis of the usual descent lemma) is asked only on the sublevel set of the first loss; that the iterates stay in it is part of the proof. The constant does not depend on the covariances: the damped factors are at least the damping. The concrete case is a loss that is not globally smooth."
  },
  {
   "property": "C108",
   "status": "proved",
   "theorems": [
    "Kfac.Opt.C108_step",
    "Kfac.Opt.C108_not_raised",
    "Kfac.Opt.C108_lowered",
    "Kfac.Opt.C108_bounded",
    "Kfac.Opt.C108_settles",
    "Kfac.Opt.C108_monotone"
   ],
   "note": "Conditional on solvable two-by-two systems as in C97 (their failure is C97_one_parameter_counterexample). Uses only the model functions of Opt; the curvature matrix is arbitrary."
  },
  {
   "property": "C109",
   "status": "partial",
   "theorems": [
    "Kfac.Shape.C109_noticed",
    "Kfac.Shape.C109_fully_connected",
    "Kfac.Shape.C109_sparse",
    "Kfac.Shape.C109_sparse_dense",
    "Kfac.Shape.C109_fully_connected_diagonal",
    "Kfac.Shape.C109_conv2d",
    "Kfac.Shape.C109_conv2d_diagonal_partial",
    "Kfac.Shape.C109_conv2d_diagonal_counterexample",
    "Kfac.Shape.C109_depthwise",
    "Kfac.Shape.C109_generic",
    "Kfac.Shape.C109_fully_connected_multi",
    "Kfac.Shape.C109_conv2d_multi",
    "Kfac.Shape.C109_sparse_multi",
    "Kfac.Shape.C109_series_partial",
    "Kfac.Shape.C109_series_counterexample",
    "Kfac.Shape.C109_scale_and_shift"
   ],
   "note": "Shapes only: values are the subject of the other properties. Partial because of the two counterexamples (series blocks with three-dimensional inputs, diagonal convolutions with a mask)."
  },
  {
   "property": "C110",
   "status": "partial",
   "theorems": [
    "Kfac.Mix.C110_succeeds",
    "Kfac.Mix.C110_bounded",
    "Kfac.Mix.C110_synced",
    "Kfac.Mix.C110_descends_partial",
    "Kfac.Mix.C110_vanishes_partial",
    "Kfac.Mix.C110_stationary_partial",
    "Kfac.Mix.C110_mixed_counterexample"
   ],
   "note": "C110_succeeds and C110_synced hold for all blocks, C110_bounded for every block that is not mixed (one dense and one diagonal factor), the others (partial) for networks without mixed blocks. C110_mixed_counterexample: with a mixed block the loss increases tenfold in one step although all hypotheses hold."
  },
  {
   "property": "C111",
   "status": "proved",
   "theorems": [
    "Kfac.Mix.C111_bounded",
    "Kfac.Mix.C111_total",
    "Kfac.Mix.C111_vanishes",
    "Kfac.Mix.C111_stationary",
    "Kfac.Mix.C111_calms",
    "Kfac.Mix.C111_settles"
   ],
   "note": "Momentum type \"regular\"; blocks with one dense and one diagonal factor are excluded in the statement, because they break the damping (C110_mixed_counterexample)."
  },
  {
   "property": "C112",
   "status": "partial",
   "theorems": [
    "Kfac.Grad.C112_moments_partial",
    "Kfac.Grad.C112_agree",
    "Kfac.Grad.C112_silent_counterexample",
    "Kfac.Grad.C112_fails_counterexample",
    "Kfac.Grad.C112_unknown_counterexample"
   ],
   "note": "Partial: masks with the default extractor and filters of more than one tap give wrong statistics or fail, and the pointwise extractor needs a known batch size (counterexamples); everything else is proved."
  },
  {
   "property": "C113",
   "status": "proved",
   "theorems": [
    "Kfac.Mix.C113_linear",
    "Kfac.Mix.C113_convex"
   ],
   "note": "Mixed blocks are excluded in the statement because of C110."
  },
  {
   "property": "C114",
   "status": "proved",
   "theorems": [
    "Kfac.Mix.C114_succeeds",
    "Kfac.Mix.C114_average",
    "Kfac.Mix.C114_linear"
   ],
   "note": "Expected value: the mean over all sequences of drawn batches. The batch of a training step is drawn independently of the statistics in use at that step (updates of a step come after it). No momentum, no norm constraint, no blocks with one dense and one diagonal factor."
  },
  {
   "property": "C115",
   "status": "proved",
   "theorems": [
    "Kfac.Block.C115_kronecker",
    "Kfac.Block.C115_kronecker_inverse",
    "Kfac.Block.C115_full",
    "Kfac.Block.C115_diagonal"
   ],
   "note": "Blocks for fully connected layers used several times raise NotImplementedError by design; depthwise convolutions are not covered."
  },
  {
   "property": "C116",
   "status": "proved",
   "theorems": [
    "Kfac.Stats.C116_unbiased",
    "Kfac.Stats.C116_variance",
    "Kfac.Stats.C116_batch",
    "Kfac.Stats.C116_consistent",
    "Kfac.Stats.C116_diagonal"
   ],
   "note": "One replica, one source and one tower; C12 reduces the others to it."
  },
  {
   "property": "C117",
   "status": "proved",
   "theorems": [
    "Kfac.Opt.C117_clip",
    "Kfac.Opt.C117_adam",
    "Kfac.Opt.C117_regular"
   ],
   "note": "Weight decay, which is added after the clipping, is excluded."
  },
  {
   "property": "C118",
   "status": "partial",
   "theorems": [
    "Kfac.Keras.Decay.C118_accepted",
    "Kfac.Keras.Decay.C118_values",
    "Kfac.Keras.Decay.C118_logs",
    "Kfac.Keras.Decay.C118_resume",
    "Kfac.Keras.Decay.C118_printed_partial",
    "Kfac.Keras.Decay.C118_verbose_counterexample"
   ],
   "note": "Everything but the printing holds in full; a verbosity of 1 prints every epoch although the documentation says only values above 1 do."
  },
  {
   "property": "C119",
   "status": "partial",
   "theorems": [
    "Kfac.Examples.C119_roles",
    "Kfac.Examples.C119_aggregated",
    "Kfac.Examples.C119_staffed_partial",
    "Kfac.Examples.C119_shares_counterexample",
    "Kfac.Examples.C119_small_counterexample"
   ],
   "note": "Roles and aggregation hold for all clusters; staffing holds for five workers or more. Counterexamples: fewer than five workers never accumulate statistics (the weights never change), and only one worker inverts instead of 20%."
  },
  {
   "property": "C120",
   "status": "partial",
   "theorems": [
    "Kfac.Examples.C120_grows_partial",
    "Kfac.Examples.C120_small_partial",
    "Kfac.Examples.C120_equal_counterexample",
    "Kfac.Examples.C120_batches_partial"
   ],
   "note": "Partial: the schedule fails with a division by zero when the number of examples equals the starting size (counterexample). For all other numbers of examples it is proved equal to the published sizes, rounded down. Floating point is exact."
  },
  {
   "property": "C121",
   "status": "partial",
   "theorems": [
    "Kfac.Examples.C121_training_partial",
    "Kfac.Examples.C121_zero_counterexample",
    "Kfac.Examples.C121_after_counterexample",
    "Kfac.Examples.C121_damping_counterexample",
    "Kfac.Examples.C121_evaluation_partial",
    "Kfac.Examples.C121_average_counterexample",
    "Kfac.Examples.C121_keras_counterexample"
   ],
   "note": "Partial: proved for the loss of a training mini-batch, and for the evaluation of the trained weights when the regularisers are read after the assignment. Counterexamples: l2_reg = 0 in the classifier, the loss after an update (and its effect on the damping), averaged weights, and Keras models."
  },
  {
   "property": "C122",
   "status": "proved",
   "theorems": [
    "Kfac.Examples.C122_gradients",
    "Kfac.Examples.C122_uses",
    "Kfac.Examples.C122_comment"
   ],
   "note": "Proved by back-propagation through time for one example of the batch with exact numbers."
  },
  {
   "property": "C123",
   "status": "partial",
   "theorems": [
    "Kfac.Examples.C123_manual",
    "Kfac.Examples.C123_fresh",
    "Kfac.Examples.C123_one_each",
    "Kfac.Examples.C123_chief_counterexample",
    "Kfac.Examples.C123_chief_partial"
   ],
   "note": "Partial: the manual loop and the estimator's inverses are proved. With three or more workers the chief worker averages fewer gradients than documented (counterexample)."
  },
  {
   "property": "C124",
   "status": "partial",
   "theorems": [
    "Kfac.Examples.TrainOp.C124_kfac",
    "Kfac.Examples.TrainOp.C124_others",
    "Kfac.Examples.TrainOp.C124_tpu_partial",
    "Kfac.Examples.TrainOp.C124_tpu_counterexample",
    "Kfac.Examples.TrainOp.C124_rnn_counterexample"
   ],
   "note": "Counterexamples: rnn_mnist.py always fails, the TPU examples fail without immediate adaptation. The remaining flag combinations are characterised exactly."
  },
  {
   "property": "C125",
   "status": "partial",
   "theorems": [
    "Kfac.Examples.Towers.C125_completes_partial",
    "Kfac.Examples.Towers.C125_single",
    "Kfac.Examples.Towers.C125_remainder_counterexample",
    "Kfac.Examples.Towers.C125_devices_counterexample"
   ],
   "note": "Counterexamples: an uneven last batch and an empty list of devices. Completion is characterised exactly, and equality with training without towers holds whenever a run ends."
  },
  {
   "property": "C126",
   "status": "partial",
   "theorems": [
    "Kfac.Opt.C126_explained_partial",
    "Kfac.Opt.C126_adam_counterexample",
    "Kfac.Opt.C126_decay_counterexample",
    "Kfac.Opt.C126_clip_counterexample",
    "Kfac.Opt.C126_printed",
    "Kfac.Opt.C126_damping_partial",
    "Kfac.Opt.C126_damping_counterexample"
   ],
   "note": "Proved without weight decay and norm constraint, for adam while the preconditioner does not change; the exact discrepancy otherwise is in the counterexamples. The printed damping is characterised for both adaptation modes."
  },
  {
   "property": "C127",
   "status": "partial",
   "theorems": [
    "Kfac.Keras.C127_keras_counterexample",
    "Kfac.Keras.C127_keras_qmodel_counterexample",
    "Kfac.Opt.C127_fixed_partial",
    "Kfac.Opt.C127_none_plain_counterexample",
    "Kfac.Opt.C127_none_counterexample"
   ],
   "note": "Proved for every number as momentum; with None the type is proved equal to qmodel for all inputs. For Keras it is proved which momenta can reach the wrapped optimizer."
  },
  {
   "property": "C128",
   "status": "partial",
   "theorems": [
    "Kfac.Block.Support.C128_served",
    "Kfac.Block.Support.C128_on_demand",
    "Kfac.Block.Support.C128_refused",
    "Kfac.Block.Support.C128_created",
    "Kfac.Block.Support.C128_optimizer_partial",
    "Kfac.Block.Support.C128_qmodel_counterexample",
    "Kfac.Block.Support.C128_exception_partial",
    "Kfac.Block.Support.C128_series_counterexample",
    "Kfac.Block.Support.C128_sua_counterexample"
   ],
   "note": "Proved: what was asked for is served, the matrix and diagonal blocks need no registration, everything else is an error, creation succeeds if all blocks support what is asked. Counterexamples: Cholesky functions of series blocks raise TypeError after a successful registration, SUA blocks raise TypeError or ValueError at creation, and the optimizer's approximate model change raises NotImplementedError with series blocks."
  },
  {
   "property": "C129",
   "status": "partial",
   "theorems": [
    "Kfac.Reg.Vars.C129_created_partial",
    "Kfac.Reg.Vars.C129_served_partial",
    "Kfac.Reg.Vars.C129_complete_partial",
    "Kfac.Reg.Vars.C129_single_partial",
    "Kfac.Reg.Vars.C129_options_counterexample",
    "Kfac.Reg.Vars.C129_diagonal_counterexample",
    "Kfac.Reg.Vars.C129_shared_counterexample"
   ],
   "note": "Partial: for collections whose factors have different scopes (C33 says when) the variables are created without an error, with pairwise different names, and each block finds its own inverses, also for the variables of SUA factors that are created outside the factor's scope. Counterexamples: options 1 and 2 on the same factors both create Lmat; diagonal input factors with and without bias ask for one variable with two shapes; convolution input factors for one and for several uses silently share the covariance variable (AUTO_REUSE). The exponents and the damping are given by their strings; other blocks have one factor and one damping."
  },
  {
   "property": "C130",
   "status": "partial",
   "theorems": [
    "Kfac.Reg.Vars.C130_inverses_partial",
    "Kfac.Reg.Vars.C130_sua_counterexample",
    "Kfac.Reg.Vars.C130_covariances_counterexample",
    "Kfac.Reg.Vars.C130_weight_counterexample",
    "Kfac.Reg.Vars.C130_unnormalised"
   ],
   "note": "Partial because the code does not do it: get_cov_vars lists tensors instead of variables and leaves out total weights and the SUA mean, and get_inv_vars of the SUA factor leaves out three of its four kinds of variables (counterexamples). For all other kinds of factors the listing of inverse variables is proved exact."
  },
  {
   "property": "C131",
   "status": "proved",
   "theorems": [
    "Kfac.Mix.C131_gradients",
    "Kfac.Mix.C131_linear",
    "Kfac.Mix.C131_likely",
    "Kfac.Mix.C131_stays"
   ],
   "note": "Probability: the share of all sequences of drawn batches of the given length. Restrictions as in C114 (batch drawn independently of the statistics in use, no momentum, no norm constraint, no blocks with one dense and one diagonal factor). The example has losses whose gradients have unbounded variance, so that C114 does not apply."
  },
  {
   "property": "C132",
   "status": "proved",
   "theorems": [
    "Kfac.Examples.Manual.C132_autoencoder",
    "Kfac.Examples.Manual.C132_twice",
    "Kfac.Examples.Manual.C132_towers"
   ],
   "note": "The network is a chain of operations; multiplying by the weights (or convolving) and adding the bias is one operation. The collection is that of C25-C31. Sizes of the layers do not matter for the registration; the numbers of layers of encoder and decoder are arbitrary."
  },
  {
   "property": "C133",
   "status": "proved",
   "theorems": [
    "Kfac.Mix.C133_average",
    "Kfac.Mix.C133_stationary",
    "Kfac.Mix.C133_vanishes",
    "Kfac.Mix.C133_maximal",
    "Kfac.Mix.C133_stays",
    "Kfac.Mix.C133_succeeds",
    "Kfac.Mix.C133_moved",
    "Kfac.Mix.C133_convnet"
   ],
   "note": "Learning rates as a function of the number of steps: success (also with momentum), weighted sum of expected squared gradients, stationarity under Robbins-Monro rates, O(1/t) under Polyak-Lojasiewicz in expectation, a maximal inequality for all later times (probabilities as shares of the sequences of draws), a bound on how far parameters move (with momentum), and the rates of convnet.py. Convergence theorems without momentum and norm constraint."
  },
  {
   "property": "C134",
   "status": "proved",
   "theorems": [
    "Kfac.Mix.C134_succeeds",
    "Kfac.Mix.C134_average",
    "Kfac.Mix.C134_best",
    "Kfac.Mix.C134_linear"
   ],
   "note": "Momentum of type regular and mini-batches: success, the sum of the expected squared gradients and the best of the first T steps, with the constants of C114 for momentum zero, and geometric convergence up to a level under the Polyak-Lojasiewicz condition. No norm constraint, constant learning rate."
  }
 ]
}