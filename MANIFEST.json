{
 "claims": [
  {
   "property": "C01",
   "status": "proved",
   "theorems": [
    "Verif.C01_weights_decision",
    "Verif.C01_length_mismatch",
    "Verif.C01_refused",
    "Verif.C01_dict_with_weights",
    "Verif.C01_missing_value_with_weights"
   ],
   "note": "complete outcome of _process_weights_values for one weight per value, for length mismatches and for refused argument shapes"
  },
  {
   "property": "C02",
   "status": "partial",
   "theorems": [
    "Verif.C02_empty_mixture_raises",
    "Verif.C02_relative_decision",
    "Verif.C02_zero_raises_partial",
    "Verif.C02_numpy_zero_fails",
    "Verif.C02_relative_normalised",
    "Verif.C02_scale_invariant",
    "Verif.C02_negative_accepted"
   ],
   "note": "complete decision for lists, tuples and numpy arrays; normalisation and scale invariance proved; proved false: a numpy array of zeros is accepted (nan weights) and drops every component, leaving a mixture that can be built but not sampled"
  },
  {
   "property": "C03",
   "status": "partial",
   "theorems": [
    "Verif.C03_inferred_weight",
    "Verif.C03_single_number",
    "Verif.C03_tuple_fails"
   ],
   "note": "holds for lists, numpy arrays and plain numbers; proved false for tuples (AttributeError)"
  },
  {
   "property": "C04",
   "status": "proved",
   "theorems": [
    "Verif.C04_uniform",
    "Verif.C04_uniform_drop_na"
   ],
   "note": ""
  },
  {
   "property": "C05",
   "status": "proved",
   "theorems": [
    "Verif.C05_small_n_general",
    "Verif.C05_large_n_general",
    "Verif.C05_component_probability",
    "Verif.C05_accepted_within_tolerance",
    "Verif.C05_whole_call"
   ],
   "note": "Lebesgue measure of the draws that pick component i equals its weight, for both strategies; whole calls: independent samples with P(A) = sum of w_i nu_i(A)"
  },
  {
   "property": "C06",
   "status": "partial",
   "theorems": [
    "Verif.C06_strategies_fails",
    "Verif.C06_failure_probability",
    "Verif.C06_strategies_partial",
    "Verif.C06_small_total"
   ],
   "note": "proved false for accepted weights with sum below 1 (IndexError for n > 100, with the exact probability); proved for draws within the total and for the small strategy; see C104 for the whole call"
  },
  {
   "property": "C07",
   "status": "proved",
   "theorems": [
    "Verif.C07_zero_weight_never_kept",
    "Verif.C07_kept_exactly_nonzero",
    "Verif.C07_reprocessing_is_identity",
    "Verif.C07_replaced",
    "Verif.C07_replaced_relative"
   ],
   "note": "zero-weight components are dropped; whole calls do not depend on them at all"
  },
  {
   "property": "C08",
   "status": "proved",
   "theorems": [
    "Verif.C08_empirical"
   ],
   "note": "over plain (hashable) items; Counter's == is equality of the item type"
  },
  {
   "property": "C09",
   "status": "proved",
   "theorems": [
    "Verif.C09_accepted_iff",
    "Verif.C09_rejected",
    "Verif.C09_probability",
    "Verif.C09_law"
   ],
   "note": "C09_law: the law of the samples of zero_inflated."
  },
  {
   "property": "C10",
   "status": "partial",
   "theorems": [
    "Verif.C10_caller_list_fails",
    "Verif.C10_caller_list_partial"
   ],
   "note": "proved false (omitted last weight is appended to the caller's list); exact characterisation of when it happens"
  },
  {
   "property": "C11",
   "status": "partial",
   "theorems": [
    "Verif.C11_count_partial",
    "Verif.C11_zero_refused",
    "Verif.C11_tdist_equal_bounds_fails",
    "Verif.C11_logtdist_no_interval_fails",
    "Verif.C11_tdist_no_interval_fails"
   ],
   "note": "proved for every expression except correlated variables (C33) and the t-distributions whose sampler is irregular (Obj.Regular); proved false for those t-distribution cases"
  },
  {
   "property": "C12",
   "status": "proved",
   "theorems": [
    "Verif.C12_clamp_of_unclipped",
    "Verif.C12_bounds",
    "Verif.C12_built_with",
    "Verif.C12_inside_unchanged"
   ],
   "note": ""
  },
  {
   "property": "C13",
   "status": "partial",
   "theorems": [
    "Verif.C13_elementwise_partial",
    "Verif.C13_neg",
    "Verif.C13_no_new_failures",
    "Verif.C13_bool_sum_fails"
   ],
   "note": "full elementwise statement for numeric operands; proved false for boolean + boolean samples of comparisons"
  },
  {
   "property": "C14",
   "status": "partial",
   "theorems": [
    "Verif.C14_comparisons_partial",
    "Verif.C14_eq_ne_fails"
   ],
   "note": "proved for > >= < <=; proved false for == and != (both compute <=)"
  },
  {
   "property": "C15",
   "status": "partial",
   "theorems": [
    "Verif.C15_lclip",
    "Verif.C15_rclip",
    "Verif.C15_clip",
    "Verif.C15_lclip_dist",
    "Verif.C15_max_min",
    "Verif.C15_dist_fn",
    "Verif.C15_dist_fn_list",
    "Verif.C15_round",
    "Verif.C15_one_sided_clip_fails",
    "Verif.C15_dist_clip_fails"
   ],
   "note": "all pipes agree except the one-sided piped clip and piped clip with distribution bounds, which are proved to fail"
  },
  {
   "property": "C16",
   "status": "partial",
   "theorems": [
    "Verif.C16_lclip_partial",
    "Verif.C16_rclip_partial",
    "Verif.C16_clip_partial",
    "Verif.C16_int_bound_truncates_fails",
    "Verif.C16_value_inside_changed_fails",
    "Verif.C16_bound_violated_fails"
   ],
   "note": "exact when samples and bound have one type or n=1; proved false for mixed integers/floats, with the exact truncated result"
  },
  {
   "property": "C17",
   "status": "proved",
   "theorems": [
    "Verif.C17_calls",
    "Verif.C17_exception",
    "Verif.C17_plain",
    "Verif.C17_number_with_string_fails"
   ],
   "note": "complete characterisation of sample(f, n) for callables; also shows that numbers mixed with strings are converted by np.array"
  },
  {
   "property": "C18",
   "status": "proved",
   "theorems": [
    "Verif.C18_support",
    "Verif.C18_mixture",
    "Verif.C18_mixture_range",
    "Verif.C18_discrete"
   ],
   "note": "given that numpy's raw generators respect their documented ranges (RawOk in the environment)"
  },
  {
   "property": "C19",
   "status": "partial",
   "theorems": [
    "Verif.C19_same_seed_partial",
    "Verif.C19_correlated_fails"
   ],
   "note": "proved for programs without correlated variables and from equal caches; proved false with correlated variables (left-over columns survive set_seed)"
  },
  {
   "property": "C20",
   "status": "proved",
   "theorems": [
    "Verif.C20_stable"
   ],
   "note": "for every history and every way of printing distributions (the cache key); cached samples other than Python's None"
  },
  {
   "property": "C21",
   "status": "partial",
   "theorems": [
    "Verif.C21_same_key_iff",
    "Verif.C21_draw_of_alike",
    "Verif.C21_same_key_same_words",
    "Verif.C21_normal_close",
    "Verif.C21_key_mixture_fails",
    "Verif.C21_same_key_example",
    "Verif.C21_constants_apart",
    "Verif.C21_key_text_fails",
    "Verif.C21_own_samples_partial",
    "Verif.C21_key_parentheses_fails",
    "Verif.C21_key_rounding_fails",
    "Verif.C21_key_clips_fails",
    "Verif.C21_other_samples_fails"
   ],
   "note": "proved for histories in which no other distribution prints the same; for expressions of numbers, basic distributions, operators and functions the cache key is proved to identify exactly the expressions that differ in grouping, in digits beyond the second of normal parameters or in correlation group (C21_same_key_iff), so every answer is a draw from such an expression; constants other than text are told apart; proved false in general (five families of collisions and a concrete wrong answer)"
  },
  {
   "property": "C22",
   "status": "partial",
   "theorems": [
    "Verif.C22_count_partial",
    "Verif.C22_count_fails"
   ],
   "note": "proved when all cached calls for the key ask for the same n; proved false otherwise"
  },
  {
   "property": "C23",
   "status": "partial",
   "theorems": [
    "Verif.C23_file_round_trip",
    "Verif.C23_object_file_fails",
    "Verif.C23_memory_wins",
    "Verif.C23_fresh",
    "Verif.C23_file_ignored_fails",
    "Verif.C23_no_side_effects"
   ],
   "note": "round trip, priorities, reload and absence of side effects proved; proved false for object arrays, and a requested file is ignored when memory holds an entry although memcache=False"
  },
  {
   "property": "C24",
   "status": "proved",
   "theorems": [
    "Verif.C24_cuts",
    "Verif.C24_zero_cores"
   ],
   "note": "exact division; floats beyond 2^53 are not modelled"
  },
  {
   "property": "C25",
   "status": "partial",
   "theorems": [
    "Verif.C25_result_partial",
    "Verif.C25_count_partial",
    "Verif.C25_few_samples_fails",
    "Verif.C25_integers_fails"
   ],
   "note": "result, order, count and clean-up proved for every distribution of tasks over processes in a clean directory; proved false for n < cores (FileNotFoundError) and for integer samples (returned as floats)"
  },
  {
   "property": "C26",
   "status": "partial",
   "theorems": [
    "Verif.C26_bayesnet_repeated_fails",
    "Verif.C26_repeated_fails",
    "Verif.C26_one_process_partial"
   ],
   "note": "proved false: with one task per process and cores dividing n the result is one batch repeated cores times; within one process the batches are consecutive parts of the stream"
  },
  {
   "property": "C27",
   "status": "partial",
   "theorems": [
    "Verif.C27_blocked_fails",
    "Verif.C27_stale_file_fails",
    "Verif.C27_alone_partial",
    "Verif.C27_concurrent_fails",
    "Verif.C27_bayesnet_stale_fails"
   ],
   "note": "proved for a run that is alone in the directory; proved false for concurrent runs, for stale files with n < cores, for bayesnet after a crash, and after a run whose events cannot be encoded (blocks all later ones)"
  },
  {
   "property": "C28",
   "status": "proved",
   "theorems": [
    "Verif.C28_accepted_iff",
    "Verif.C28_refused",
    "Verif.C28_safe_face"
   ],
   "note": ""
  },
  {
   "property": "C29",
   "status": "proved",
   "theorems": [
    "Verif.C29_roll_iff",
    "Verif.C29_plain",
    "Verif.C29_never_multiple",
    "Verif.C29_range",
    "Verif.C29_fuel_irrelevant"
   ],
   "note": ""
  },
  {
   "property": "C30",
   "status": "partial",
   "theorems": [
    "Verif.C30_permutation_partial",
    "Verif.C30_permutation_iff_partial",
    "Verif.C30_ties_fails",
    "Verif.C30_ties_example",
    "Verif.C30_first_unchanged_partial",
    "Verif.C30_ties_recorr_fails"
   ],
   "note": "proved false when draws (or target scores) tie; exact characterisation (permutation iff no value is lost), permutation for distinct scores, first variable exactly unchanged"
  },
  {
   "property": "C31",
   "status": "proved",
   "theorems": [
    "Verif.C31_order",
    "Verif.C31_ranks"
   ],
   "note": ""
  },
  {
   "property": "C32",
   "status": "proved",
   "theorems": [
    "Verif.C32_history",
    "Verif.C32_one_draw"
   ],
   "note": "every history of reads of the group members, with clips"
  },
  {
   "property": "C33",
   "status": "partial",
   "theorems": [
    "Verif.C33_expressions_partial",
    "Verif.C33_same_n_partial",
    "Verif.C33_other_n_fails",
    "Verif.C33_scalar_fails"
   ],
   "note": "proved false when the number of samples changes or one sample is asked; proved when every call asks for the same n > 1, for reads of one group and for any expressions over any number of groups"
  },
  {
   "property": "C34",
   "status": "proved",
   "theorems": [
    "Verif.C34_accept",
    "Verif.C34_reject",
    "Verif.C34_originals",
    "Verif.C34_result",
    "Verif.C34_disjoint"
   ],
   "note": "heap model with object identity; deepcopy modelled as copying the whole heap; exact eigenvalues"
  },
  {
   "property": "C35",
   "status": "proved",
   "theorems": [
    "Verif.C35_scalar"
   ],
   "note": ""
  },
  {
   "property": "C36",
   "status": "partial",
   "theorems": [
    "Verif.C36_tolerance_partial",
    "Verif.C36_error_partial",
    "Verif.C36_zero_fails",
    "Verif.C36_identity_fails",
    "Verif.C36_decision_partial"
   ],
   "note": "proved false for tolerance 0 and for the identity matrix; otherwise the whole decision is proved"
  },
  {
   "property": "C37",
   "status": "partial",
   "theorems": [
    "Verif.C37_exact_partial",
    "Verif.C37_flag_partial",
    "Verif.C37_sound",
    "Verif.C37_discrete_fails",
    "Verif.C37_never_false"
   ],
   "note": "proved false when the correlated variable is inside discrete([...]); exact characterisation for all expressions, and the full statement for expressions without discrete"
  },
  {
   "property": "C38",
   "status": "proved",
   "theorems": [
    "Verif.C38_norm_interval"
   ],
   "note": "exact reals; scipy's norm.ppf is any function inverting the standard normal cdf on (0,1), shown to exist"
  },
  {
   "property": "C39",
   "status": "proved",
   "theorems": [
    "Verif.C39_lognorm_interval"
   ],
   "note": "exact reals; the interval of the law of the generated samples"
  },
  {
   "property": "C40",
   "status": "proved",
   "theorems": [
    "Verif.C40_linear",
    "Verif.C40_log",
    "Verif.C40_interval",
    "Verif.C40_round_trip",
    "Verif.C40_round_trip'"
   ],
   "note": ""
  },
  {
   "property": "C41",
   "status": "proved",
   "theorems": [
    "Verif.C41_invlognorm_interval"
   ],
   "note": "exact reals"
  },
  {
   "property": "C42",
   "status": "partial",
   "theorems": [
    "Verif.C42_actual_mean_partial",
    "Verif.C42_mean_fails",
    "Verif.C42_reported_iff_partial"
   ],
   "note": "proved false: the mean of the law is m + s^2/m, not the requested m; exact condition under which the reported mean is right"
  },
  {
   "property": "C43",
   "status": "proved",
   "theorems": [
    "Verif.C43_to",
    "Verif.C43_interval"
   ],
   "note": ""
  },
  {
   "property": "C44",
   "status": "partial",
   "theorems": [
    "Verif.C44_norm_partial",
    "Verif.C44_norm_fails",
    "Verif.C44_norm_accept",
    "Verif.C44_norm_error",
    "Verif.C44_lognorm",
    "Verif.C44_invlognorm",
    "Verif.C44_lognorm_error"
   ],
   "note": "proved false for norm with both an interval and a mean; exact acceptance conditions for norm, lognorm and the inverse lognormal"
  },
  {
   "property": "C45",
   "status": "proved",
   "theorems": [
    "Verif.C45_sampler",
    "Verif.C45_law",
    "Verif.C45_mode",
    "Verif.C45_rejects"
   ],
   "note": "exact reals; beta law of the generator assumed as numpy documents it"
  },
  {
   "property": "C46",
   "status": "proved",
   "theorems": [
    "Verif.C46_refines",
    "Verif.C46_error",
    "Verif.C46_frequency",
    "Verif.C46_range"
   ],
   "note": "Refinement to answerAbout on the used events; frequency form for boolean find."
  },
  {
   "property": "C47",
   "status": "partial",
   "theorems": [
    "Verif.C47_enough_partial",
    "Verif.C47_refused",
    "Verif.C47_file_refused",
    "Verif.C47_mutation_fails"
   ],
   "note": "Tame histories (no caller mutation, no failed multi-core run); counterexamples otherwise."
  },
  {
   "property": "C48",
   "status": "partial",
   "theorems": [
    "Verif.C48_stable",
    "Verif.C48_reachable_wf",
    "Verif.C48_reload",
    "Verif.C48_bypass_write",
    "Verif.C48_bypass_read_partial",
    "Verif.C48_bypass_fails"
   ],
   "note": "Memory cache stability, reload and bypass of the memory cache; memcache=False does not force the file to be read when a memory entry exists (C48_bypass_fails)."
  },
  {
   "property": "C49",
   "status": "proved",
   "theorems": [
    "Verif.C49_roundtrip",
    "Verif.C49_recorded_fails"
   ],
   "note": "Round trip over any history that does not rewrite the file, including refusal above the recorded n; the recorded n can shrink below the number of stored events (C49_recorded_fails)."
  },
  {
   "property": "C50",
   "status": "partial",
   "theorems": [
    "Verif.C50_independent_partial",
    "Verif.C50_independent_fails"
   ],
   "note": "True for lists returned with conditional_on (any later history); false without find/conditional_on/reduce_fn."
  },
  {
   "property": "C51",
   "status": "proved",
   "theorems": [
    "Verif.C51_cores",
    "Verif.C51_succeeds",
    "Verif.C51_stale_fails"
   ],
   "note": "Every successful multi-core call in a clean directory; it succeeds when nothing raises; false with left-over files (C51_stale_fails)."
  },
  {
   "property": "C52",
   "status": "proved",
   "theorems": [
    "Verif.C52_precision",
    "Verif.C52_order",
    "Verif.C52_between",
    "Verif.C52_weight_zero",
    "Verif.C52_bayes"
   ],
   "note": "All sequences of evidence; also the Bayesian density identity. Exact reals."
  },
  {
   "property": "C53",
   "status": "proved",
   "theorems": [
    "Verif.C53_lognormal",
    "Verif.C53_lognormal_order",
    "Verif.C53_beta",
    "Verif.C53_beta_bayes",
    "Verif.C53_gamma",
    "Verif.C53_gamma_order",
    "Verif.C53_kinds"
   ],
   "note": "All families, all sequences, error branches; a successful update never keeps bounds."
  },
  {
   "property": "C54",
   "status": "proved",
   "theorems": [
    "Verif.C54_range",
    "Verif.C54_odds",
    "Verif.C54_monotone",
    "Verif.C54_sequential",
    "Verif.C54_bayes_rule"
   ],
   "note": "Range, odds, monotonicity, sequential updates, and Bayes' rule on every probability space."
  },
  {
   "property": "C55",
   "status": "proved",
   "theorems": [
    "Verif.C55_p_to_odds",
    "Verif.C55_odds_to_p",
    "Verif.C55_number",
    "Verif.C55_round_trip",
    "Verif.C55_round_trip_odds"
   ],
   "note": "Complete outcome of both conversions and both round trips, for numbers and lists with missing entries"
  },
  {
   "property": "C56",
   "status": "proved",
   "theorems": [
    "Verif.C56_weights",
    "Verif.C56_relative_weights",
    "Verif.C56_unweighted",
    "Verif.C56_between",
    "Verif.C56_constant",
    "Verif.C56_homogeneous",
    "Verif.C56_permutation"
   ],
   "note": "Formula for weights, relative weights and unweighted; bounds, homogeneity for every way of passing values; permutation; values must be positive (log of others is nan)"
  },
  {
   "property": "C57",
   "status": "partial",
   "theorems": [
    "Verif.C57_unweighted_partial",
    "Verif.C57_weights_partial",
    "Verif.C57_between",
    "Verif.C57_single_fails"
   ],
   "note": "Holds when at least two probabilities are kept; geomean_odds of a single probability raises ValueError (C57_single_fails)"
  },
  {
   "property": "C58",
   "status": "proved",
   "theorems": [
    "Verif.C58_trials",
    "Verif.C58_trials_monotone",
    "Verif.C58_time",
    "Verif.C58_time_monotone",
    "Verif.C58_time_ratio",
    "Verif.C58_parameters"
   ],
   "note": "The succession rule and its time-invariant version give probabilities, are monotone as stated and depend on the ratio of the times only; the outcome of each parameter combination is a table. Real arithmetic."
  },
  {
   "property": "C59",
   "status": "proved",
   "theorems": [
    "Verif.C59_growth",
    "Verif.C59_doubling",
    "Verif.C59_arrays",
    "Verif.C59_errors"
   ],
   "note": "Both conversions are mutually inverse and doubling means doubling; arrays elementwise; error cases."
  },
  {
   "property": "C60",
   "status": "proved",
   "theorems": [
    "Verif.C60_accepted",
    "Verif.C60_growth_optimal",
    "Verif.C60_gains",
    "Verif.C60_aliases"
   ],
   "note": "Accepted inputs, the fraction, growth-optimality against every other stake (strict), gains; full/half/third/quarter aliases. Rounding of the reported numbers is part of the model."
  },
  {
   "property": "C61",
   "status": "partial",
   "theorems": [
    "Verif.C61_symmetric_fails",
    "Verif.C61_below_market_partial"
   ],
   "note": "The property is false of the code: below the market price the fraction is not that of the mirrored bet and can exceed the bankroll (witness 0.1 against 0.9). Proved instead: its exact value and when it does agree."
  },
  {
   "property": "C62",
   "status": "proved",
   "theorems": [
    "Verif.C62_probability",
    "Verif.C62_extremes",
    "Verif.C62_monotone",
    "Verif.C62_symmetric",
    "Verif.C62_compose"
   ],
   "note": "Real arithmetic; 1/2 is excluded from the symmetry as the code treats it as the lower branch."
  },
  {
   "property": "C63",
   "status": "proved",
   "theorems": [
    "Verif.C63_entries",
    "Verif.C63_value",
    "Verif.C63_total",
    "Verif.C63_bounds",
    "Verif.C63_monotone",
    "Verif.C63_ends",
    "Verif.C63_permutation",
    "Verif.C63_rank",
    "Verif.C63_affine",
    "Verif.C63_labels",
    "Verif.C63_digits"
   ],
   "note": "value, range, bounds, monotone, ends, permutation, ranks, affine, labels, entries, digits; empty data unmodelled"
  },
  {
   "property": "C64",
   "status": "partial",
   "theorems": [
    "Verif.C64_bounds",
    "Verif.C64_monotone",
    "Verif.C64_scale",
    "Verif.C64_value",
    "Verif.C64_permutation_partial",
    "Verif.C64_permutation_fails",
    "Verif.C64_equal_weights",
    "Verif.C64_equal_weights_median",
    "Verif.C64_length_mismatch"
   ],
   "note": "valid (non-negative, not all zero) weights; bounded, monotone, scale invariant; full value for distinct data; permutation invariance FALSE with equal data (C64_permutation_fails), proved for distinct data"
  },
  {
   "property": "C65",
   "status": "partial",
   "theorems": [
    "Verif.C65_median",
    "Verif.C65_mean",
    "Verif.C65_brackets",
    "Verif.C65_mean_brackets",
    "Verif.C65_coverage",
    "Verif.C65_out_of_range",
    "Verif.C65_negative_credibility_fails",
    "Verif.C65_weighted_mean_fails"
   ],
   "note": "brackets, coverage, mean bounds proved; the weighted mean clause is FALSE (weights ignored); negative credibility accepted and inverted"
  },
  {
   "property": "C66",
   "status": "partial",
   "theorems": [
    "Verif.C66_single_display_fails",
    "Verif.C66_single_display_returns_none",
    "Verif.C66_display_partial",
    "Verif.C66_log_value_partial",
    "Verif.C66_rounding_fails"
   ],
   "note": "FALSE: single percentile with display returns None; rounding before log10; proved for several percentiles and for unrounded logs"
  },
  {
   "property": "C67",
   "status": "partial",
   "theorems": [
    "Verif.C67_custom",
    "Verif.C67_partition",
    "Verif.C67_histogram",
    "Verif.C67_histogram_total",
    "Verif.C67_equal_width",
    "Verif.C67_label_mismatch",
    "Verif.C67_default_fails",
    "Verif.C67_gap_labels_fails",
    "Verif.C67_last_bucket_fails",
    "Verif.C67_repeated_label_fails",
    "Verif.C67_default_labels"
   ],
   "note": "custom, histogram and equal-width buckets proved with distinct labels; partition of contiguous buckets; FALSE clauses proved: default arguments raise TypeError, default labels wrong for gaps and for the last histogram bucket, repeated labels drop counts; empty data with normalize unmodelled"
  },
  {
   "property": "C68",
   "status": "proved",
   "theorems": [
    "Verif.C68_event",
    "Verif.C68_certain_and_impossible",
    "Verif.C68_event_uncertain",
    "Verif.C68_bernoulli"
   ],
   "note": "The set of uniform numbers on which the event happens has Lebesgue measure p; a distribution as probability is sampled once first; bernoulli likewise (n samples: C81)."
  },
  {
   "property": "C69",
   "status": "partial",
   "theorems": [
    "Verif.C69_shape_partial",
    "Verif.C69_odds_shape_partial",
    "Verif.C69_one_sample_partial",
    "Verif.C69_tdist_fails"
   ],
   "note": "p_to_odds, odds_to_p and one sample of every regular expression; proved false for tdist without an interval"
  },
  {
   "property": "C70",
   "status": "proved",
   "theorems": [
    "Verif.C70_affine",
    "Verif.C70_value"
   ],
   "note": "Affine invariance for every list of returns and sign flip; value as mean over population standard deviation."
  },
  {
   "property": "C71",
   "status": "partial",
   "theorems": [
    "Verif.C71_exact_partial",
    "Verif.C71_fails",
    "Verif.C71_unary_fails"
   ],
   "note": "proved false in both directions (unary operations, numeric operands; comparisons); exact characterisation"
  },
  {
   "property": "C72",
   "status": "proved",
   "theorems": [
    "Verif.C72_construct",
    "Verif.C72_refused",
    "Verif.C72_sample_refused",
    "Verif.C72_sample_accepted",
    "Verif.C72_count",
    "Verif.C72_operators"
   ],
   "note": ""
  },
  {
   "property": "C73",
   "status": "proved",
   "theorems": [
    "Verif.C73_quantiles_inside",
    "Verif.C73_target_correlation"
   ],
   "note": "Cholesky factors given by their defining equations; exact arithmetic; quantiles are only taken inside (0, 1)"
  },
  {
   "property": "C74",
   "status": "partial",
   "theorems": [
    "Verif.C74_copies_partial",
    "Verif.C74_nested_fails"
   ],
   "note": "proved false with a concrete witness; what holds: all copies made by one call stay linked among themselves"
  },
  {
   "property": "C75",
   "status": "partial",
   "theorems": [
    "Verif.C75_sampleable_partial",
    "Verif.C75_sampleable_fails",
    "Verif.C75_discrete_partial",
    "Verif.C75_mixture_partial",
    "Verif.C75_die_partial"
   ],
   "note": "proved false for every refusing generator; proved under the parameter conditions that construction does not check, for basic distributions, discrete lists, mixtures with weights summing to at least one, and (unless a roll never ends) exploding dice"
  },
  {
   "property": "C76",
   "status": "partial",
   "theorems": [
    "Verif.C76_bounds_partial",
    "Verif.C76_bounds_fails"
   ],
   "note": "proved false for triangular (bounds dropped); proved for every other constructor"
  },
  {
   "property": "C77",
   "status": "partial",
   "theorems": [
    "Verif.C77_dump_partial",
    "Verif.C77_dump_fails"
   ],
   "note": "Old, complete new or truncated with TypeError; the negation for every unencodable event."
  },
  {
   "property": "C78",
   "status": "partial",
   "theorems": [
    "Verif.C78_own_events_partial",
    "Verif.C78_own_events_fails"
   ],
   "note": "Histories without caller mutation, failed multi-core runs and file loads for that function; negation with files."
  },
  {
   "property": "C79",
   "status": "partial",
   "theorems": [
    "Verif.C79_between_normal_partial",
    "Verif.C79_between_beta_partial",
    "Verif.C79_between_gamma_fails",
    "Verif.C79_between_lognormal_fails"
   ],
   "note": "Proved for normal and beta; refuted for every gamma and every lognormal distribution."
  },
  {
   "property": "C80",
   "status": "partial",
   "theorems": [
    "Verif.C80_average",
    "Verif.C80_relative_fails"
   ],
   "note": "Proved for default, one weight, two weights, and relative weights with weights=None; refuted for relative_weights with the default weights."
  },
  {
   "property": "C81",
   "status": "proved",
   "theorems": [
    "Verif.C81_named_law",
    "Verif.C81_die"
   ],
   "note": "An exact characterisation (iff) of sample() for every distribution with one numpy law, and of dice. Categorical/mixture: C05; tdist intervals: C82."
  },
  {
   "property": "C82",
   "status": "partial",
   "theorems": [
    "Verif.C82_translation_fails",
    "Verif.C82_scale_partial",
    "Verif.C82_law_partial"
   ],
   "note": "The property is false of the code (exact discrepancy proved for every draw); stretching is proved, and the exact law of the samples for every interval (ideal generator of C86)."
  },
  {
   "property": "C83",
   "status": "partial",
   "theorems": [
    "Verif.C83_floor",
    "Verif.C83_ceil",
    "Verif.C83_exp_single_partial",
    "Verif.C83_log_single_partial",
    "Verif.C83_log_fails",
    "Verif.C83_round_fails",
    "Verif.C83_exp_fails",
    "Verif.C83_round_single_partial",
    "Verif.C83_round_one_element",
    "Verif.C83_round_none"
   ],
   "note": "Proved for floor, ceil and dist_round(d, None) for every n, for round with digits, exp and log one sample at a time. FALSE for dist_round with digits, dist_exp and dist_log with n >= 2: always an exception."
  },
  {
   "property": "C84",
   "status": "partial",
   "theorems": [
    "Verif.C84_growth_single_partial",
    "Verif.C84_doubling_single_partial",
    "Verif.C84_growth_fails",
    "Verif.C84_doubling_fails"
   ],
   "note": "Proved one sample at a time. FALSE for n >= 2: the distributions returned can never be sampled more than once at a time."
  },
  {
   "property": "C85",
   "status": "partial",
   "theorems": [
    "Verif.C85_own_arrays_partial",
    "Verif.C85_new_array_partial",
    "Verif.C85_fails"
   ],
   "note": "Proved for arrays returned with memcache=False: all later results are unaffected. FALSE with memcache=True: the cached array is the returned one, so an assignment changes later results."
  },
  {
   "property": "C86",
   "status": "proved",
   "theorems": [
    "Verif.C86_independent_samples",
    "Verif.C86_stream_left",
    "Verif.C86_two_calls"
   ],
   "note": "Under the idealisation that numpy's numbers are functions of independent inputs. Powers need a natural exponent, or a positive base and an exponent that is not negative; tdist and log_tdist need an interval. Not covered: lclip/rclip as functions, strings, truth values (C100), user functions that return distributions or change state, correlated variables (C97)."
  },
  {
   "property": "C87",
   "status": "proved",
   "theorems": [
    "Verif.C87_mean",
    "Verif.C87_frequency",
    "Verif.C87_mean_limit"
   ],
   "note": "Same idealisation as C86."
  },
  {
   "property": "C88",
   "status": "proved",
   "theorems": [
    "Verif.C88_norm_frequency",
    "Verif.C88_lognorm_frequency",
    "Verif.C88_norm_sum",
    "Verif.C88_norm_self_difference"
   ],
   "note": "Same idealisation as C86; numpy's normal and lognormal laws are hypotheses, satisfied by the example source."
  },
  {
   "property": "C89",
   "status": "proved",
   "theorems": [
    "Verif.C89_events",
    "Verif.C89_conditional",
    "Verif.C89_simple_bayes"
   ],
   "note": "ideal generator; one core, no cached events, no dump file; distributions sampled inside the event function are fixed"
  },
  {
   "property": "C90",
   "status": "proved",
   "theorems": [
    "Verif.C90_percentile",
    "Verif.C90_percentile_limit",
    "Verif.C90_median_ci_limit",
    "Verif.C90_mean_ci_limit",
    "Verif.C90_norm_recovered",
    "Verif.C90_lognorm_recovered"
   ],
   "note": "Percentiles, mean and intervals of samples; convergence is in probability, with an explicit bound for percentiles. Real arithmetic, ideal generator."
  },
  {
   "property": "C91",
   "status": "proved",
   "theorems": [
    "Verif.C91_numbers",
    "Verif.C91_distributions",
    "Verif.C91_frequency"
   ],
   "note": "For functions whose law is given by EventLaw (draws from distributions of C86, branches, measurable computations), with an ideal random source."
  },
  {
   "property": "C92",
   "status": "proved",
   "theorems": [
    "Verif.C92_series"
   ],
   "note": "For one process, without caches; distributions of C86 and functions of C91; ideal random source."
  },
  {
   "property": "C93",
   "status": "proved",
   "theorems": [
    "Verif.C93_refused",
    "Verif.C93_accepted",
    "Verif.C93_too_few_samples",
    "Verif.C93_few_values",
    "Verif.C93_example"
   ],
   "note": "refused exactly when some column is too repetitive (if the linear algebra itself raises no ValueError)"
  },
  {
   "property": "C94",
   "status": "proved",
   "theorems": [
    "Verif.C94_law",
    "Verif.C94_law_unique",
    "Verif.C94_unfinished",
    "Verif.C94_mean",
    "Verif.C94_example"
   ],
   "note": "Fair dice assumed of the generator."
  },
  {
   "property": "C95",
   "status": "partial",
   "theorems": [
    "Verif.C95_counted",
    "Verif.C95_share_partial",
    "Verif.C95_short",
    "Verif.C95_exact_iff",
    "Verif.C95_dict_iff",
    "Verif.C95_dict_content",
    "Verif.C95_dict_partial",
    "Verif.C95_same_key_iff",
    "Verif.C95_value_keys",
    "Verif.C95_number_keys",
    "Verif.C95_merged_fails",
    "Verif.C95_dict_fails",
    "Verif.C95_exact_example"
   ],
   "note": "Proved false (long lists merge distributions that print the same, dicts keep one of them); exact for every property that does not tell such items apart; exact characterisation of when discrete is the empirical distribution, of when a dict keeps its entries and of which distributions are identified."
  },
  {
   "property": "C96",
   "status": "partial",
   "theorems": [
    "Verif.C96_die_now",
    "Verif.C96_discrete_now",
    "Verif.C96_discrete_contents",
    "Verif.C96_mixture_contents",
    "Verif.C96_unchanged_partial",
    "Verif.C96_copied",
    "Verif.C96_sampling_keeps_items",
    "Verif.C96_die_fails",
    "Verif.C96_die_example",
    "Verif.C96_discrete_fails"
   ],
   "note": "Proved false for exploding dice built from a list and for discrete; proved for every history that leaves the passed list or dict alone, and for all histories for mixtures, single exploding faces and numpy arrays."
  },
  {
   "property": "C97",
   "status": "proved",
   "theorems": [
    "Verif.C97_kept",
    "Verif.C97_own_law",
    "Verif.C97_possible",
    "Verif.C97_frequency"
   ],
   "note": "For members that are continuous, without bounds of their own, when target scores do not tie (NoTiedTargets); C97_kept gives the version without that assumption. Assumes the external functions are row blind, which rowBlind_pearson proves for np.corrcoef and spearmanr. Example: two normal variables, Cholesky factors of size two."
  },
  {
   "property": "C98",
   "status": "partial",
   "theorems": [
    "Verif.C98_complete",
    "Verif.C98_crash",
    "Verif.C98_crash_fails",
    "Verif.C98_stuck",
    "Verif.C98_repair",
    "Verif.C98_concurrent_partial",
    "Verif.C98_same",
    "Verif.C98_reader_partial",
    "Verif.C98_concurrent_fails",
    "Verif.C98_reader_fails"
   ],
   "note": "Proved false (crash between the first and last step, mixtures of concurrent dumps, zeros read during dumps); exact outcome of every crash point, of calls on a damaged file, and of every interleaving of completed dumps"
  },
  {
   "property": "C99",
   "status": "partial",
   "theorems": [
    "Verif.C99_no_date",
    "Verif.C99_outcome",
    "Verif.C99_tomorrow_fails",
    "Verif.C99_value_partial",
    "Verif.C99_overstates",
    "Verif.C99_later",
    "Verif.C99_past_fails"
   ],
   "note": "Proved false (ZeroDivisionError the day before, losses once the date has begun, overstated otherwise); exact error condition and exact value up to the rounding to three digits"
  },
  {
   "property": "C100",
   "status": "partial",
   "theorems": [
    "Verif.C100_law_partial",
    "Verif.C100_frequency_partial",
    "Verif.C100_equality_fails"
   ],
   "note": "Proved for >, >=, < and <= (ideal generator of C86); proved false for == and !=, which estimate the probability of <="
  },
  {
   "property": "C101",
   "status": "proved",
   "theorems": [
    "Verif.C101_bounds",
    "Verif.C101_between",
    "Verif.C101_above",
    "Verif.C101_below",
    "Verif.C101_own_or_call"
   ],
   "note": "the distribution has no bounds of its own; with own bounds see C101_own_or_call"
  },
  {
   "property": "C102",
   "status": "proved",
   "theorems": [
    "Verif.C102_variance_mixture",
    "Verif.C102_mean",
    "Verif.C102_variance",
    "Verif.C102_mean_add",
    "Verif.C102_mean_sub",
    "Verif.C102_mean_mul",
    "Verif.C102_mean_mixture",
    "Verif.C102_variance_add",
    "Verif.C102_variance_sub",
    "Verif.C102_variance_scaled"
   ],
   "note": "IEEE rounding not modelled"
  },
  {
   "property": "C103",
   "status": "proved",
   "theorems": [
    "Verif.C103_average",
    "Verif.C103_conditional_mean"
   ],
   "note": "single core, no cached events"
  },
  {
   "property": "C104",
   "status": "partial",
   "theorems": [
    "Verif.C104_last_takes_rest_partial",
    "Verif.C104_law_partial",
    "Verif.C104_failure"
   ],
   "note": "Proved for up to 100 samples and for weights with a sum of at least 1 (and the others below 1). FALSE for more than 100 samples of two or more components with a sum t below 1: IndexError with probability exactly 1 - t^n."
  },
  {
   "property": "C105",
   "status": "proved",
   "theorems": [
    "Verif.C105_same_law",
    "Verif.C105_same_law_iff",
    "Verif.C105_replace_operands",
    "Verif.C105_replace_components",
    "Verif.C105_commute",
    "Verif.C105_associate",
    "Verif.C105_subtract",
    "Verif.C105_mixture_distributes",
    "Verif.C105_mixture_flattens",
    "Verif.C105_norm_affine",
    "Verif.C105_uniform_affine",
    "Verif.C105_norm_sum",
    "Verif.C105_lognorm_product",
    "Verif.C105_lognorm_scale",
    "Verif.C105_reciprocal",
    "Verif.C105_not_double",
    "Verif.C105_bernoulli",
    "Verif.C105_discrete",
    "Verif.C105_zero_inflated_twice"
   ],
   "note": "For expressions whose law is given by Denotes. C105_same_law_iff: same samples exactly when the laws are equal. C105_not_double: x + x and 2 * x differ."
  },
  {
   "property": "C106",
   "status": "proved",
   "theorems": [
    "Verif.C106_mean"
   ],
   "note": "For continuous members without bounds, when target scores do not tie (C97)."
  },
  {
   "property": "C107",
   "status": "partial",
   "theorems": [
    "Verif.C107_within_partial",
    "Verif.C107_own_bounds_partial",
    "Verif.C107_leak_fails",
    "Verif.C107_constant_fails",
    "Verif.C107_own_bound_on_hit_fails",
    "Verif.C107_call"
   ],
   "note": "The bounds passed in the call itself always hold (C107_call: any caches, files, cores). The distribution's own bounds hold when bounds are in order and (second half) no cached call passes bounds; the bounds of the first cached call leak into all later ones (C107_leak_fails, C107_constant_fails), and on a cache hit the distribution's own bound can be exceeded when bounds contradict (C107_own_bound_on_hit_fails)."
  },
  {
   "property": "C108",
   "status": "proved",
   "theorems": [
    "Verif.C108_value",
    "Verif.C108_exact",
    "Verif.C108_monotone",
    "Verif.C108_digits",
    "Verif.C108_zero",
    "Verif.C108_text"
   ],
   "note": "The text is proved for digits=0; how a float prints (digits > 0) is not modelled."
  },
  {
   "property": "C109",
   "status": "proved",
   "theorems": [
    "Verif.C109_members",
    "Verif.C109_places",
    "Verif.C109_double_resolve",
    "Verif.C109_law"
   ],
   "note": "The choice through Counter for lists of 100 or more items is C95; resolving twice is stated for shorter lists, where both constructors process the items alike."
  },
  {
   "property": "C110",
   "status": "proved",
   "theorems": [
    "Verif.C110_mean",
    "Verif.C110_variance",
    "Verif.C110_generator"
   ],
   "note": "the mean and variance rules for all the listed distributions and operations, under the documented laws of numpy's primitives (C110_generator shows that a generator with these laws exists); sampled t distributions, powers and quotients of distributions are not among the rules"
  },
  {
   "property": "C111",
   "status": "proved",
   "theorems": [
    "Verif.C111_error",
    "Verif.C111_interval",
    "Verif.C111_level",
    "Verif.C111_probability",
    "Verif.C111_model_mean"
   ],
   "note": "for every law the model knows (Denotes); a version for models whose mean and variance are worked out by hand (C111_model_mean)"
  },
  {
   "property": "C112",
   "status": "proved",
   "theorems": [
    "Verif.C112_chance",
    "Verif.C112_frequency",
    "Verif.C112_percentile"
   ],
   "note": "Chances of being below a threshold for every model built by the listed rules, from numpy's documented laws; plus the fraction of samples and percentiles. gamma, beta, chisquare and pert have no closed distribution function and are left out, as are sums of two distributions."
  },
  {
   "property": "C113",
   "status": "proved",
   "theorems": [
    "Verif.C113_chance",
    "Verif.C113_total",
    "Verif.C113_moments",
    "Verif.C113_frequency"
   ],
   "note": "Enumeration of outcomes for models with finitely many of them; an exploding die has infinitely many outcomes and is C94."
  },
  {
   "property": "C114",
   "status": "proved",
   "theorems": [
    "Verif.C114_total",
    "Verif.C114_frequency",
    "Verif.C114_conditional",
    "Verif.C114_conditional_mean"
   ],
   "note": "README examples worked out: alarm network, Monty Hall, bags of dice. The README's ~0.27 for the alarm network is 0.284 exactly."
  },
  {
   "property": "C115",
   "status": "proved",
   "theorems": [
    "Verif.C115_normalize",
    "Verif.C115_not_exact"
   ],
   "note": "sums of non-negative floats; the result need not sum to 1 exactly (C115_not_exact)"
  },
  {
   "property": "C116",
   "status": "proved",
   "theorems": [
    "Verif.C116_accepted",
    "Verif.C116_refused",
    "Verif.C116_default",
    "Verif.C116_relative",
    "Verif.C116_missing"
   ],
   "note": "lists of up to 2^p/100000 weights"
  },
  {
   "property": "C117",
   "status": "partial",
   "theorems": [
    "Verif.C117_small",
    "Verif.C117_share_partial",
    "Verif.C117_failure",
    "Verif.C117_share_small",
    "Verif.C117_rounding_fails"
   ],
   "note": "the bound on the chances is proved; that no call fails is violated by the code (C117_rounding_fails), and the chance of failing is bounded (C117_failure)"
  },
  {
   "property": "C118",
   "status": "partial",
   "theorems": [
    "Verif.C118_odds",
    "Verif.C118_prob",
    "Verif.C118_round_trip",
    "Verif.C118_round_trip_odds_partial",
    "Verif.C118_huge_odds_fails",
    "Verif.C118_laplace"
   ],
   "note": "the round trip from odds is violated by the code for huge odds (C118_huge_odds_fails); bound for moderate odds proved"
  },
  {
   "property": "C119",
   "status": "proved",
   "theorems": [
    "Verif.C119_kelly"
   ],
   "note": "numbers before they are rounded for display"
  },
  {
   "property": "C120",
   "status": "proved",
   "theorems": [
    "Verif.C120_chance",
    "Verif.C120_exact",
    "Verif.C120_half",
    "Verif.C120_certain"
   ],
   "note": "uniform numbers are multiples of 2^(-p)"
  },
  {
   "property": "C121",
   "status": "partial",
   "theorems": [
    "Verif.C121_uniform",
    "Verif.C121_high_attained",
    "Verif.C121_pert_partial",
    "Verif.C121_pert_fails"
   ],
   "note": "uniform is proved; for pert the code violates the property when the beta draw is 1 (C121_pert_fails), otherwise it is proved (C121_pert_partial)"
  },
  {
   "property": "C122",
   "status": "proved",
   "theorems": [
    "Verif.C122_simple_bayes"
   ],
   "note": ""
  },
  {
   "property": "C123",
   "status": "proved",
   "theorems": [
    "Verif.C123_mean",
    "Verif.C123_sd"
   ],
   "note": "sd ** 2 is taken as the correctly rounded square"
  },
  {
   "property": "C124",
   "status": "partial",
   "theorems": [
    "Verif.C124_norm",
    "Verif.C124_positive_partial",
    "Verif.C124_positive_fails"
   ],
   "note": "interval and bounds proved; positivity of sd is violated by the code for neighbouring floats (C124_positive_fails)"
  },
  {
   "property": "C125",
   "status": "partial",
   "theorems": [
    "Verif.C125_normal",
    "Verif.C125_lognormal",
    "Verif.C125_gamma",
    "Verif.C125_weight_zero",
    "Verif.C125_limit",
    "Verif.C125_beta_fails",
    "Verif.C125_beta_partial"
   ],
   "note": "proved for normal, lognormal and gamma; the code ignores the weight for beta (C125_beta_fails)"
  },
  {
   "property": "C126",
   "status": "proved",
   "theorems": [
    "Verif.C126_law",
    "Verif.C126_moments"
   ],
   "note": "ideal generator; relative weights with weights=None (otherwise C80_relative_fails)"
  },
  {
   "property": "C127",
   "status": "proved",
   "theorems": [
    "Verif.C127_fractions",
    "Verif.C127_percentiles",
    "Verif.C127_table",
    "Verif.C127_limit",
    "Verif.C127_norm"
   ],
   "note": "for all distributions the model gives a law; the constant is not optimal"
  },
  {
   "property": "C128",
   "status": "proved",
   "theorems": [
    "Verif.C128_linked",
    "Verif.C128_fails_alike",
    "Verif.C128_raise",
    "Verif.C128_norm_shift",
    "Verif.C128_sum_sensitivity",
    "Verif.C128_dominance"
   ],
   "note": "Assumes, as an explicit hypothesis (FromStandard), that numpy makes uniform, normal, lognormal, exponential and gamma numbers from standard ones whose stream does not depend on location and scale; met by the example source. Families other than uniform, norm, lognorm, exponential, gamma, bernoulli, pert and const may appear unchanged; the weights of mixtures are unchanged."
  },
  {
   "property": "C129",
   "status": "partial",
   "theorems": [
    "Verif.C129_batches",
    "Verif.C129_mean",
    "Verif.C129_fraction",
    "Verif.C129_mean_limit",
    "Verif.C129_variance_fails",
    "Verif.C129_error_bars_fails",
    "Verif.C129_too_narrow"
   ],
   "note": "Proved: success, independence within every batch, convergence, and an error bound c times that of one core for every distribution of tasks. FALSE: with one task per process the variance of the average is exactly c times that of n samples (C129_variance_fails) and the usual error bars are too narrow by the factor sqrt c (C129_error_bars_fails, C129_too_narrow)."
  },
  {
   "property": "C130",
   "status": "partial",
   "theorems": [
    "Verif.C130_events",
    "Verif.C130_conditional",
    "Verif.C130_limit",
    "Verif.C130_no_gain_fails"
   ],
   "note": "Convergence and the error bound 4 c exp(-2 (n/c) (\u03b4 p/(2+\u03b4))\u00b2) hold for every schedule (C130_events, C130_conditional, C130_limit). That n events on c cores are worth n events on one core is false: C130_no_gain_fails shows that with one task per process c\u00b7k events give exactly the answer of k events on one core."
  },
  {
   "property": "C131",
   "status": "partial",
   "theorems": [
    "Verif.C131_refines",
    "Verif.C131_correlated_partial",
    "Verif.C131_built_from_fails",
    "Verif.C131_twice_fails",
    "Verif.C131_pending_fails",
    "Verif.C131_program"
   ],
   "note": "Proved: sampling objects equals sampling the written-out tree, and the results of correlate on separate variables are such trees. Missing, because the code fails it (negations proved): variables built from one another, a variable given twice, and kept samples that correlate copies."
  },
  {
   "property": "C132",
   "status": "partial",
   "theorems": [
    "Verif.C132_extends_partial",
    "Verif.C132_first_sample_partial",
    "Verif.C132_small_mixture_partial",
    "Verif.C132_bayesnet",
    "Verif.C132_sum_fails",
    "Verif.C132_mixture_fails"
   ],
   "note": "Proved for every model with one source of randomness (basic distributions, operations with numbers, bounds, functions of each sample, Python functions), for one sample of basic distributions, for mixtures of any models up to 100 samples, and for bayesnet. FALSE for sums of two distributions and for mixtures beyond 100 samples."
  },
  {
   "property": "C133",
   "status": "partial",
   "theorems": [
    "Verif.C133_length",
    "Verif.C133_agrees",
    "Verif.C133_value_iff",
    "Verif.C133_rows",
    "Verif.C133_nan_kept",
    "Verif.C133_not_finite",
    "Verif.C133_by_zero",
    "Verif.C133_infinity",
    "Verif.C133_hidden_fails",
    "Verif.C133_one_partial",
    "Verif.C133_one_matches",
    "Verif.C133_one_error",
    "Verif.C133_one_numpy_fails",
    "Verif.C133_one_many_fails",
    "Verif.C133_bounds",
    "Verif.C133_shares",
    "Verif.C133_mean",
    "Verif.C133_extends",
    "Verif.C133_draws"
   ],
   "note": "Proved for several samples, for one sample of + - * / and negation, for means, bounds and chances, and as an extension of the main sampler. FALSE: one sample whose divisor goes through dist_max, dist_min, lclip or rclip gives an infinity instead of raising; a division by zero need not show in the sample."
  },
  {
   "property": "C134",
   "status": "partial",
   "theorems": [
    "Verif.C134_first_partial",
    "Verif.C134_kept_fails",
    "Verif.C134_pair_partial",
    "Verif.C134_end_partial",
    "Verif.C134_count_fails",
    "Verif.C134_one_core_fails",
    "Verif.C134_expression",
    "Verif.C134_example_fails"
   ],
   "note": "FALSE for two calls: every core makes a joint draw but only the last core's other columns survive and are returned once per core (C134_kept_fails, C134_count_fails, C134_one_core_fails); proved: what each call returns for every schedule, the ends of both results are one joint draw, and one call on an expression of two variables combines values of one joint draw"
  },
  {
   "property": "C135",
   "status": "proved",
   "theorems": [
    "Verif.C135_poisson_sum",
    "Verif.C135_binomial_sum",
    "Verif.C135_bernoulli_count",
    "Verif.C135_gamma_special",
    "Verif.C135_gamma_sum",
    "Verif.C135_gamma_scale",
    "Verif.C135_exponential_total",
    "Verif.C135_chisquare_total",
    "Verif.C135_exponential_min",
    "Verif.C135_geometric_min",
    "Verif.C135_exponential_ceil",
    "Verif.C135_beta_reflect",
    "Verif.C135_beta_max",
    "Verif.C135_uniform_power",
    "Verif.C135_uniform_sum",
    "Verif.C135_pert_flat",
    "Verif.C135_die_list",
    "Verif.C135_list_counts",
    "Verif.C135_dict_mixture",
    "Verif.C135_bernoulli_dict",
    "Verif.C135_pareto"
   ],
   "note": "laws as numpy documents them, exact real arithmetic"
  },
  {
   "property": "C136",
   "status": "partial",
   "theorems": [
    "Verif.C136_same_result",
    "Verif.C136_same_batch",
    "Verif.C136_silent_partial",
    "Verif.C136_bars_end",
    "Verif.C136_bars_end_cores_partial",
    "Verif.C136_silent_fails",
    "Verif.C136_bars_end_cores_fails"
   ],
   "note": "Proved: results never depend on verbose; silence below a million samples; bars end exactly with one core, and with several cores when these divide n. FALSE otherwise: with a million samples or more, components of mixtures are sampled with the default verbose, so verbose=False still shows the bars of nested mixtures; with several cores the parent's bar counts (cores-1)*(n mod cores) too far. Lines of text printed around the bars are not modelled."
  },
  {
   "property": "C137",
   "status": "proved",
   "theorems": [
    "Verif.C137_defined",
    "Verif.C137_between",
    "Verif.C137_monotone",
    "Verif.C137_extremes",
    "Verif.C137_odd_median",
    "Verif.C137_accuracy",
    "Verif.C137_interval"
   ],
   "note": "np.percentile as numpy computes it, with any correct rounding after each operation; get_median_and_ci without weights and digits."
  },
  {
   "property": "C138",
   "status": "partial",
   "theorems": [
    "Verif.C138_accuracy",
    "Verif.C138_accuracy_numpy",
    "Verif.C138_monotone",
    "Verif.C138_between_partial",
    "Verif.C138_between_fails",
    "Verif.C138_frequency",
    "Verif.C138_probability",
    "Verif.C138_inclusion"
   ],
   "note": "Accuracy, monotonicity and the statements on bayesnet are proved for every order of additions. FALSE: that the mean lies between the smallest and the largest of the data (C138_between_fails: three times 0.1); proved up to rounding for positive data (C138_between_partial)."
  },
  {
   "property": "C139",
   "status": "proved",
   "theorems": [
    "Verif.C139_accuracy",
    "Verif.C139_whole",
    "Verif.C139_cancellation_fails"
   ],
   "note": "Any correct rounding to p binary digits; overflow and subnormal numbers are left out. The error bound is for models without subtraction; C139_cancellation_fails shows that there is none with it."
  },
  {
   "property": "C140",
   "status": "partial",
   "theorems": [
    "Verif.C140_same_result",
    "Verif.C140_silent",
    "Verif.C140_missing",
    "Verif.C140_generating",
    "Verif.C140_saved",
    "Verif.C140_followed_up",
    "Verif.C140_bar",
    "Verif.C140_done",
    "Verif.C140_loading_memory",
    "Verif.C140_loading_file",
    "Verif.C140_bar_cores_fails",
    "Verif.C140_sample_same",
    "Verif.C140_sample_silent",
    "Verif.C140_sample_saved",
    "Verif.C140_sample_loading_partial",
    "Verif.C140_sample_cores",
    "Verif.C140_sample_loading_fails"
   ],
   "note": "False in two cases, both proved: with several cores the bar of bayesnet counts beyond its total (C140_bar_cores_fails), and sample announces the in-memory cache when it holds None but samples again (C140_sample_loading_fails)."
  },
  {
   "property": "C141",
   "status": "partial",
   "theorems": [
    "Verif.C141_left_over",
    "Verif.C141_right_iff",
    "Verif.C141_exact",
    "Verif.C141_single",
    "Verif.C141_single_left_over",
    "Verif.C141_overflow_fails",
    "Verif.C141_single_fails"
   ],
   "note": "Exact for results that fit into 64 bits and for single samples without comparisons; false beyond (C141_overflow_fails, C141_single_fails), where the samples are the exact numbers modulo 2^64. Comparisons inside the model are assumed to be between numbers that fit."
  },
  {
   "property": "C142",
   "status": "partial",
   "theorems": [
    "Verif.C142_cores_partial",
    "Verif.C142_named_float",
    "Verif.C142_cores_fails",
    "Verif.C142_exact",
    "Verif.C142_named_partial",
    "Verif.C142_values",
    "Verif.C142_quintillion_fails",
    "Verif.C142_late_fails"
   ],
   "note": "Exact where every result on the way fits into 64 bits or is computed with a number too wide for them (in particular for sextillion and beyond); false for quintillion (C142_quintillion_fails), where a wide number comes in too late (C142_late_fails), and beyond 2^53 with several cores (C142_cores_fails). Literals from 2^63 up to 2^64 and bounds on arrays of objects are not modelled."
  },
  {
   "property": "C143",
   "status": "partial",
   "theorems": [
    "Verif.C143_beta",
    "Verif.C143_laplace",
    "Verif.C143_normal",
    "Verif.C143_lognormal",
    "Verif.C143_gamma_fails",
    "Verif.C143_laplace_time",
    "Verif.C143_beta_samples",
    "Verif.C143_normal_samples",
    "Verif.C143_lognormal_samples"
   ],
   "note": "Proved for beta, normal and lognormal distributions (law of the result and of its samples), and for laplace with trials and with times. For gamma distributions the claim is false for all parameters (C143_gamma_fails): rates are averaged instead of added."
  },
  {
   "property": "C144",
   "status": "proved",
   "theorems": [
    "Verif.C144_update_chance",
    "Verif.C144_update_mean",
    "Verif.C144_laplace",
    "Verif.C144_update_chance_cores",
    "Verif.C144_laplace_cores"
   ],
   "note": "Event function with a loop of N trials; one core, no cached events."
  },
  {
   "property": "C145",
   "status": "proved",
   "theorems": [
    "Verif.C145_evidence",
    "Verif.C145_evidence_weights",
    "Verif.C145_complement",
    "Verif.C145_complement_weights",
    "Verif.C145_monotone",
    "Verif.C145_geomean_fails"
   ],
   "note": "Lists keeping at least two probabilities (one alone raises ValueError, C57_single_fails); C145_geomean_fails shows the contrast with geomean"
  },
  {
   "property": "C146",
   "status": "partial",
   "theorems": [
    "Verif.C146_growth",
    "Verif.C146_beats",
    "Verif.C146_reported_partial",
    "Verif.C146_reported_fails"
   ],
   "note": "C146_growth and C146_beats for the exact best stake; C146_reported_partial for reported stakes below 1; C146_reported_fails: kelly reports 1.0 for best stakes above 0.9995, which loses everything at the first loss"
  },
  {
   "property": "C147",
   "status": "proved",
   "theorems": [
    "Verif.C147_read",
    "Verif.C147_days",
    "Verif.C147_return",
    "Verif.C147_eve",
    "Verif.C147_refused"
   ],
   "note": "Digits are the ten ASCII digits. That the call raises on the day before is recorded as a fault under C99."
  },
  {
   "property": "C148",
   "status": "partial",
   "theorems": [
    "Verif.C148_call",
    "Verif.C148_bounds_partial",
    "Verif.C148_crossed_fails",
    "Verif.C148_left_over_fails",
    "Verif.C148_law"
   ],
   "note": "The bounds of the call always hold; all bounds hold if they are in order and no files are left over; law as on one core. Violations proved: crossing bounds give another result on several cores, left-over files break the bounds of the distribution."
  },
  {
   "property": "C149",
   "status": "proved",
   "theorems": [
    "Verif.C149_coherent",
    "Verif.C149_sum",
    "Verif.C149_product",
    "Verif.C149_total",
    "Verif.C149_bayes",
    "Verif.C149_bayes_given",
    "Verif.C149_fresh_fails"
   ],
   "note": "With memcache=True; C149_fresh_fails shows that the cache is needed."
  },
  {
   "property": "C150",
   "status": "proved",
   "theorems": [
    "Verif.C150_reads_back",
    "Verif.C150_norm",
    "Verif.C150_pert_fails",
    "Verif.C150_lognorm_fails",
    "Verif.C150_text_fails",
    "Verif.C150_coin_fails"
   ],
   "note": "C150_reads_back for the listed families, C150_norm for normal distributions with any parameters; the _fails theorems give the families whose text cannot be typed in. Categorical distributions and exploding dice are not covered (their printed lists are not modelled)."
  },
  {
   "property": "C151",
   "status": "proved",
   "theorems": [
    "Verif.C151_units",
    "Verif.C151_mirror",
    "Verif.C151_dominance",
    "Verif.C151_close",
    "Verif.C151_intervals",
    "Verif.C151_intervals_mirror",
    "Verif.C151_weighted"
   ],
   "note": "C151_units, C151_mirror, C151_dominance, C151_close for percentiles; C151_intervals, C151_intervals_mirror for the intervals; C151_weighted with weights."
  },
  {
   "property": "C152",
   "status": "proved",
   "theorems": [
    "Verif.C152_round_trip",
    "Verif.C152_crash",
    "Verif.C152_all_or_error",
    "Verif.C152_trailing",
    "Verif.C152_refuses",
    "Verif.C152_same",
    "Verif.C152_again",
    "Verif.C152_injective",
    "Verif.C152_batch"
   ],
   "note": "Bytes are modelled for the values listed; bytes, sets, dates and dictionaries with other keys, which msgspec could also write, are outside the model (Model/MsgPack)."
  },
  {
   "property": "C153",
   "status": "proved",
   "theorems": [
    "Verif.C153_possible",
    "Verif.C153_round_trip",
    "Verif.C153_crash",
    "Verif.C153_all_or_error",
    "Verif.C153_injective",
    "Verif.C153_trailing",
    "Verif.C153_aligned"
   ],
   "note": "Arrays of objects (texts among the samples), which numpy pickles, and numpy's own code are outside the model."
  },
  {
   "property": "C154",
   "status": "proved",
   "theorems": [
    "Verif.C154_weights",
    "Verif.C154_unweighted",
    "Verif.C154_relative",
    "Verif.C154_monotone",
    "Verif.C154_odds",
    "Verif.C154_odds_unweighted",
    "Verif.C154_practice"
   ],
   "note": "OrderOf and the accuracy of log and exp are hypotheses on numpy and libm; infinities and nan are outside"
  },
  {
   "property": "C155",
   "status": "partial",
   "theorems": [
    "Verif.C155_doubling_time",
    "Verif.C155_doubling_antitone",
    "Verif.C155_tiny_fails",
    "Verif.C155_growth_rate",
    "Verif.C155_long_fails",
    "Verif.C155_extremize",
    "Verif.C155_extremize_side"
   ],
   "note": "for tiny rates and long times the full property fails (C155_tiny_fails, C155_long_fails); accuracy of log, exp and powers is a hypothesis on the platform's libm"
  },
  {
   "property": "C156",
   "status": "partial",
   "theorems": [
    "Verif.C156_caches",
    "Verif.C156_history",
    "Verif.C156_retry",
    "Verif.C156_swallowed_fails",
    "Verif.C156_worker_error_fails",
    "Verif.C156_spoiled_fails",
    "Verif.C156_bayes_events",
    "Verif.C156_bayes_question",
    "Verif.C156_bayes_spoiled_fails"
   ],
   "note": "Caches, retry and bayesnet state proved for every failure; with several cores the exception of a worker is lost and left-over files spoil later calls (negations proved)."
  },
  {
   "property": "C157",
   "status": "partial",
   "theorems": [
    "Verif.C157_interval",
    "Verif.C157_practice",
    "Verif.C157_sd_nonneg",
    "Verif.C157_sd_positive_partial",
    "Verif.C157_mean",
    "Verif.C157_sd",
    "Verif.C157_narrow_fails"
   ],
   "note": "Accuracy proved for all inputs in range; narrow lognormals collapse to a constant (negation proved)."
  },
  {
   "property": "C158",
   "status": "partial",
   "theorems": [
    "Verif.C158_std",
    "Verif.C158_bounds",
    "Verif.C158_sharpe",
    "Verif.C158_practice",
    "Verif.C158_constant_fails",
    "Verif.C158_constant_partial"
   ],
   "note": "Returns that do not vary get a huge ratio instead of none (C158_constant_fails)."
  },
  {
   "property": "C159",
   "status": "partial",
   "theorems": [
    "Verif.C159_custom",
    "Verif.C159_histogram",
    "Verif.C159_order",
    "Verif.C159_total_partial",
    "Verif.C159_fraction",
    "Verif.C159_total_fails",
    "Verif.C159_whole_fails"
   ],
   "note": "The total is 100 only up to two roundings, and whole percentages are not exact (C159_total_fails, C159_whole_fails)."
  },
  {
   "property": "C160",
   "status": "partial",
   "theorems": [
    "Verif.C160_form",
    "Verif.C160_first",
    "Verif.C160_value",
    "Verif.C160_mono",
    "Verif.C160_display",
    "Verif.C160_small_fails"
   ],
   "note": "Percentiles are rounded to decimals before formatting, so small ones are shown as 0 (C160_small_fails)."
  },
  {
   "property": "C161",
   "status": "partial",
   "theorems": [
    "Verif.C161_exact",
    "Verif.C161_monotone",
    "Verif.C161_accuracy",
    "Verif.C161_zero",
    "Verif.C161_nearest_fails"
   ],
   "note": "Near a half the number is not always the nearest (C161_nearest_fails)."
  },
  {
   "property": "C162",
   "status": "partial",
   "theorems": [
    "Verif.C162_range",
    "Verif.C162_accuracy",
    "Verif.C162_monotone",
    "Verif.C162_zero_fails"
   ],
   "note": "Range, accuracy and monotonicity proved; a positive chance can come out as 0 (C162_zero_fails)."
  },
  {
   "property": "C163",
   "status": "partial",
   "theorems": [
    "Verif.C163_between",
    "Verif.C163_range_partial",
    "Verif.C163_monotone_partial",
    "Verif.C163_zero",
    "Verif.C163_top_fails"
   ],
   "note": "Bounds and monotonicity proved up to a few roundings; exceeded by a few roundings in C163_top_fails."
  },
  {
   "property": "C164",
   "status": "partial",
   "theorems": [
    "Verif.C164_beta",
    "Verif.C164_counts",
    "Verif.C164_order",
    "Verif.C164_stuck_fails",
    "Verif.C164_gamma",
    "Verif.C164_lognorm"
   ],
   "note": "Everything proved except that every success raises the count, which fails from 2^(p+2) on (C164_stuck_fails)."
  },
  {
   "property": "C165",
   "status": "partial",
   "theorems": [
    "Verif.C165_refused",
    "Verif.C165_small_partial",
    "Verif.C165_remainder",
    "Verif.C165_leftover_fails"
   ],
   "note": "whether one value too many is noticed depends on the rounding when the weights sum to 1 (C165_leftover_fails)"
  },
  {
   "property": "C166",
   "status": "proved",
   "theorems": [
    "Verif.C166_reads",
    "Verif.C166_distinct",
    "Verif.C166_whole",
    "Verif.C166_zero"
   ],
   "note": "at most 15 significant digits, so that the shortest text of the float is the decimal number"
  },
  {
   "property": "C167",
   "status": "partial",
   "theorems": [
    "Verif.C167_monotone",
    "Verif.C167_accuracy",
    "Verif.C167_keeps",
    "Verif.C167_twice",
    "Verif.C167_whole",
    "Verif.C167_nearest_fails",
    "Verif.C167_whole_number_fails"
   ],
   "note": "the code violates the last sentence (C167_nearest_fails, C167_whole_number_fails)"
  },
  {
   "property": "C168",
   "status": "partial",
   "theorems": [
    "Verif.C168_exact",
    "Verif.C168_rounded_down",
    "Verif.C168_single",
    "Verif.C168_single_numpy",
    "Verif.C168_zero_fails",
    "Verif.C168_edge_fails"
   ],
   "note": "one and several samples differ at divisor 0 (C168_zero_fails); -2^63 // -1 (C168_edge_fails)"
  },
  {
   "property": "C169",
   "status": "proved",
   "theorems": [
    "Verif.C169_same",
    "Verif.C169_total",
    "Verif.C169_nonneg",
    "Verif.C169_zero_cores",
    "Verif.C169_last_fails"
   ],
   "note": "C169_last_fails shows that the limit 2^53 is needed"
  },
  {
   "property": "C170",
   "status": "proved",
   "theorems": [
    "Verif.C170_ordered",
    "Verif.C170_between",
    "Verif.C170_decimal_data",
    "Verif.C170_interval",
    "Verif.C170_beyond_fails"
   ],
   "note": "C170_beyond_fails: with more digits in the data the table can leave their range"
  },
  {
   "property": "C171",
   "status": "partial",
   "theorems": [
    "Verif.C171_same",
    "Verif.C171_accepted",
    "Verif.C171_normalize",
    "Verif.C171_relative",
    "Verif.C171_overflow",
    "Verif.C171_lost_fails"
   ],
   "note": "Holds while the sum of relative weights is below half the largest float; above the largest float every value is lost (C171_overflow, C171_lost_fails)."
  },
  {
   "property": "C172",
   "status": "partial",
   "theorems": [
    "Verif.C172_norm",
    "Verif.C172_overflow",
    "Verif.C172_infinite_fails"
   ],
   "note": "Holds for ends up to a quarter of the largest power of two; above, mean and standard deviation can be infinite (C172_overflow, C172_infinite_fails)."
  },
  {
   "property": "C173",
   "status": "proved",
   "theorems": [
    "Verif.C173_accuracy",
    "Verif.C173_overflow_fails",
    "Verif.C173_underflow_fails"
   ],
   "note": "Full statement; C173_overflow_fails and C173_underflow_fails show that the exponents of the parts matter."
  },
  {
   "property": "C174",
   "status": "proved",
   "theorems": [
    "Verif.C174_sum",
    "Verif.C174_normalize",
    "Verif.C174_accepted",
    "Verif.C174_refused",
    "Verif.C174_leftover",
    "Verif.C174_remainder",
    "Verif.C174_relative",
    "Verif.C174_default",
    "Verif.C174_versions_differ"
   ],
   "note": "Sums of floats only; integers and numpy numbers among the weights are added without the correction and are not modelled here. The number of values n must satisfy n 2^-p <= 1/100000, and 8 n^2 2^-p < 1 for the theorems about a left-out weight (n below 33 million for doubles)."
  },
  {
   "property": "C175",
   "status": "partial",
   "theorems": [
    "Verif.C175_update",
    "Verif.C175_extreme_fails"
   ],
   "note": "The full statement, for all floats, is false: C175_extreme_fails. The standard deviations are numpy numbers, as norm(x, y) computes them; with Python floats given as sd= the extreme cases raise instead."
  },
  {
   "property": "C176",
   "status": "proved",
   "theorems": [
    "Verif.C176_same",
    "Verif.C176_whole",
    "Verif.C176_infinite_fails"
   ],
   "note": "Full statement; C176_infinite_fails shows that the exponents of the parts matter."
  },
  {
   "property": "C177",
   "status": "partial",
   "theorems": [
    "Verif.C177_probability",
    "Verif.C177_accuracy",
    "Verif.C177_small_fails"
   ],
   "note": "The full statement, accuracy for all floats, is false: C177_small_fails. C177_probability covers all probabilities."
  },
  {
   "property": "C178",
   "status": "proved",
   "theorems": [
    "Verif.C178_odds",
    "Verif.C178_prob",
    "Verif.C178_round_trip"
   ],
   "note": "Full statement."
  },
  {
   "property": "C179",
   "status": "partial",
   "theorems": [
    "Verif.C179_uniform",
    "Verif.C179_range",
    "Verif.C179_wide_fails",
    "Verif.C179_pert_partial",
    "Verif.C179_pert_fails"
   ],
   "note": "Uniform in full; for pert a draw of 1 from the beta distribution is excluded (C121_pert_fails) and so are ranges that overflow (C179_pert_fails, C179_wide_fails)."
  },
  {
   "property": "C180",
   "status": "partial",
   "theorems": [
    "Verif.C180_kelly",
    "Verif.C180_small_fails"
   ],
   "note": "The full statement, for all floats, is false: C180_small_fails."
  },
  {
   "property": "C181",
   "status": "partial",
   "theorems": [
    "Verif.C181_finite",
    "Verif.C181_between",
    "Verif.C181_wide_fails"
   ],
   "note": "Holds for data with finite differences; C181_wide_fails shows that the median of two floats can be infinite otherwise."
  },
  {
   "property": "C182",
   "status": "partial",
   "theorems": [
    "Verif.C182_finite",
    "Verif.C182_accuracy",
    "Verif.C182_numpy",
    "Verif.C182_large_fails"
   ],
   "note": "Means far from the limit of the format are proved finite and accurate; C182_large_fails proves that the mean of twice 2^1023 is infinite."
  },
  {
   "property": "C183",
   "status": "proved",
   "theorems": [
    "Verif.C183_frequency",
    "Verif.C183_probability"
   ],
   "note": ""
  }
 ]
}
