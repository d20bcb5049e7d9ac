'Verif.C01_weights_decision' depends on axioms: [propext, Quot.sound]
'Verif.C01_length_mismatch' depends on axioms: [propext, Quot.sound]
'Verif.C01_refused' depends on axioms: [propext, Quot.sound]
'Verif.C01_dict_with_weights' depends on axioms: [propext, Quot.sound]
'Verif.C01_missing_value_with_weights' depends on axioms: [propext, Quot.sound]
'Verif.C02_empty_mixture_raises' depends on axioms: [propext, Quot.sound]
'Verif.C02_relative_decision' depends on axioms: [propext, Classical.choice, Quot.sound]
'Verif.C02_zero_raises_partial' depends on axioms: [propext, Classical.choice, Quot.sound]
'Verif.C02_numpy_zero_fails' depends on axioms: [propext, Classical.choice, Quot.sound]
'Verif.C02_relative_normalised' depends on axioms: [propext, Classical.choice, Quot.sound]
'Verif.C02_scale_invariant' depends on axioms: [propext, Classical.choice, Quot.sound]
'Verif.C02_negative_accepted' depends on axioms: [propext, Classical.choice, Quot.sound]
'Verif.C03_inferred_weight' depends on axioms: [propext, Classical.choice, Quot.sound]
'Verif.C03_single_number' depends on axioms: [propext, Classical.choice, Quot.sound]
'Verif.C03_tuple_fails' depends on axioms: [propext, Quot.sound]
'Verif.C04_uniform' depends on axioms: [propext, Classical.choice, Quot.sound]
'Verif.C04_uniform_drop_na' depends on axioms: [propext, Classical.choice, Quot.sound]
'Verif.C05_small_n_general' depends on axioms: [propext, Classical.choice, Quot.sound]
'Verif.C05_large_n_general' depends on axioms: [propext, Classical.choice, Quot.sound]
'Verif.C05_component_probability' depends on axioms: [propext, Classical.choice, Quot.sound]
'Verif.C05_accepted_within_tolerance' depends on axioms: [propext, Classical.choice, Quot.sound]
'Verif.C05_whole_call' depends on axioms: [propext, Classical.choice, Quot.sound]
'Verif.C06_strategies_fails' depends on axioms: [propext, Classical.choice, Quot.sound]
'Verif.C06_failure_probability' depends on axioms: [propext, Classical.choice, Quot.sound]
'Verif.C06_strategies_partial' depends on axioms: [propext, Classical.choice, Quot.sound]
'Verif.C06_small_total' depends on axioms: [propext, Classical.choice, Quot.sound]
'Verif.C07_zero_weight_never_kept' depends on axioms: [propext, Quot.sound]
'Verif.C07_kept_exactly_nonzero' depends on axioms: [propext, Quot.sound]
'Verif.C07_reprocessing_is_identity' depends on axioms: [propext, Quot.sound]
'Verif.C07_replaced' depends on axioms: [propext, Classical.choice, Quot.sound]
'Verif.C07_replaced_relative' depends on axioms: [propext, Classical.choice, Quot.sound]
'Verif.C08_empirical' depends on axioms: [propext, Classical.choice, Quot.sound]
'Verif.C09_accepted_iff' depends on axioms: [propext, Classical.choice, Quot.sound]
'Verif.C09_rejected' depends on axioms: [propext, Quot.sound]
'Verif.C09_probability' depends on axioms: [propext, Classical.choice, Quot.sound]
'Verif.C09_law' depends on axioms: [propext, Classical.choice, Quot.sound]
'Verif.C10_caller_list_fails' depends on axioms: [propext, Classical.choice, Quot.sound]
'Verif.C10_caller_list_partial' depends on axioms: [propext, Quot.sound]
'Verif.C11_count_partial' depends on axioms: [propext, Classical.choice, Quot.sound]
'Verif.C11_zero_refused' depends on axioms: [propext, Quot.sound]
'Verif.C11_tdist_equal_bounds_fails' depends on axioms: [propext, Quot.sound]
'Verif.C11_logtdist_no_interval_fails' depends on axioms: [propext, Quot.sound]
'Verif.C11_tdist_no_interval_fails' depends on axioms: [propext, Quot.sound]
'Verif.C12_clamp_of_unclipped' depends on axioms: [propext, Classical.choice, Quot.sound]
'Verif.C12_bounds' depends on axioms: [propext, Classical.choice, Quot.sound]
'Verif.C12_built_with' depends on axioms: [propext, Classical.choice, Quot.sound]
'Verif.C12_inside_unchanged' depends on axioms: [propext, Quot.sound]
'Verif.C13_elementwise_partial' depends on axioms: [propext, Classical.choice, Quot.sound]
'Verif.C13_neg' depends on axioms: [propext, Quot.sound]
'Verif.C13_no_new_failures' depends on axioms: [propext, Classical.choice, Quot.sound]
'Verif.C13_bool_sum_fails' depends on axioms: [propext, Classical.choice, Quot.sound]
'Verif.C14_comparisons_partial' depends on axioms: [propext, Classical.choice, Quot.sound]
'Verif.C14_eq_ne_fails' depends on axioms: [propext, Quot.sound]
'Verif.C15_lclip' depends on axioms: [propext]
'Verif.C15_rclip' depends on axioms: [propext]
'Verif.C15_clip' depends on axioms: [propext]
'Verif.C15_lclip_dist' depends on axioms: [propext]
'Verif.C15_max_min' depends on axioms: [propext]
'Verif.C15_dist_fn' depends on axioms: [propext]
'Verif.C15_dist_fn_list' depends on axioms: [propext]
'Verif.C15_round' depends on axioms: [propext]
'Verif.C15_one_sided_clip_fails' depends on axioms: [propext]
'Verif.C15_dist_clip_fails' depends on axioms: [propext]
'Verif.C16_lclip_partial' depends on axioms: [propext, Classical.choice, Quot.sound]
'Verif.C16_rclip_partial' depends on axioms: [propext, Classical.choice, Quot.sound]
'Verif.C16_clip_partial' depends on axioms: [propext, Classical.choice, Quot.sound]
'Verif.C16_int_bound_truncates_fails' depends on axioms: [propext, Classical.choice, Quot.sound]
'Verif.C16_value_inside_changed_fails' depends on axioms: [propext, Classical.choice, Quot.sound]
'Verif.C16_bound_violated_fails' depends on axioms: [propext, Classical.choice, Quot.sound]
'Verif.C17_calls' depends on axioms: [propext, Quot.sound]
'Verif.C17_exception' depends on axioms: [propext, Classical.choice, Quot.sound]
'Verif.C17_plain' depends on axioms: [propext, Quot.sound]
'Verif.C17_number_with_string_fails' depends on axioms: [propext, Classical.choice, Quot.sound]
'Verif.C18_support' depends on axioms: [propext, Classical.choice, Quot.sound]
'Verif.C18_mixture' depends on axioms: [propext, Quot.sound]
'Verif.C18_mixture_range' depends on axioms: [propext, Quot.sound]
'Verif.C18_discrete' depends on axioms: [propext, Quot.sound]
'Verif.C19_same_seed_partial' depends on axioms: [propext, Quot.sound]
'Verif.C19_correlated_fails' depends on axioms: [propext, Classical.choice, Quot.sound]
'Verif.C20_stable' depends on axioms: [propext, Quot.sound]
'Verif.C21_same_key_iff' depends on axioms: [propext, Classical.choice, Quot.sound]
'Verif.C21_draw_of_alike' depends on axioms: [propext, Classical.choice, Quot.sound]
'Verif.C21_same_key_same_words' depends on axioms: [propext, Classical.choice, Quot.sound]
'Verif.C21_normal_close' depends on axioms: [propext, Classical.choice, Quot.sound]
'Verif.C21_key_mixture_fails' depends on axioms: [propext, Quot.sound]
'Verif.C21_same_key_example' depends on axioms: [propext, Classical.choice, Quot.sound]
'Verif.C21_constants_apart' depends on axioms: [propext, Classical.choice, Quot.sound]
'Verif.C21_key_text_fails' depends on axioms: [propext, Quot.sound]
'Verif.C21_own_samples_partial' depends on axioms: [propext, Quot.sound]
'Verif.C21_key_parentheses_fails' depends on axioms: [propext, Quot.sound]
'Verif.C21_key_rounding_fails' depends on axioms: [propext, Quot.sound]
'Verif.C21_key_clips_fails' depends on axioms: [propext, Quot.sound]
'Verif.C21_other_samples_fails' depends on axioms: [propext, Classical.choice, Quot.sound]
'Verif.C22_count_partial' depends on axioms: [propext, Classical.choice, Quot.sound]
'Verif.C22_count_fails' depends on axioms: [propext, Quot.sound]
'Verif.C23_file_round_trip' depends on axioms: [propext, Quot.sound]
'Verif.C23_object_file_fails' depends on axioms: [propext, Quot.sound]
'Verif.C23_memory_wins' depends on axioms: [propext, Quot.sound]
'Verif.C23_fresh' depends on axioms: [propext, Quot.sound]
'Verif.C23_file_ignored_fails' depends on axioms: [propext, Quot.sound]
'Verif.C23_no_side_effects' depends on axioms: [propext, Quot.sound]
'Verif.C24_cuts' depends on axioms: [propext, Classical.choice, Quot.sound]
'Verif.C24_zero_cores' depends on axioms: [propext]
'Verif.C25_result_partial' depends on axioms: [propext, Classical.choice, Quot.sound]
'Verif.C25_count_partial' depends on axioms: [propext, Classical.choice, Quot.sound]
'Verif.C25_few_samples_fails' depends on axioms: [propext, Classical.choice, Quot.sound]
'Verif.C25_integers_fails' depends on axioms: [propext, Classical.choice, Quot.sound]
'Verif.C26_bayesnet_repeated_fails' depends on axioms: [propext, Classical.choice, Quot.sound]
'Verif.C26_repeated_fails' depends on axioms: [propext, Classical.choice, Quot.sound]
'Verif.C26_one_process_partial' depends on axioms: [propext, Classical.choice, Quot.sound]
'Verif.C27_blocked_fails' depends on axioms: [propext, Classical.choice, Quot.sound]
'Verif.C27_stale_file_fails' depends on axioms: [propext, Quot.sound]
'Verif.C27_alone_partial' depends on axioms: [propext, Classical.choice, Quot.sound]
'Verif.C27_concurrent_fails' depends on axioms: [propext, Quot.sound]
'Verif.C27_bayesnet_stale_fails' depends on axioms: [propext, Classical.choice, Quot.sound]
'Verif.C28_accepted_iff' depends on axioms: [propext, Classical.choice, Quot.sound]
'Verif.C28_refused' depends on axioms: [propext, Quot.sound]
'Verif.C28_safe_face' depends on axioms: [propext, Classical.choice, Quot.sound]
'Verif.C29_roll_iff' depends on axioms: [propext, Classical.choice, Quot.sound]
'Verif.C29_plain' depends on axioms: [propext, Quot.sound]
'Verif.C29_never_multiple' depends on axioms: [propext, Classical.choice, Quot.sound]
'Verif.C29_range' depends on axioms: [propext, Classical.choice, Quot.sound]
'Verif.C29_fuel_irrelevant' depends on axioms: [propext, Classical.choice, Quot.sound]
'Verif.C30_permutation_partial' depends on axioms: [propext, Classical.choice, Quot.sound]
'Verif.C30_permutation_iff_partial' depends on axioms: [propext, Classical.choice, Quot.sound]
'Verif.C30_ties_fails' depends on axioms: [propext, Classical.choice, Quot.sound]
'Verif.C30_ties_example' depends on axioms: [propext, Classical.choice, Quot.sound]
'Verif.C30_first_unchanged_partial' depends on axioms: [propext, Classical.choice, Quot.sound]
'Verif.C30_ties_recorr_fails' depends on axioms: [propext, Classical.choice, Quot.sound]
'Verif.C31_order' depends on axioms: [propext, Classical.choice, Quot.sound]
'Verif.C31_ranks' depends on axioms: [propext, Classical.choice, Quot.sound]
'Verif.C32_history' depends on axioms: [propext, Quot.sound]
'Verif.C32_one_draw' depends on axioms: [propext, Quot.sound]
'Verif.C33_expressions_partial' depends on axioms: [propext, Classical.choice, Quot.sound]
'Verif.C33_same_n_partial' depends on axioms: [propext, Quot.sound]
'Verif.C33_other_n_fails' depends on axioms: [propext, Classical.choice, Quot.sound]
'Verif.C33_scalar_fails' depends on axioms: [propext, Classical.choice, Quot.sound]
'Verif.C34_accept' depends on axioms: [propext, Classical.choice, Quot.sound]
'Verif.C34_reject' depends on axioms: [propext, Classical.choice, Quot.sound]
'Verif.C34_originals' depends on axioms: [propext, Classical.choice, Quot.sound]
'Verif.C34_result' depends on axioms: [propext, Classical.choice, Quot.sound]
'Verif.C34_disjoint' depends on axioms: [propext, Classical.choice, Quot.sound]
'Verif.C35_scalar' depends on axioms: [propext, Classical.choice, Quot.sound]
'Verif.C36_tolerance_partial' depends on axioms: [propext, Classical.choice, Quot.sound]
'Verif.C36_error_partial' depends on axioms: [propext, Quot.sound]
'Verif.C36_zero_fails' depends on axioms: [propext, Classical.choice, Quot.sound]
'Verif.C36_identity_fails' depends on axioms: [propext, Classical.choice, Quot.sound]
'Verif.C36_decision_partial' depends on axioms: [propext, Classical.choice, Quot.sound]
'Verif.C37_exact_partial' depends on axioms: [propext, Quot.sound]
'Verif.C37_flag_partial' depends on axioms: [propext, Quot.sound]
'Verif.C37_sound' depends on axioms: [propext, Quot.sound]
'Verif.C37_discrete_fails' depends on axioms: [propext, Quot.sound]
'Verif.C37_never_false' depends on axioms: [propext, Classical.choice, Quot.sound]
'Verif.C38_norm_interval' depends on axioms: [propext, Classical.choice, Quot.sound]
'Verif.C39_lognorm_interval' depends on axioms: [propext, Classical.choice, Quot.sound]
'Verif.C40_linear' depends on axioms: [propext, Classical.choice, Quot.sound]
'Verif.C40_log' depends on axioms: [propext, Classical.choice, Quot.sound]
'Verif.C40_interval' depends on axioms: [propext, Classical.choice, Quot.sound]
'Verif.C40_round_trip' depends on axioms: [propext, Classical.choice, Quot.sound]
'Verif.C40_round_trip'' depends on axioms: [propext, Classical.choice, Quot.sound]
'Verif.C41_invlognorm_interval' depends on axioms: [propext, Classical.choice, Quot.sound]
'Verif.C42_actual_mean_partial' depends on axioms: [propext, Classical.choice, Quot.sound]
'Verif.C42_mean_fails' depends on axioms: [propext, Classical.choice, Quot.sound]
'Verif.C42_reported_iff_partial' depends on axioms: [propext, Classical.choice, Quot.sound]
'Verif.C43_to' depends on axioms: [propext, Classical.choice, Quot.sound]
'Verif.C43_interval' depends on axioms: [propext, Classical.choice, Quot.sound]
'Verif.C44_norm_partial' depends on axioms: [propext, Classical.choice, Quot.sound]
'Verif.C44_norm_fails' depends on axioms: [propext, Classical.choice, Quot.sound]
'Verif.C44_norm_accept' depends on axioms: [propext, Classical.choice, Quot.sound]
'Verif.C44_norm_error' depends on axioms: [propext, Classical.choice, Quot.sound]
'Verif.C44_lognorm' depends on axioms: [propext, Classical.choice, Quot.sound]
'Verif.C44_invlognorm' depends on axioms: [propext, Classical.choice, Quot.sound]
'Verif.C44_lognorm_error' depends on axioms: [propext, Classical.choice, Quot.sound]
'Verif.C45_sampler' depends on axioms: [propext, Classical.choice, Quot.sound]
'Verif.C45_law' depends on axioms: [propext, Classical.choice, Quot.sound]
'Verif.C45_mode' depends on axioms: [propext, Classical.choice, Quot.sound]
'Verif.C45_rejects' depends on axioms: [propext, Classical.choice, Quot.sound]
'Verif.C46_refines' depends on axioms: [propext, Quot.sound]
'Verif.C46_error' depends on axioms: [propext, Quot.sound]
'Verif.C46_frequency' depends on axioms: [propext, Quot.sound]
'Verif.C46_range' depends on axioms: [propext, Classical.choice, Quot.sound]
'Verif.C47_enough_partial' depends on axioms: [propext, Classical.choice, Quot.sound]
'Verif.C47_refused' depends on axioms: [propext, Quot.sound]
'Verif.C47_file_refused' depends on axioms: [propext, Quot.sound]
'Verif.C47_mutation_fails' depends on axioms: [propext, Classical.choice, Quot.sound]
'Verif.C48_stable' depends on axioms: [propext, Quot.sound]
'Verif.C48_reachable_wf' depends on axioms: [propext, Quot.sound]
'Verif.C48_reload' depends on axioms: [propext, Quot.sound]
'Verif.C48_bypass_write' depends on axioms: [propext, Quot.sound]
'Verif.C48_bypass_read_partial' depends on axioms: [propext, Quot.sound]
'Verif.C48_bypass_fails' depends on axioms: [propext, Classical.choice, Quot.sound]
'Verif.C49_roundtrip' depends on axioms: [propext, Quot.sound]
'Verif.C49_recorded_fails' depends on axioms: [propext, Classical.choice, Quot.sound]
'Verif.C50_independent_partial' depends on axioms: [propext, Classical.choice, Quot.sound]
'Verif.C50_independent_fails' depends on axioms: [propext, Quot.sound]
'Verif.C51_cores' depends on axioms: [propext, Classical.choice, Quot.sound]
'Verif.C51_succeeds' depends on axioms: [propext, Classical.choice, Quot.sound]
'Verif.C51_stale_fails' depends on axioms: [propext, Classical.choice, Quot.sound]
'Verif.C52_precision' depends on axioms: [propext, Classical.choice, Quot.sound]
'Verif.C52_order' depends on axioms: [propext, Classical.choice, Quot.sound]
'Verif.C52_between' depends on axioms: [propext, Classical.choice, Quot.sound]
'Verif.C52_weight_zero' depends on axioms: [propext, Classical.choice, Quot.sound]
'Verif.C52_bayes' depends on axioms: [propext, Classical.choice, Quot.sound]
'Verif.C53_lognormal' depends on axioms: [propext, Classical.choice, Quot.sound]
'Verif.C53_lognormal_order' depends on axioms: [propext, Classical.choice, Quot.sound]
'Verif.C53_beta' depends on axioms: [propext, Classical.choice, Quot.sound]
'Verif.C53_beta_bayes' depends on axioms: [propext, Classical.choice, Quot.sound]
'Verif.C53_gamma' depends on axioms: [propext, Classical.choice, Quot.sound]
'Verif.C53_gamma_order' depends on axioms: [propext, Classical.choice, Quot.sound]
'Verif.C53_kinds' depends on axioms: [propext, Classical.choice, Quot.sound]
'Verif.C54_range' depends on axioms: [propext, Classical.choice, Quot.sound]
'Verif.C54_odds' depends on axioms: [propext, Classical.choice, Quot.sound]
'Verif.C54_monotone' depends on axioms: [propext, Classical.choice, Quot.sound]
'Verif.C54_sequential' depends on axioms: [propext, Classical.choice, Quot.sound]
'Verif.C54_bayes_rule' depends on axioms: [propext, Classical.choice, Quot.sound]
'Verif.C55_p_to_odds' depends on axioms: [propext, Classical.choice, Quot.sound]
'Verif.C55_odds_to_p' depends on axioms: [propext, Classical.choice, Quot.sound]
'Verif.C55_number' depends on axioms: [propext, Classical.choice, Quot.sound]
'Verif.C55_round_trip' depends on axioms: [propext, Classical.choice, Quot.sound]
'Verif.C55_round_trip_odds' depends on axioms: [propext, Classical.choice, Quot.sound]
'Verif.C56_weights' depends on axioms: [propext, Classical.choice, Quot.sound]
'Verif.C56_relative_weights' depends on axioms: [propext, Classical.choice, Quot.sound]
'Verif.C56_unweighted' depends on axioms: [propext, Classical.choice, Quot.sound]
'Verif.C56_between' depends on axioms: [propext, Classical.choice, Quot.sound]
'Verif.C56_constant' depends on axioms: [propext, Classical.choice, Quot.sound]
'Verif.C56_homogeneous' depends on axioms: [propext, Classical.choice, Quot.sound]
'Verif.C56_permutation' depends on axioms: [propext, Classical.choice, Quot.sound]
'Verif.C57_unweighted_partial' depends on axioms: [propext, Classical.choice, Quot.sound]
'Verif.C57_weights_partial' depends on axioms: [propext, Classical.choice, Quot.sound]
'Verif.C57_between' depends on axioms: [propext, Classical.choice, Quot.sound]
'Verif.C57_single_fails' depends on axioms: [propext, Classical.choice, Quot.sound]
'Verif.C58_trials' depends on axioms: [propext, Classical.choice, Quot.sound]
'Verif.C58_trials_monotone' depends on axioms: [propext, Classical.choice, Quot.sound]
'Verif.C58_time' depends on axioms: [propext, Classical.choice, Quot.sound]
'Verif.C58_time_monotone' depends on axioms: [propext, Classical.choice, Quot.sound]
'Verif.C58_time_ratio' depends on axioms: [propext, Classical.choice, Quot.sound]
'Verif.C58_parameters' depends on axioms: [propext, Classical.choice, Quot.sound]
'Verif.C59_growth' depends on axioms: [propext, Classical.choice, Quot.sound]
'Verif.C59_doubling' depends on axioms: [propext, Classical.choice, Quot.sound]
'Verif.C59_arrays' depends on axioms: [propext, Classical.choice, Quot.sound]
'Verif.C59_errors' depends on axioms: [propext, Classical.choice, Quot.sound]
'Verif.C60_accepted' depends on axioms: [propext, Classical.choice, Quot.sound]
'Verif.C60_growth_optimal' depends on axioms: [propext, Classical.choice, Quot.sound]
'Verif.C60_gains' depends on axioms: [propext, Classical.choice, Quot.sound]
'Verif.C60_aliases' depends on axioms: [propext, Classical.choice, Quot.sound]
'Verif.C61_symmetric_fails' depends on axioms: [propext, Classical.choice, Quot.sound]
'Verif.C61_below_market_partial' depends on axioms: [propext, Classical.choice, Quot.sound]
'Verif.C62_probability' depends on axioms: [propext, Classical.choice, Quot.sound]
'Verif.C62_extremes' depends on axioms: [propext, Classical.choice, Quot.sound]
'Verif.C62_monotone' depends on axioms: [propext, Classical.choice, Quot.sound]
'Verif.C62_symmetric' depends on axioms: [propext, Classical.choice, Quot.sound]
'Verif.C62_compose' depends on axioms: [propext, Classical.choice, Quot.sound]
'Verif.C63_entries' depends on axioms: [propext, Classical.choice, Quot.sound]
'Verif.C63_value' depends on axioms: [propext, Classical.choice, Quot.sound]
'Verif.C63_total' depends on axioms: [propext, Quot.sound]
'Verif.C63_bounds' depends on axioms: [propext, Classical.choice, Quot.sound]
'Verif.C63_monotone' depends on axioms: [propext, Classical.choice, Quot.sound]
'Verif.C63_ends' depends on axioms: [propext, Classical.choice, Quot.sound]
'Verif.C63_permutation' depends on axioms: [propext, Classical.choice, Quot.sound]
'Verif.C63_rank' depends on axioms: [propext, Classical.choice, Quot.sound]
'Verif.C63_affine' depends on axioms: [propext, Classical.choice, Quot.sound]
'Verif.C63_labels' depends on axioms: [propext, Classical.choice, Quot.sound]
'Verif.C63_digits' depends on axioms: [propext, Classical.choice, Quot.sound]
'Verif.C64_bounds' depends on axioms: [propext, Classical.choice, Quot.sound]
'Verif.C64_monotone' depends on axioms: [propext, Classical.choice, Quot.sound]
'Verif.C64_scale' depends on axioms: [propext, Classical.choice, Quot.sound]
'Verif.C64_value' depends on axioms: [propext, Classical.choice, Quot.sound]
'Verif.C64_permutation_partial' depends on axioms: [propext, Classical.choice, Quot.sound]
'Verif.C64_permutation_fails' depends on axioms: [propext, Classical.choice, Quot.sound]
'Verif.C64_equal_weights' depends on axioms: [propext, Classical.choice, Quot.sound]
'Verif.C64_equal_weights_median' depends on axioms: [propext, Classical.choice, Quot.sound]
'Verif.C64_length_mismatch' depends on axioms: [propext, Quot.sound]
'Verif.C65_median' depends on axioms: [propext, Classical.choice, Quot.sound]
'Verif.C65_mean' depends on axioms: [propext, Classical.choice, Quot.sound]
'Verif.C65_brackets' depends on axioms: [propext, Classical.choice, Quot.sound]
'Verif.C65_mean_brackets' depends on axioms: [propext, Classical.choice, Quot.sound]
'Verif.C65_coverage' depends on axioms: [propext, Classical.choice, Quot.sound]
'Verif.C65_out_of_range' depends on axioms: [propext, Classical.choice, Quot.sound]
'Verif.C65_negative_credibility_fails' depends on axioms: [propext, Classical.choice, Quot.sound]
'Verif.C65_weighted_mean_fails' depends on axioms: [propext, Classical.choice, Quot.sound]
'Verif.C66_single_display_fails' depends on axioms: [propext, Classical.choice, Quot.sound]
'Verif.C66_single_display_returns_none' depends on axioms: [propext, Classical.choice, Quot.sound]
'Verif.C66_display_partial' depends on axioms: [propext, Classical.choice, Quot.sound]
'Verif.C66_log_value_partial' depends on axioms: [propext, Classical.choice, Quot.sound]
'Verif.C66_rounding_fails' depends on axioms: [propext, Classical.choice, Quot.sound]
'Verif.C67_custom' depends on axioms: [propext, Classical.choice, Quot.sound]
'Verif.C67_partition' depends on axioms: [propext, Classical.choice, Quot.sound]
'Verif.C67_histogram' depends on axioms: [propext, Classical.choice, Quot.sound]
'Verif.C67_histogram_total' depends on axioms: [propext, Classical.choice, Quot.sound]
'Verif.C67_equal_width' depends on axioms: [propext, Classical.choice, Quot.sound]
'Verif.C67_label_mismatch' depends on axioms: [propext, Quot.sound]
'Verif.C67_default_fails' depends on axioms: [propext, Quot.sound]
'Verif.C67_gap_labels_fails' depends on axioms: [propext, Classical.choice, Quot.sound]
'Verif.C67_last_bucket_fails' depends on axioms: [propext, Classical.choice, Quot.sound]
'Verif.C67_repeated_label_fails' depends on axioms: [propext, Classical.choice, Quot.sound]
'Verif.C67_default_labels' depends on axioms: [propext, Quot.sound]
'Verif.C68_event' depends on axioms: [propext, Classical.choice, Quot.sound]
'Verif.C68_certain_and_impossible' depends on axioms: [propext, Classical.choice, Quot.sound]
'Verif.C68_event_uncertain' depends on axioms: [propext, Quot.sound]
'Verif.C68_bernoulli' depends on axioms: [propext, Classical.choice, Quot.sound]
'Verif.C69_shape_partial' depends on axioms: [propext, Classical.choice, Quot.sound]
'Verif.C69_odds_shape_partial' depends on axioms: [propext, Classical.choice, Quot.sound]
'Verif.C69_one_sample_partial' depends on axioms: [propext, Classical.choice, Quot.sound]
'Verif.C69_tdist_fails' depends on axioms: [propext, Quot.sound]
'Verif.C70_affine' depends on axioms: [propext, Classical.choice, Quot.sound]
'Verif.C70_value' depends on axioms: [propext, Classical.choice, Quot.sound]
'Verif.C71_exact_partial' depends on axioms: [propext, Quot.sound]
'Verif.C71_fails' depends on axioms: [propext]
'Verif.C71_unary_fails' depends on axioms: [propext, Quot.sound]
'Verif.C72_construct' depends on axioms: [propext, Classical.choice, Quot.sound]
'Verif.C72_refused' depends on axioms: [propext, Classical.choice, Quot.sound]
'Verif.C72_sample_refused' depends on axioms: [propext, Classical.choice, Quot.sound]
'Verif.C72_sample_accepted' depends on axioms: [propext, Quot.sound]
'Verif.C72_count' depends on axioms: [propext, Classical.choice, Quot.sound]
'Verif.C72_operators' depends on axioms: [propext, Quot.sound]
'Verif.C73_quantiles_inside' depends on axioms: [propext, Classical.choice, Quot.sound]
'Verif.C73_target_correlation' depends on axioms: [propext, Classical.choice, Quot.sound]
'Verif.C74_copies_partial' depends on axioms: [propext, Classical.choice, Quot.sound]
'Verif.C74_nested_fails' depends on axioms: [propext, Classical.choice, Quot.sound]
'Verif.C75_sampleable_partial' depends on axioms: [propext, Classical.choice, Quot.sound]
'Verif.C75_sampleable_fails' depends on axioms: [propext, Classical.choice, Quot.sound]
'Verif.C75_discrete_partial' depends on axioms: [propext, Classical.choice, Quot.sound]
'Verif.C75_mixture_partial' depends on axioms: [propext, Classical.choice, Quot.sound]
'Verif.C75_die_partial' depends on axioms: [propext, Classical.choice, Quot.sound]
'Verif.C76_bounds_partial' depends on axioms: [propext, Classical.choice, Quot.sound]
'Verif.C76_bounds_fails' depends on axioms: [propext, Classical.choice, Quot.sound]
'Verif.C77_dump_partial' depends on axioms: [propext, Quot.sound]
'Verif.C77_dump_fails' depends on axioms: [propext, Quot.sound]
'Verif.C78_own_events_partial' depends on axioms: [propext, Classical.choice, Quot.sound]
'Verif.C78_own_events_fails' depends on axioms: [propext, Classical.choice, Quot.sound]
'Verif.C79_between_normal_partial' depends on axioms: [propext, Classical.choice, Quot.sound]
'Verif.C79_between_beta_partial' depends on axioms: [propext, Classical.choice, Quot.sound]
'Verif.C79_between_gamma_fails' depends on axioms: [propext, Classical.choice, Quot.sound]
'Verif.C79_between_lognormal_fails' depends on axioms: [propext, Classical.choice, Quot.sound]
'Verif.C80_average' depends on axioms: [propext, Classical.choice, Quot.sound]
'Verif.C80_relative_fails' depends on axioms: [propext, Quot.sound]
'Verif.C81_named_law' depends on axioms: [propext, Classical.choice, Quot.sound]
'Verif.C81_die' depends on axioms: [propext, Classical.choice, Quot.sound]
'Verif.C82_translation_fails' depends on axioms: [propext, Classical.choice, Quot.sound]
'Verif.C82_scale_partial' depends on axioms: [propext, Classical.choice, Quot.sound]
'Verif.C82_law_partial' depends on axioms: [propext, Classical.choice, Quot.sound]
'Verif.C83_floor' depends on axioms: [propext, Classical.choice, Quot.sound]
'Verif.C83_ceil' depends on axioms: [propext, Classical.choice, Quot.sound]
'Verif.C83_exp_single_partial' depends on axioms: [propext, Quot.sound]
'Verif.C83_log_single_partial' depends on axioms: [propext, Quot.sound]
'Verif.C83_log_fails' depends on axioms: [propext, Quot.sound]
'Verif.C83_round_fails' depends on axioms: [propext, Quot.sound]
'Verif.C83_exp_fails' depends on axioms: [propext, Classical.choice, Quot.sound]
'Verif.C83_round_single_partial' depends on axioms: [propext, Classical.choice, Quot.sound]
'Verif.C83_round_one_element' depends on axioms: [propext, Classical.choice, Quot.sound]
'Verif.C83_round_none' depends on axioms: [propext, Classical.choice, Quot.sound]
'Verif.C84_growth_single_partial' depends on axioms: [propext, Classical.choice, Quot.sound]
'Verif.C84_doubling_single_partial' depends on axioms: [propext, Classical.choice, Quot.sound]
'Verif.C84_growth_fails' depends on axioms: [propext, Quot.sound]
'Verif.C84_doubling_fails' depends on axioms: [propext, Classical.choice, Quot.sound]
'Verif.C85_own_arrays_partial' depends on axioms: [propext, Classical.choice, Quot.sound]
'Verif.C85_new_array_partial' depends on axioms: [propext, Classical.choice, Quot.sound]
'Verif.C85_fails' depends on axioms: [propext, Classical.choice, Quot.sound]
'Verif.C86_independent_samples' depends on axioms: [propext, Classical.choice, Quot.sound]
'Verif.C86_stream_left' depends on axioms: [propext, Classical.choice, Quot.sound]
'Verif.C86_two_calls' depends on axioms: [propext, Classical.choice, Quot.sound]
'Verif.C87_mean' depends on axioms: [propext, Classical.choice, Quot.sound]
'Verif.C87_frequency' depends on axioms: [propext, Classical.choice, Quot.sound]
'Verif.C87_mean_limit' depends on axioms: [propext, Classical.choice, Quot.sound]
'Verif.C88_norm_frequency' depends on axioms: [propext, Classical.choice, Quot.sound]
'Verif.C88_lognorm_frequency' depends on axioms: [propext, Classical.choice, Quot.sound]
'Verif.C88_norm_sum' depends on axioms: [propext, Classical.choice, Quot.sound]
'Verif.C88_norm_self_difference' depends on axioms: [propext, Classical.choice, Quot.sound]
'Verif.C89_events' depends on axioms: [propext, Classical.choice, Quot.sound]
'Verif.C89_conditional' depends on axioms: [propext, Classical.choice, Quot.sound]
'Verif.C89_simple_bayes' depends on axioms: [propext, Classical.choice, Quot.sound]
'Verif.C90_percentile' depends on axioms: [propext, Classical.choice, Quot.sound]
'Verif.C90_percentile_limit' depends on axioms: [propext, Classical.choice, Quot.sound]
'Verif.C90_median_ci_limit' depends on axioms: [propext, Classical.choice, Quot.sound]
'Verif.C90_mean_ci_limit' depends on axioms: [propext, Classical.choice, Quot.sound]
'Verif.C90_norm_recovered' depends on axioms: [propext, Classical.choice, Quot.sound]
'Verif.C90_lognorm_recovered' depends on axioms: [propext, Classical.choice, Quot.sound]
'Verif.C91_numbers' depends on axioms: [propext, Classical.choice, Quot.sound]
'Verif.C91_distributions' depends on axioms: [propext, Classical.choice, Quot.sound]
'Verif.C91_frequency' depends on axioms: [propext, Classical.choice, Quot.sound]
'Verif.C92_series' depends on axioms: [propext, Classical.choice, Quot.sound]
'Verif.C93_refused' depends on axioms: [propext, Classical.choice, Quot.sound]
'Verif.C93_accepted' depends on axioms: [propext, Classical.choice, Quot.sound]
'Verif.C93_too_few_samples' depends on axioms: [propext, Classical.choice, Quot.sound]
'Verif.C93_few_values' depends on axioms: [propext, Classical.choice, Quot.sound]
'Verif.C93_example' depends on axioms: [propext, Classical.choice, Quot.sound]
'Verif.C94_law' depends on axioms: [propext, Classical.choice, Quot.sound]
'Verif.C94_law_unique' depends on axioms: [propext, Classical.choice, Quot.sound]
'Verif.C94_unfinished' depends on axioms: [propext, Classical.choice, Quot.sound]
'Verif.C94_mean' depends on axioms: [propext, Classical.choice, Quot.sound]
'Verif.C94_example' depends on axioms: [propext, Classical.choice, Quot.sound]
'Verif.C95_counted' depends on axioms: [propext, Classical.choice, Quot.sound]
'Verif.C95_share_partial' depends on axioms: [propext, Classical.choice, Quot.sound]
'Verif.C95_short' depends on axioms: [propext, Classical.choice, Quot.sound]
'Verif.C95_exact_iff' depends on axioms: [propext, Classical.choice, Quot.sound]
'Verif.C95_dict_iff' depends on axioms: [propext, Quot.sound]
'Verif.C95_dict_content' depends on axioms: [propext, Quot.sound]
'Verif.C95_dict_partial' depends on axioms: [propext, Quot.sound]
'Verif.C95_same_key_iff' depends on axioms: [propext, Classical.choice, Quot.sound]
'Verif.C95_value_keys' depends on axioms: [propext, Classical.choice, Quot.sound]
'Verif.C95_number_keys' depends on axioms: [propext, Quot.sound]
'Verif.C95_merged_fails' depends on axioms: [propext, Classical.choice, Quot.sound]
'Verif.C95_dict_fails' depends on axioms: [propext, Classical.choice, Quot.sound]
'Verif.C95_exact_example' depends on axioms: [propext, Classical.choice, Quot.sound]
'Verif.C96_die_now' depends on axioms: [propext, Quot.sound]
'Verif.C96_discrete_now' depends on axioms: [propext, Quot.sound]
'Verif.C96_discrete_contents' depends on axioms: [propext, Quot.sound]
'Verif.C96_mixture_contents' depends on axioms: [propext, Quot.sound]
'Verif.C96_unchanged_partial' depends on axioms: [propext, Quot.sound]
'Verif.C96_copied' depends on axioms: [propext, Quot.sound]
'Verif.C96_sampling_keeps_items' depends on axioms: [propext, Quot.sound]
'Verif.C96_die_fails' depends on axioms: [propext, Classical.choice, Quot.sound]
'Verif.C96_die_example' depends on axioms: [propext, Classical.choice, Quot.sound]
'Verif.C96_discrete_fails' depends on axioms: [propext, Classical.choice, Quot.sound]
'Verif.C97_kept' depends on axioms: [propext, Classical.choice, Quot.sound]
'Verif.C97_own_law' depends on axioms: [propext, Classical.choice, Quot.sound]
'Verif.C97_possible' depends on axioms: [propext, Classical.choice, Quot.sound]
'Verif.C97_frequency' depends on axioms: [propext, Classical.choice, Quot.sound]
'Verif.C98_complete' depends on axioms: [propext, Quot.sound]
'Verif.C98_crash' depends on axioms: [propext, Quot.sound]
'Verif.C98_crash_fails' depends on axioms: [propext, Quot.sound]
'Verif.C98_stuck' depends on axioms: [propext]
'Verif.C98_repair' depends on axioms: [propext, Quot.sound]
'Verif.C98_concurrent_partial' depends on axioms: [propext, Classical.choice, Quot.sound]
'Verif.C98_same' depends on axioms: [propext, Classical.choice, Quot.sound]
'Verif.C98_reader_partial' depends on axioms: [propext, Classical.choice, Quot.sound]
'Verif.C98_concurrent_fails' depends on axioms: [propext, Classical.choice, Quot.sound]
'Verif.C98_reader_fails' depends on axioms: [propext, Classical.choice, Quot.sound]
'Verif.C99_no_date' depends on axioms: [propext, Classical.choice, Quot.sound]
'Verif.C99_outcome' depends on axioms: [propext, Classical.choice, Quot.sound]
'Verif.C99_tomorrow_fails' depends on axioms: [propext, Classical.choice, Quot.sound]
'Verif.C99_value_partial' depends on axioms: [propext, Classical.choice, Quot.sound]
'Verif.C99_overstates' depends on axioms: [propext, Classical.choice, Quot.sound]
'Verif.C99_later' depends on axioms: [propext, Classical.choice, Quot.sound]
'Verif.C99_past_fails' depends on axioms: [propext, Classical.choice, Quot.sound]
'Verif.C100_law_partial' depends on axioms: [propext, Classical.choice, Quot.sound]
'Verif.C100_frequency_partial' depends on axioms: [propext, Classical.choice, Quot.sound]
'Verif.C100_equality_fails' depends on axioms: [propext, Classical.choice, Quot.sound]
'Verif.C101_bounds' depends on axioms: [propext, Classical.choice, Quot.sound]
'Verif.C101_between' depends on axioms: [propext, Classical.choice, Quot.sound]
'Verif.C101_above' depends on axioms: [propext, Classical.choice, Quot.sound]
'Verif.C101_below' depends on axioms: [propext, Classical.choice, Quot.sound]
'Verif.C101_own_or_call' depends on axioms: [propext, Classical.choice, Quot.sound]
'Verif.C102_variance_mixture' depends on axioms: [propext, Classical.choice, Quot.sound]
'Verif.C102_mean' depends on axioms: [propext, Classical.choice, Quot.sound]
'Verif.C102_variance' depends on axioms: [propext, Classical.choice, Quot.sound]
'Verif.C102_mean_add' depends on axioms: [propext, Classical.choice, Quot.sound]
'Verif.C102_mean_sub' depends on axioms: [propext, Classical.choice, Quot.sound]
'Verif.C102_mean_mul' depends on axioms: [propext, Classical.choice, Quot.sound]
'Verif.C102_mean_mixture' depends on axioms: [propext, Classical.choice, Quot.sound]
'Verif.C102_variance_add' depends on axioms: [propext, Classical.choice, Quot.sound]
'Verif.C102_variance_sub' depends on axioms: [propext, Classical.choice, Quot.sound]
'Verif.C102_variance_scaled' depends on axioms: [propext, Classical.choice, Quot.sound]
'Verif.C103_average' depends on axioms: [propext, Quot.sound]
'Verif.C103_conditional_mean' depends on axioms: [propext, Classical.choice, Quot.sound]
'Verif.C104_last_takes_rest_partial' depends on axioms: [propext, Classical.choice, Quot.sound]
'Verif.C104_law_partial' depends on axioms: [propext, Classical.choice, Quot.sound]
'Verif.C104_failure' depends on axioms: [propext, Classical.choice, Quot.sound]
'Verif.C105_same_law' depends on axioms: [propext, Classical.choice, Quot.sound]
'Verif.C105_same_law_iff' depends on axioms: [propext, Classical.choice, Quot.sound]
'Verif.C105_replace_operands' depends on axioms: [propext, Classical.choice, Quot.sound]
'Verif.C105_replace_components' depends on axioms: [propext, Classical.choice, Quot.sound]
'Verif.C105_commute' depends on axioms: [propext, Classical.choice, Quot.sound]
'Verif.C105_associate' depends on axioms: [propext, Classical.choice, Quot.sound]
'Verif.C105_subtract' depends on axioms: [propext, Classical.choice, Quot.sound]
'Verif.C105_mixture_distributes' depends on axioms: [propext, Classical.choice, Quot.sound]
'Verif.C105_mixture_flattens' depends on axioms: [propext, Classical.choice, Quot.sound]
'Verif.C105_norm_affine' depends on axioms: [propext, Classical.choice, Quot.sound]
'Verif.C105_uniform_affine' depends on axioms: [propext, Classical.choice, Quot.sound]
'Verif.C105_norm_sum' depends on axioms: [propext, Classical.choice, Quot.sound]
'Verif.C105_lognorm_product' depends on axioms: [propext, Classical.choice, Quot.sound]
'Verif.C105_lognorm_scale' depends on axioms: [propext, Classical.choice, Quot.sound]
'Verif.C105_reciprocal' depends on axioms: [propext, Classical.choice, Quot.sound]
'Verif.C105_not_double' depends on axioms: [propext, Classical.choice, Quot.sound]
'Verif.C105_bernoulli' depends on axioms: [propext, Classical.choice, Quot.sound]
'Verif.C105_discrete' depends on axioms: [propext, Classical.choice, Quot.sound]
'Verif.C105_zero_inflated_twice' depends on axioms: [propext, Classical.choice, Quot.sound]
'Verif.C106_mean' depends on axioms: [propext, Classical.choice, Quot.sound]
'Verif.C107_within_partial' depends on axioms: [propext, Classical.choice, Quot.sound]
'Verif.C107_own_bounds_partial' depends on axioms: [propext, Classical.choice, Quot.sound]
'Verif.C107_leak_fails' depends on axioms: [propext, Quot.sound]
'Verif.C107_constant_fails' depends on axioms: [propext, Classical.choice, Quot.sound]
'Verif.C107_own_bound_on_hit_fails' depends on axioms: [propext, Classical.choice, Quot.sound]
'Verif.C107_call' depends on axioms: [propext, Classical.choice, Quot.sound]
'Verif.C108_value' depends on axioms: [propext, Classical.choice, Quot.sound]
'Verif.C108_exact' depends on axioms: [propext, Classical.choice, Quot.sound]
'Verif.C108_monotone' depends on axioms: [propext, Classical.choice, Quot.sound]
'Verif.C108_digits' depends on axioms: [propext, Classical.choice, Quot.sound]
'Verif.C108_zero' depends on axioms: [propext, Quot.sound]
'Verif.C108_text' depends on axioms: [propext, Classical.choice, Quot.sound]
'Verif.C109_members' depends on axioms: [propext, Quot.sound]
'Verif.C109_places' depends on axioms: [propext, Quot.sound]
'Verif.C109_double_resolve' depends on axioms: [propext, Quot.sound]
'Verif.C109_law' depends on axioms: [propext, Classical.choice, Quot.sound]
'Verif.C110_mean' depends on axioms: [propext, Classical.choice, Quot.sound]
'Verif.C110_variance' depends on axioms: [propext, Classical.choice, Quot.sound]
'Verif.C110_generator' depends on axioms: [propext, Classical.choice, Quot.sound]
'Verif.C111_error' depends on axioms: [propext, Classical.choice, Quot.sound]
'Verif.C111_interval' depends on axioms: [propext, Classical.choice, Quot.sound]
'Verif.C111_level' depends on axioms: [propext, Classical.choice, Quot.sound]
'Verif.C111_probability' depends on axioms: [propext, Classical.choice, Quot.sound]
'Verif.C111_model_mean' depends on axioms: [propext, Classical.choice, Quot.sound]
'Verif.C112_chance' depends on axioms: [propext, Classical.choice, Quot.sound]
'Verif.C112_frequency' depends on axioms: [propext, Classical.choice, Quot.sound]
'Verif.C112_percentile' depends on axioms: [propext, Classical.choice, Quot.sound]
'Verif.C113_chance' depends on axioms: [propext, Classical.choice, Quot.sound]
'Verif.C113_total' depends on axioms: [propext, Classical.choice, Quot.sound]
'Verif.C113_moments' depends on axioms: [propext, Classical.choice, Quot.sound]
'Verif.C113_frequency' depends on axioms: [propext, Classical.choice, Quot.sound]
'Verif.C114_total' depends on axioms: [propext, Classical.choice, Quot.sound]
'Verif.C114_frequency' depends on axioms: [propext, Classical.choice, Quot.sound]
'Verif.C114_conditional' depends on axioms: [propext, Classical.choice, Quot.sound]
'Verif.C114_conditional_mean' depends on axioms: [propext, Classical.choice, Quot.sound]
'Verif.C115_normalize' depends on axioms: [propext, Classical.choice, Quot.sound]
'Verif.C115_not_exact' depends on axioms: [propext, Classical.choice, Quot.sound]
'Verif.C116_accepted' depends on axioms: [propext, Classical.choice, Quot.sound]
'Verif.C116_refused' depends on axioms: [propext, Classical.choice, Quot.sound]
'Verif.C116_default' depends on axioms: [propext, Classical.choice, Quot.sound]
'Verif.C116_relative' depends on axioms: [propext, Classical.choice, Quot.sound]
'Verif.C116_missing' depends on axioms: [propext, Classical.choice, Quot.sound]
'Verif.C117_small' depends on axioms: [propext, Classical.choice, Quot.sound]
'Verif.C117_share_partial' depends on axioms: [propext, Classical.choice, Quot.sound]
'Verif.C117_failure' depends on axioms: [propext, Classical.choice, Quot.sound]
'Verif.C117_share_small' depends on axioms: [propext, Classical.choice, Quot.sound]
'Verif.C117_rounding_fails' depends on axioms: [propext, Classical.choice, Quot.sound]
'Verif.C118_odds' depends on axioms: [propext, Classical.choice, Quot.sound]
'Verif.C118_prob' depends on axioms: [propext, Classical.choice, Quot.sound]
'Verif.C118_round_trip' depends on axioms: [propext, Classical.choice, Quot.sound]
'Verif.C118_round_trip_odds_partial' depends on axioms: [propext, Classical.choice, Quot.sound]
'Verif.C118_huge_odds_fails' depends on axioms: [propext, Classical.choice, Quot.sound]
'Verif.C118_laplace' depends on axioms: [propext, Classical.choice, Quot.sound]
'Verif.C119_kelly' depends on axioms: [propext, Classical.choice, Quot.sound]
'Verif.C120_chance' depends on axioms: [propext, Classical.choice, Quot.sound]
'Verif.C120_exact' depends on axioms: [propext, Classical.choice, Quot.sound]
'Verif.C120_half' depends on axioms: [propext, Classical.choice, Quot.sound]
'Verif.C120_certain' depends on axioms: [propext, Classical.choice, Quot.sound]
'Verif.C121_uniform' depends on axioms: [propext, Classical.choice, Quot.sound]
'Verif.C121_high_attained' depends on axioms: [propext, Classical.choice, Quot.sound]
'Verif.C121_pert_partial' depends on axioms: [propext, Classical.choice, Quot.sound]
'Verif.C121_pert_fails' depends on axioms: [propext, Classical.choice, Quot.sound]
'Verif.C122_simple_bayes' depends on axioms: [propext, Classical.choice, Quot.sound]
'Verif.C123_mean' depends on axioms: [propext, Classical.choice, Quot.sound]
'Verif.C123_sd' depends on axioms: [propext, Classical.choice, Quot.sound]
'Verif.C124_norm' depends on axioms: [propext, Classical.choice, Quot.sound]
'Verif.C124_positive_partial' depends on axioms: [propext, Classical.choice, Quot.sound]
'Verif.C124_positive_fails' depends on axioms: [propext, Classical.choice, Quot.sound]
'Verif.C125_normal' depends on axioms: [propext, Classical.choice, Quot.sound]
'Verif.C125_lognormal' depends on axioms: [propext, Classical.choice, Quot.sound]
'Verif.C125_gamma' depends on axioms: [propext, Classical.choice, Quot.sound]
'Verif.C125_weight_zero' depends on axioms: [propext, Classical.choice, Quot.sound]
'Verif.C125_limit' depends on axioms: [propext, Classical.choice, Quot.sound]
'Verif.C125_beta_fails' depends on axioms: [propext, Classical.choice, Quot.sound]
'Verif.C125_beta_partial' depends on axioms: [propext, Classical.choice, Quot.sound]
'Verif.C126_law' depends on axioms: [propext, Classical.choice, Quot.sound]
'Verif.C126_moments' depends on axioms: [propext, Classical.choice, Quot.sound]
'Verif.C127_fractions' depends on axioms: [propext, Classical.choice, Quot.sound]
'Verif.C127_percentiles' depends on axioms: [propext, Classical.choice, Quot.sound]
'Verif.C127_table' depends on axioms: [propext, Classical.choice, Quot.sound]
'Verif.C127_limit' depends on axioms: [propext, Classical.choice, Quot.sound]
'Verif.C127_norm' depends on axioms: [propext, Classical.choice, Quot.sound]
'Verif.C128_linked' depends on axioms: [propext, Classical.choice, Quot.sound]
'Verif.C128_fails_alike' depends on axioms: [propext, Classical.choice, Quot.sound]
'Verif.C128_raise' depends on axioms: [propext, Classical.choice, Quot.sound]
'Verif.C128_norm_shift' depends on axioms: [propext, Classical.choice, Quot.sound]
'Verif.C128_sum_sensitivity' depends on axioms: [propext, Classical.choice, Quot.sound]
'Verif.C128_dominance' depends on axioms: [propext, Classical.choice, Quot.sound]
'Verif.C129_batches' depends on axioms: [propext, Classical.choice, Quot.sound]
'Verif.C129_mean' depends on axioms: [propext, Classical.choice, Quot.sound]
'Verif.C129_fraction' depends on axioms: [propext, Classical.choice, Quot.sound]
'Verif.C129_mean_limit' depends on axioms: [propext, Classical.choice, Quot.sound]
'Verif.C129_variance_fails' depends on axioms: [propext, Classical.choice, Quot.sound]
'Verif.C129_error_bars_fails' depends on axioms: [propext, Classical.choice, Quot.sound]
'Verif.C129_too_narrow' depends on axioms: [propext, Classical.choice, Quot.sound]
'Verif.C130_events' depends on axioms: [propext, Classical.choice, Quot.sound]
'Verif.C130_conditional' depends on axioms: [propext, Classical.choice, Quot.sound]
'Verif.C130_limit' depends on axioms: [propext, Classical.choice, Quot.sound]
'Verif.C130_no_gain_fails' depends on axioms: [propext, Classical.choice, Quot.sound]
'Verif.C131_refines' depends on axioms: [propext, Classical.choice, Quot.sound]
'Verif.C131_correlated_partial' depends on axioms: [propext, Classical.choice, Quot.sound]
'Verif.C131_built_from_fails' depends on axioms: [propext, Classical.choice, Quot.sound]
'Verif.C131_twice_fails' depends on axioms: [propext, Classical.choice, Quot.sound]
'Verif.C131_pending_fails' depends on axioms: [propext, Classical.choice, Quot.sound]
'Verif.C131_program' depends on axioms: [propext, Classical.choice, Quot.sound]
'Verif.C132_extends_partial' depends on axioms: [propext, Classical.choice, Quot.sound]
'Verif.C132_first_sample_partial' depends on axioms: [propext, Quot.sound]
'Verif.C132_small_mixture_partial' depends on axioms: [propext, Classical.choice, Quot.sound]
'Verif.C132_bayesnet' depends on axioms: [propext, Classical.choice, Quot.sound]
'Verif.C132_sum_fails' depends on axioms: [propext, Classical.choice, Quot.sound]
'Verif.C132_mixture_fails' depends on axioms: [propext, Classical.choice, Quot.sound]
'Verif.C133_length' depends on axioms: [propext, Quot.sound]
'Verif.C133_agrees' depends on axioms: [propext, Quot.sound]
'Verif.C133_value_iff' depends on axioms: [propext, Quot.sound]
'Verif.C133_rows' depends on axioms: [propext, Classical.choice, Quot.sound]
'Verif.C133_nan_kept' depends on axioms: [propext, Classical.choice, Quot.sound]
'Verif.C133_not_finite' depends on axioms: [propext, Classical.choice, Quot.sound]
'Verif.C133_by_zero' depends on axioms: [propext, Quot.sound]
'Verif.C133_infinity' depends on axioms: [propext, Quot.sound]
'Verif.C133_hidden_fails' depends on axioms: [propext, Classical.choice, Quot.sound]
'Verif.C133_one_partial' depends on axioms: [propext, Quot.sound]
'Verif.C133_one_matches' depends on axioms: [propext, Quot.sound]
'Verif.C133_one_error' depends on axioms: [propext, Quot.sound]
'Verif.C133_one_numpy_fails' depends on axioms: [propext, Classical.choice, Quot.sound]
'Verif.C133_one_many_fails' depends on axioms: [propext, Classical.choice, Quot.sound]
'Verif.C133_bounds' depends on axioms: [propext, Quot.sound]
'Verif.C133_shares' depends on axioms: [propext, Classical.choice, Quot.sound]
'Verif.C133_mean' depends on axioms: [propext, Classical.choice, Quot.sound]
'Verif.C133_extends' depends on axioms: [propext, Classical.choice, Quot.sound]
'Verif.C133_draws' depends on axioms: [propext, Quot.sound]
'Verif.C134_first_partial' depends on axioms: [propext, Classical.choice, Quot.sound]
'Verif.C134_kept_fails' depends on axioms: [propext, Classical.choice, Quot.sound]
'Verif.C134_pair_partial' depends on axioms: [propext, Classical.choice, Quot.sound]
'Verif.C134_end_partial' depends on axioms: [propext, Classical.choice, Quot.sound]
'Verif.C134_count_fails' depends on axioms: [propext, Classical.choice, Quot.sound]
'Verif.C134_one_core_fails' depends on axioms: [propext, Classical.choice, Quot.sound]
'Verif.C134_expression' depends on axioms: [propext, Classical.choice, Quot.sound]
'Verif.C134_example_fails' depends on axioms: [propext, Classical.choice, Quot.sound]
'Verif.C135_poisson_sum' depends on axioms: [propext, Classical.choice, Quot.sound]
'Verif.C135_binomial_sum' depends on axioms: [propext, Classical.choice, Quot.sound]
'Verif.C135_bernoulli_count' depends on axioms: [propext, Classical.choice, Quot.sound]
'Verif.C135_gamma_special' depends on axioms: [propext, Classical.choice, Quot.sound]
'Verif.C135_gamma_sum' depends on axioms: [propext, Classical.choice, Quot.sound]
'Verif.C135_gamma_scale' depends on axioms: [propext, Classical.choice, Quot.sound]
'Verif.C135_exponential_total' depends on axioms: [propext, Classical.choice, Quot.sound]
'Verif.C135_chisquare_total' depends on axioms: [propext, Classical.choice, Quot.sound]
'Verif.C135_exponential_min' depends on axioms: [propext, Classical.choice, Quot.sound]
'Verif.C135_geometric_min' depends on axioms: [propext, Classical.choice, Quot.sound]
'Verif.C135_exponential_ceil' depends on axioms: [propext, Classical.choice, Quot.sound]
'Verif.C135_beta_reflect' depends on axioms: [propext, Classical.choice, Quot.sound]
'Verif.C135_beta_max' depends on axioms: [propext, Classical.choice, Quot.sound]
'Verif.C135_uniform_power' depends on axioms: [propext, Classical.choice, Quot.sound]
'Verif.C135_uniform_sum' depends on axioms: [propext, Classical.choice, Quot.sound]
'Verif.C135_pert_flat' depends on axioms: [propext, Classical.choice, Quot.sound]
'Verif.C135_die_list' depends on axioms: [propext, Classical.choice, Quot.sound]
'Verif.C135_list_counts' depends on axioms: [propext, Classical.choice, Quot.sound]
'Verif.C135_dict_mixture' depends on axioms: [propext, Classical.choice, Quot.sound]
'Verif.C135_bernoulli_dict' depends on axioms: [propext, Classical.choice, Quot.sound]
'Verif.C135_pareto' depends on axioms: [propext, Classical.choice, Quot.sound]
'Verif.C136_same_result' depends on axioms: [propext, Quot.sound]
'Verif.C136_same_batch' depends on axioms: [propext, Quot.sound]
'Verif.C136_silent_partial' depends on axioms: [propext, Classical.choice, Quot.sound]
'Verif.C136_bars_end' depends on axioms: [propext, Quot.sound]
'Verif.C136_bars_end_cores_partial' depends on axioms: [propext, Quot.sound]
'Verif.C136_silent_fails' depends on axioms: [propext, Classical.choice, Quot.sound]
'Verif.C136_bars_end_cores_fails' depends on axioms: [propext, Classical.choice, Quot.sound]
'Verif.C137_defined' depends on axioms: [propext, Quot.sound]
'Verif.C137_between' depends on axioms: [propext, Classical.choice, Quot.sound]
'Verif.C137_monotone' depends on axioms: [propext, Classical.choice, Quot.sound]
'Verif.C137_extremes' depends on axioms: [propext, Classical.choice, Quot.sound]
'Verif.C137_odd_median' depends on axioms: [propext, Classical.choice, Quot.sound]
'Verif.C137_accuracy' depends on axioms: [propext, Classical.choice, Quot.sound]
'Verif.C137_interval' depends on axioms: [propext, Classical.choice, Quot.sound]
'Verif.C138_accuracy' depends on axioms: [propext, Classical.choice, Quot.sound]
'Verif.C138_accuracy_numpy' depends on axioms: [propext, Classical.choice, Quot.sound]
'Verif.C138_monotone' depends on axioms: [propext, Classical.choice, Quot.sound]
'Verif.C138_between_partial' depends on axioms: [propext, Classical.choice, Quot.sound]
'Verif.C138_between_fails' depends on axioms: [propext, Classical.choice, Quot.sound]
'Verif.C138_frequency' depends on axioms: [propext, Classical.choice, Quot.sound]
'Verif.C138_probability' depends on axioms: [propext, Classical.choice, Quot.sound]
'Verif.C138_inclusion' depends on axioms: [propext, Classical.choice, Quot.sound]
'Verif.C139_accuracy' depends on axioms: [propext, Classical.choice, Quot.sound]
'Verif.C139_whole' depends on axioms: [propext, Classical.choice, Quot.sound]
'Verif.C139_cancellation_fails' depends on axioms: [propext, Classical.choice, Quot.sound]
'Verif.C140_same_result' depends on axioms: [propext, Quot.sound]
'Verif.C140_silent' depends on axioms: [propext, Quot.sound]
'Verif.C140_missing' depends on axioms: [propext, Classical.choice, Quot.sound]
'Verif.C140_generating' depends on axioms: [propext, Classical.choice, Quot.sound]
'Verif.C140_saved' depends on axioms: [propext, Classical.choice, Quot.sound]
'Verif.C140_followed_up' depends on axioms: [propext, Quot.sound]
'Verif.C140_bar' depends on axioms: [propext, Classical.choice, Quot.sound]
'Verif.C140_done' depends on axioms: [propext, Classical.choice, Quot.sound]
'Verif.C140_loading_memory' depends on axioms: [propext, Classical.choice, Quot.sound]
'Verif.C140_loading_file' depends on axioms: [propext, Classical.choice, Quot.sound]
'Verif.C140_bar_cores_fails' depends on axioms: [propext, Classical.choice, Quot.sound]
'Verif.C140_sample_same' depends on axioms: [propext, Quot.sound]
'Verif.C140_sample_silent' depends on axioms: [propext, Quot.sound]
'Verif.C140_sample_saved' depends on axioms: [propext, Quot.sound]
'Verif.C140_sample_loading_partial' depends on axioms: [propext, Classical.choice, Quot.sound]
'Verif.C140_sample_cores' depends on axioms: [propext, Classical.choice, Quot.sound]
'Verif.C140_sample_loading_fails' depends on axioms: [propext, Classical.choice, Quot.sound]
'Verif.C141_left_over' depends on axioms: [propext, Classical.choice, Quot.sound]
'Verif.C141_right_iff' depends on axioms: [propext, Classical.choice, Quot.sound]
'Verif.C141_exact' depends on axioms: [propext, Classical.choice, Quot.sound]
'Verif.C141_single' depends on axioms: [propext, Classical.choice, Quot.sound]
'Verif.C141_single_left_over' depends on axioms: [propext, Classical.choice, Quot.sound]
'Verif.C141_overflow_fails' depends on axioms: [propext, Classical.choice, Quot.sound]
'Verif.C141_single_fails' depends on axioms: [propext, Classical.choice, Quot.sound]
'Verif.C142_cores_partial' depends on axioms: [propext, Classical.choice, Quot.sound]
'Verif.C142_named_float' depends on axioms: [propext, Classical.choice, Quot.sound]
'Verif.C142_cores_fails' depends on axioms: [propext, Classical.choice, Quot.sound]
'Verif.C142_exact' depends on axioms: [propext, Classical.choice, Quot.sound]
'Verif.C142_named_partial' depends on axioms: [propext, Classical.choice, Quot.sound]
'Verif.C142_values' depends on axioms: [propext, Quot.sound]
'Verif.C142_quintillion_fails' depends on axioms: [propext, Classical.choice, Quot.sound]
'Verif.C142_late_fails' depends on axioms: [propext, Classical.choice, Quot.sound]
'Verif.C143_beta' depends on axioms: [propext, Classical.choice, Quot.sound]
'Verif.C143_laplace' depends on axioms: [propext, Classical.choice, Quot.sound]
'Verif.C143_normal' depends on axioms: [propext, Classical.choice, Quot.sound]
'Verif.C143_lognormal' depends on axioms: [propext, Classical.choice, Quot.sound]
'Verif.C143_gamma_fails' depends on axioms: [propext, Classical.choice, Quot.sound]
'Verif.C143_laplace_time' depends on axioms: [propext, Classical.choice, Quot.sound]
'Verif.C143_beta_samples' depends on axioms: [propext, Classical.choice, Quot.sound]
'Verif.C143_normal_samples' depends on axioms: [propext, Classical.choice, Quot.sound]
'Verif.C143_lognormal_samples' depends on axioms: [propext, Classical.choice, Quot.sound]
'Verif.C144_update_chance' depends on axioms: [propext, Classical.choice, Quot.sound]
'Verif.C144_update_mean' depends on axioms: [propext, Classical.choice, Quot.sound]
'Verif.C144_laplace' depends on axioms: [propext, Classical.choice, Quot.sound]
'Verif.C144_update_chance_cores' depends on axioms: [propext, Classical.choice, Quot.sound]
'Verif.C144_laplace_cores' depends on axioms: [propext, Classical.choice, Quot.sound]
'Verif.C145_evidence' depends on axioms: [propext, Classical.choice, Quot.sound]
'Verif.C145_evidence_weights' depends on axioms: [propext, Classical.choice, Quot.sound]
'Verif.C145_complement' depends on axioms: [propext, Classical.choice, Quot.sound]
'Verif.C145_complement_weights' depends on axioms: [propext, Classical.choice, Quot.sound]
'Verif.C145_monotone' depends on axioms: [propext, Classical.choice, Quot.sound]
'Verif.C145_geomean_fails' depends on axioms: [propext, Classical.choice, Quot.sound]
'Verif.C146_growth' depends on axioms: [propext, Classical.choice, Quot.sound]
'Verif.C146_beats' depends on axioms: [propext, Classical.choice, Quot.sound]
'Verif.C146_reported_partial' depends on axioms: [propext, Classical.choice, Quot.sound]
'Verif.C146_reported_fails' depends on axioms: [propext, Classical.choice, Quot.sound]
'Verif.C147_read' depends on axioms: [propext, Classical.choice, Quot.sound]
'Verif.C147_days' depends on axioms: [propext, Classical.choice, Quot.sound]
'Verif.C147_return' depends on axioms: [propext, Classical.choice, Quot.sound]
'Verif.C147_eve' depends on axioms: [propext, Classical.choice, Quot.sound]
'Verif.C147_refused' depends on axioms: [propext, Classical.choice, Quot.sound]
'Verif.C148_call' depends on axioms: [propext, Classical.choice, Quot.sound]
'Verif.C148_bounds_partial' depends on axioms: [propext, Classical.choice, Quot.sound]
'Verif.C148_crossed_fails' depends on axioms: [propext, Classical.choice, Quot.sound]
'Verif.C148_left_over_fails' depends on axioms: [propext, Classical.choice, Quot.sound]
'Verif.C148_law' depends on axioms: [propext, Classical.choice, Quot.sound]
'Verif.C149_coherent' depends on axioms: [propext, Classical.choice, Quot.sound]
'Verif.C149_sum' depends on axioms: [propext, Classical.choice, Quot.sound]
'Verif.C149_product' depends on axioms: [propext, Classical.choice, Quot.sound]
'Verif.C149_total' depends on axioms: [propext, Classical.choice, Quot.sound]
'Verif.C149_bayes' depends on axioms: [propext, Classical.choice, Quot.sound]
'Verif.C149_bayes_given' depends on axioms: [propext, Classical.choice, Quot.sound]
'Verif.C149_fresh_fails' depends on axioms: [propext, Classical.choice, Quot.sound]
'Verif.C150_reads_back' depends on axioms: [propext, Classical.choice, Quot.sound]
'Verif.C150_norm' depends on axioms: [propext, Classical.choice, Quot.sound]
'Verif.C150_pert_fails' depends on axioms: [propext, Classical.choice, Quot.sound]
'Verif.C150_lognorm_fails' depends on axioms: [propext, Classical.choice, Quot.sound]
'Verif.C150_text_fails' depends on axioms: [propext, Classical.choice, Quot.sound]
'Verif.C150_coin_fails' depends on axioms: [propext, Classical.choice, Quot.sound]
'Verif.C151_units' depends on axioms: [propext, Classical.choice, Quot.sound]
'Verif.C151_mirror' depends on axioms: [propext, Classical.choice, Quot.sound]
'Verif.C151_dominance' depends on axioms: [propext, Classical.choice, Quot.sound]
'Verif.C151_close' depends on axioms: [propext, Classical.choice, Quot.sound]
'Verif.C151_intervals' depends on axioms: [propext, Classical.choice, Quot.sound]
'Verif.C151_intervals_mirror' depends on axioms: [propext, Classical.choice, Quot.sound]
'Verif.C151_weighted' depends on axioms: [propext, Classical.choice, Quot.sound]
'Verif.C152_round_trip' depends on axioms: [propext, Classical.choice, Quot.sound]
'Verif.C152_crash' depends on axioms: [propext, Classical.choice, Quot.sound]
'Verif.C152_all_or_error' depends on axioms: [propext, Classical.choice, Quot.sound]
'Verif.C152_trailing' depends on axioms: [propext, Classical.choice, Quot.sound]
'Verif.C152_refuses' depends on axioms: [propext, Classical.choice, Quot.sound]
'Verif.C152_same' depends on axioms: [propext]
'Verif.C152_again' depends on axioms: [propext, Quot.sound]
'Verif.C152_injective' depends on axioms: [propext, Classical.choice, Quot.sound]
'Verif.C152_batch' depends on axioms: [propext, Classical.choice, Quot.sound]
'Verif.C153_possible' depends on axioms: [propext, Classical.choice, Quot.sound]
'Verif.C153_round_trip' depends on axioms: [propext, Classical.choice, Quot.sound]
'Verif.C153_crash' depends on axioms: [propext, Classical.choice, Quot.sound]
'Verif.C153_all_or_error' depends on axioms: [propext, Classical.choice, Quot.sound]
'Verif.C153_injective' depends on axioms: [propext, Classical.choice, Quot.sound]
'Verif.C153_trailing' depends on axioms: [propext, Classical.choice, Quot.sound]
'Verif.C153_aligned' depends on axioms: [propext, Quot.sound]
'Verif.C154_weights' depends on axioms: [propext, Classical.choice, Quot.sound]
'Verif.C154_unweighted' depends on axioms: [propext, Classical.choice, Quot.sound]
'Verif.C154_relative' depends on axioms: [propext, Classical.choice, Quot.sound]
'Verif.C154_monotone' depends on axioms: [propext, Classical.choice, Quot.sound]
'Verif.C154_odds' depends on axioms: [propext, Classical.choice, Quot.sound]
'Verif.C154_odds_unweighted' depends on axioms: [propext, Classical.choice, Quot.sound]
'Verif.C154_practice' depends on axioms: [propext, Classical.choice, Quot.sound]
'Verif.C155_doubling_time' depends on axioms: [propext, Classical.choice, Quot.sound]
'Verif.C155_doubling_antitone' depends on axioms: [propext, Classical.choice, Quot.sound]
'Verif.C155_tiny_fails' depends on axioms: [propext, Classical.choice, Quot.sound]
'Verif.C155_growth_rate' depends on axioms: [propext, Classical.choice, Quot.sound]
'Verif.C155_long_fails' depends on axioms: [propext, Classical.choice, Quot.sound]
'Verif.C155_extremize' depends on axioms: [propext, Classical.choice, Quot.sound]
'Verif.C155_extremize_side' depends on axioms: [propext, Classical.choice, Quot.sound]
'Verif.C156_caches' depends on axioms: [propext, Quot.sound]
'Verif.C156_history' depends on axioms: [propext, Quot.sound]
'Verif.C156_retry' depends on axioms: [propext, Classical.choice, Quot.sound]
'Verif.C156_swallowed_fails' depends on axioms: [propext, Classical.choice, Quot.sound]
'Verif.C156_worker_error_fails' depends on axioms: [propext, Classical.choice, Quot.sound]
'Verif.C156_spoiled_fails' depends on axioms: [propext, Classical.choice, Quot.sound]
'Verif.C156_bayes_events' depends on axioms: [propext, Quot.sound]
'Verif.C156_bayes_question' depends on axioms: [propext, Quot.sound]
'Verif.C156_bayes_spoiled_fails' depends on axioms: [propext, Classical.choice, Quot.sound]
'Verif.C157_interval' depends on axioms: [propext, Classical.choice, Quot.sound]
'Verif.C157_practice' depends on axioms: [propext, Classical.choice, Quot.sound]
'Verif.C157_sd_nonneg' depends on axioms: [propext, Classical.choice, Quot.sound]
'Verif.C157_sd_positive_partial' depends on axioms: [propext, Classical.choice, Quot.sound]
'Verif.C157_mean' depends on axioms: [propext, Classical.choice, Quot.sound]
'Verif.C157_sd' depends on axioms: [propext, Classical.choice, Quot.sound]
'Verif.C157_narrow_fails' depends on axioms: [propext, Classical.choice, Quot.sound]
'Verif.C158_std' depends on axioms: [propext, Classical.choice, Quot.sound]
'Verif.C158_bounds' depends on axioms: [propext, Classical.choice, Quot.sound]
'Verif.C158_sharpe' depends on axioms: [propext, Classical.choice, Quot.sound]
'Verif.C158_practice' depends on axioms: [propext, Classical.choice, Quot.sound]
'Verif.C158_constant_fails' depends on axioms: [propext, Classical.choice, Quot.sound]
'Verif.C158_constant_partial' depends on axioms: [propext, Classical.choice, Quot.sound]
'Verif.C159_custom' depends on axioms: [propext, Classical.choice, Quot.sound]
'Verif.C159_histogram' depends on axioms: [propext, Classical.choice, Quot.sound]
'Verif.C159_order' depends on axioms: [propext, Classical.choice, Quot.sound]
'Verif.C159_total_partial' depends on axioms: [propext, Classical.choice, Quot.sound]
'Verif.C159_fraction' depends on axioms: [propext, Classical.choice, Quot.sound]
'Verif.C159_total_fails' depends on axioms: [propext, Classical.choice, Quot.sound]
'Verif.C159_whole_fails' depends on axioms: [propext, Classical.choice, Quot.sound]
'Verif.C160_form' depends on axioms: [propext, Classical.choice, Quot.sound]
'Verif.C160_first' depends on axioms: [propext, Classical.choice, Quot.sound]
'Verif.C160_value' depends on axioms: [propext, Classical.choice, Quot.sound]
'Verif.C160_mono' depends on axioms: [propext, Classical.choice, Quot.sound]
'Verif.C160_display' depends on axioms: [propext, Classical.choice, Quot.sound]
'Verif.C160_small_fails' depends on axioms: [propext, Classical.choice, Quot.sound]
'Verif.C161_exact' depends on axioms: [propext, Classical.choice, Quot.sound]
'Verif.C161_monotone' depends on axioms: [propext, Classical.choice, Quot.sound]
'Verif.C161_accuracy' depends on axioms: [propext, Classical.choice, Quot.sound]
'Verif.C161_zero' depends on axioms: [propext, Quot.sound]
'Verif.C161_nearest_fails' depends on axioms: [propext, Classical.choice, Quot.sound]
'Verif.C162_range' depends on axioms: [propext, Classical.choice, Quot.sound]
'Verif.C162_accuracy' depends on axioms: [propext, Classical.choice, Quot.sound]
'Verif.C162_monotone' depends on axioms: [propext, Classical.choice, Quot.sound]
'Verif.C162_zero_fails' depends on axioms: [propext, Classical.choice, Quot.sound]
'Verif.C163_between' depends on axioms: [propext, Classical.choice, Quot.sound]
'Verif.C163_range_partial' depends on axioms: [propext, Classical.choice, Quot.sound]
'Verif.C163_monotone_partial' depends on axioms: [propext, Classical.choice, Quot.sound]
'Verif.C163_zero' depends on axioms: [propext, Classical.choice, Quot.sound]
'Verif.C163_top_fails' depends on axioms: [propext, Classical.choice, Quot.sound]
'Verif.C164_beta' depends on axioms: [propext, Classical.choice, Quot.sound]
'Verif.C164_counts' depends on axioms: [propext, Classical.choice, Quot.sound]
'Verif.C164_order' depends on axioms: [propext, Classical.choice, Quot.sound]
'Verif.C164_stuck_fails' depends on axioms: [propext, Classical.choice, Quot.sound]
'Verif.C164_gamma' depends on axioms: [propext, Classical.choice, Quot.sound]
'Verif.C164_lognorm' depends on axioms: [propext, Classical.choice, Quot.sound]
'Verif.C165_refused' depends on axioms: [propext, Classical.choice, Quot.sound]
'Verif.C165_small_partial' depends on axioms: [propext, Classical.choice, Quot.sound]
'Verif.C165_remainder' depends on axioms: [propext, Classical.choice, Quot.sound]
'Verif.C165_leftover_fails' depends on axioms: [propext, Classical.choice, Quot.sound]
'Verif.C166_reads' depends on axioms: [propext, Classical.choice, Quot.sound]
'Verif.C166_distinct' depends on axioms: [propext, Classical.choice, Quot.sound]
'Verif.C166_whole' depends on axioms: [propext, Classical.choice, Quot.sound]
'Verif.C166_zero' depends on axioms: [propext, Classical.choice, Quot.sound]
'Verif.C167_monotone' depends on axioms: [propext, Classical.choice, Quot.sound]
'Verif.C167_accuracy' depends on axioms: [propext, Classical.choice, Quot.sound]
'Verif.C167_keeps' depends on axioms: [propext, Classical.choice, Quot.sound]
'Verif.C167_twice' depends on axioms: [propext, Classical.choice, Quot.sound]
'Verif.C167_whole' depends on axioms: [propext, Classical.choice, Quot.sound]
'Verif.C167_nearest_fails' depends on axioms: [propext, Classical.choice, Quot.sound]
'Verif.C167_whole_number_fails' depends on axioms: [propext, Classical.choice, Quot.sound]
'Verif.C168_exact' depends on axioms: [propext, Classical.choice, Quot.sound]
'Verif.C168_rounded_down' depends on axioms: [propext, Classical.choice, Quot.sound]
'Verif.C168_single' depends on axioms: [propext, Classical.choice, Quot.sound]
'Verif.C168_single_numpy' depends on axioms: [propext, Classical.choice, Quot.sound]
'Verif.C168_zero_fails' depends on axioms: [propext, Classical.choice, Quot.sound]
'Verif.C168_edge_fails' depends on axioms: [propext, Classical.choice, Quot.sound]
'Verif.C169_same' depends on axioms: [propext, Classical.choice, Quot.sound]
'Verif.C169_total' depends on axioms: [propext, Quot.sound]
'Verif.C169_nonneg' depends on axioms: [propext, Classical.choice, Quot.sound]
'Verif.C169_zero_cores' depends on axioms: [propext, Quot.sound]
'Verif.C169_last_fails' depends on axioms: [propext, Classical.choice, Quot.sound]
'Verif.C170_ordered' depends on axioms: [propext, Classical.choice, Quot.sound]
'Verif.C170_between' depends on axioms: [propext, Classical.choice, Quot.sound]
'Verif.C170_decimal_data' depends on axioms: [propext, Classical.choice, Quot.sound]
'Verif.C170_interval' depends on axioms: [propext, Classical.choice, Quot.sound]
'Verif.C170_beyond_fails' depends on axioms: [propext, Classical.choice, Quot.sound]
'Verif.C171_same' depends on axioms: [propext, Classical.choice, Quot.sound]
'Verif.C171_accepted' depends on axioms: [propext, Classical.choice, Quot.sound]
'Verif.C171_normalize' depends on axioms: [propext, Classical.choice, Quot.sound]
'Verif.C171_relative' depends on axioms: [propext, Classical.choice, Quot.sound]
'Verif.C171_overflow' depends on axioms: [propext, Classical.choice, Quot.sound]
'Verif.C171_lost_fails' depends on axioms: [propext, Classical.choice, Quot.sound]
'Verif.C172_norm' depends on axioms: [propext, Classical.choice, Quot.sound]
'Verif.C172_overflow' depends on axioms: [propext, Classical.choice, Quot.sound]
'Verif.C172_infinite_fails' depends on axioms: [propext, Classical.choice, Quot.sound]
'Verif.C173_accuracy' depends on axioms: [propext, Classical.choice, Quot.sound]
'Verif.C173_overflow_fails' depends on axioms: [propext, Classical.choice, Quot.sound]
'Verif.C173_underflow_fails' depends on axioms: [propext, Classical.choice, Quot.sound]
'Verif.C174_sum' depends on axioms: [propext, Classical.choice, Quot.sound]
'Verif.C174_normalize' depends on axioms: [propext, Classical.choice, Quot.sound]
'Verif.C174_accepted' depends on axioms: [propext, Classical.choice, Quot.sound]
'Verif.C174_refused' depends on axioms: [propext, Classical.choice, Quot.sound]
'Verif.C174_leftover' depends on axioms: [propext, Classical.choice, Quot.sound]
'Verif.C174_remainder' depends on axioms: [propext, Classical.choice, Quot.sound]
'Verif.C174_relative' depends on axioms: [propext, Classical.choice, Quot.sound]
'Verif.C174_default' depends on axioms: [propext, Classical.choice, Quot.sound]
'Verif.C174_versions_differ' depends on axioms: [propext, Classical.choice, Quot.sound]
'Verif.C175_update' depends on axioms: [propext, Classical.choice, Quot.sound]
'Verif.C175_extreme_fails' depends on axioms: [propext, Classical.choice, Quot.sound]
'Verif.C176_same' depends on axioms: [propext, Classical.choice, Quot.sound]
'Verif.C176_whole' depends on axioms: [propext, Classical.choice, Quot.sound]
'Verif.C176_infinite_fails' depends on axioms: [propext, Classical.choice, Quot.sound]
'Verif.C177_probability' depends on axioms: [propext, Classical.choice, Quot.sound]
'Verif.C177_accuracy' depends on axioms: [propext, Classical.choice, Quot.sound]
'Verif.C177_small_fails' depends on axioms: [propext, Classical.choice, Quot.sound]
'Verif.C178_odds' depends on axioms: [propext, Classical.choice, Quot.sound]
'Verif.C178_prob' depends on axioms: [propext, Classical.choice, Quot.sound]
'Verif.C178_round_trip' depends on axioms: [propext, Classical.choice, Quot.sound]
'Verif.C179_uniform' depends on axioms: [propext, Classical.choice, Quot.sound]
'Verif.C179_range' depends on axioms: [propext, Classical.choice, Quot.sound]
'Verif.C179_wide_fails' depends on axioms: [propext, Classical.choice, Quot.sound]
'Verif.C179_pert_partial' depends on axioms: [propext, Classical.choice, Quot.sound]
'Verif.C179_pert_fails' depends on axioms: [propext, Classical.choice, Quot.sound]
'Verif.C180_kelly' depends on axioms: [propext, Classical.choice, Quot.sound]
'Verif.C180_small_fails' depends on axioms: [propext, Classical.choice, Quot.sound]
'Verif.C181_finite' depends on axioms: [propext, Classical.choice, Quot.sound]
'Verif.C181_between' depends on axioms: [propext, Classical.choice, Quot.sound]
'Verif.C181_wide_fails' depends on axioms: [propext, Classical.choice, Quot.sound]
'Verif.C182_finite' depends on axioms: [propext, Classical.choice, Quot.sound]
'Verif.C182_accuracy' depends on axioms: [propext, Classical.choice, Quot.sound]
'Verif.C182_numpy' depends on axioms: [propext, Classical.choice, Quot.sound]
'Verif.C182_large_fails' depends on axioms: [propext, Classical.choice, Quot.sound]
'Verif.C183_frequency' depends on axioms: [propext, Classical.choice, Quot.sound]
'Verif.C183_probability' depends on axioms: [propext, Classical.choice, Quot.sound]
