{
 "claims": [
  {
   "property": "C01",
   "status": "proved",
   "theorems": [
    "Verif.C01_bdd_add",
    "Verif.C01_bdd_add_ub"
   ],
   "note": ""
  },
  {
   "property": "C02",
   "status": "proved",
   "theorems": [
    "Verif.C02_bdd_subtract",
    "Verif.C02_bdd_subtract_ub"
   ],
   "note": ""
  },
  {
   "property": "C03",
   "status": "proved",
   "theorems": [
    "Verif.C03_absolute_difference_unsigned"
   ],
   "note": ""
  },
  {
   "property": "C04",
   "status": "partial",
   "theorems": [
    "Verif.C04_absolute_difference_signed_wraps",
    "Verif.C04_absolute_difference_signed_partial",
    "Verif.C04_absolute_difference_signed_empty",
    "Verif.C04_absolute_difference_signed_false"
   ],
   "note": "The claim is false of the code: the signed absolute difference wraps when the true difference does not fit the sign-extended width (C04_absolute_difference_signed_false gives a witness, _wraps says exactly what is computed). The partial theorem covers all vectors whose signed difference fits."
  },
  {
   "property": "C05",
   "status": "proved",
   "theorems": [
    "Verif.C05_bdd_abs"
   ],
   "note": ""
  },
  {
   "property": "C06",
   "status": "proved",
   "theorems": [
    "Verif.C06_bdd_shift"
   ],
   "note": ""
  },
  {
   "property": "C07",
   "status": "proved",
   "theorems": [
    "Verif.C07_multiply_constant",
    "Verif.C07_multiply_constant_rounding"
   ],
   "note": ""
  },
  {
   "property": "C08",
   "status": "partial",
   "theorems": [
    "Verif.C08_multiply_fraction_partial",
    "Verif.C08_multiply_fraction_small_factor_ub"
   ],
   "note": "Proved for factors above 1/2; for smaller factors the conversion of the negative logarithm to size_t is undefined (C08_multiply_fraction_small_factor_ub). Doubles are exact rationals."
  },
  {
   "property": "C09",
   "status": "proved",
   "theorems": [
    "Verif.C09_exists_greater_equals"
   ],
   "note": ""
  },
  {
   "property": "C10",
   "status": "proved",
   "theorems": [
    "Verif.C10_comparisons"
   ],
   "note": ""
  },
  {
   "property": "C11",
   "status": "proved",
   "theorems": [
    "Verif.C11_max_one"
   ],
   "note": ""
  },
  {
   "property": "C12",
   "status": "proved",
   "theorems": [
    "Verif.C12_divide"
   ],
   "note": ""
  },
  {
   "property": "C13",
   "status": "proved",
   "theorems": [
    "Verif.C13_number_to_bdds"
   ],
   "note": ""
  },
  {
   "property": "C14",
   "status": "partial",
   "theorems": [
    "Verif.C14_high",
    "Verif.C14_terminal",
    "Verif.C14_low_partial",
    "Verif.C14_low_false",
    "Verif.C14_cofactors_false"
   ],
   "note": "high is right. low returns the negated cofactor exactly when the function is false and its low cofactor true at the all-ones input (complemented node with complemented else-edge); negation proved, partial theorem covers all other BDDs."
  },
  {
   "property": "C15",
   "status": "proved",
   "theorems": [
    "Verif.C15_terminal_level",
    "Verif.C15_terminal_level_constant"
   ],
   "note": ""
  },
  {
   "property": "C16",
   "status": "proved",
   "theorems": [
    "Verif.C16_eval",
    "Verif.C16_eval_sound",
    "Verif.C16_eval_ub",
    "Verif.C16_eval_short_ub"
   ],
   "note": ""
  },
  {
   "property": "C17",
   "status": "proved",
   "theorems": [
    "Verif.C17_regular_adder",
    "Verif.C17_eval_adder_signed",
    "Verif.C17_eval_adder",
    "Verif.C17_eval_regular_adder_signed",
    "Verif.C17_eval_regular_adder_32",
    "Verif.C17_eval_regular_adder",
    "Verif.C17_eval_adder_ub"
   ],
   "note": ""
  },
  {
   "property": "C18",
   "status": "proved",
   "theorems": [
    "Verif.C18_count_minterms",
    "Verif.C18_count_minterms_root"
   ],
   "note": ""
  },
  {
   "property": "C19",
   "status": "proved",
   "theorems": [
    "Verif.C19_count_solutions"
   ],
   "note": "Under the index order, as the property says."
  },
  {
   "property": "C20",
   "status": "partial",
   "theorems": [
    "Verif.C20_random_satisfying_input_partial",
    "Verif.C20_random_satisfying_input_false"
   ],
   "note": "False for draws equal to 0 (witness proved); holds for all streams without a 0, under the index order. Probabilities are exact rationals."
  },
  {
   "property": "C21",
   "status": "proved",
   "theorems": [
    "Verif.C21_terminal_values",
    "Verif.C21_terminal_values_constant"
   ],
   "note": ""
  },
  {
   "property": "C22",
   "status": "proved",
   "theorems": [
    "Verif.C22_forest_to_add",
    "Verif.C22_forest_to_add_empty"
   ],
   "note": ""
  },
  {
   "property": "C23",
   "status": "proved",
   "theorems": [
    "Verif.C23_absolute_difference_add",
    "Verif.C23_xor_difference_add"
   ],
   "note": ""
  },
  {
   "property": "C24",
   "status": "proved",
   "theorems": [
    "Verif.C24_get_max_value",
    "Verif.C24_get_max_value_wraps"
   ],
   "note": ""
  },
  {
   "property": "C25",
   "status": "partial",
   "theorems": [
    "Verif.C25_worst_case_error_unsigned",
    "Verif.C25_worst_case_error_signed_wraps",
    "Verif.C25_worst_case_error_signed_partial",
    "Verif.C25_worst_case_error_signed_false"
   ],
   "note": "Unsigned: proved. Two's complement: false (the code takes the absolute difference modulo 2^n); the result is characterised exactly, and it is right iff no difference exceeds half of the number range."
  },
  {
   "property": "C26",
   "status": "proved",
   "theorems": [
    "Verif.C26_zero_iff_equal",
    "Verif.C26_symmetric",
    "Verif.C26_triangle",
    "Verif.C26_metric_signed"
   ],
   "note": ""
  },
  {
   "property": "C27",
   "status": "proved",
   "theorems": [
    "Verif.C27_percent",
    "Verif.C27_percent_empty"
   ],
   "note": ""
  },
  {
   "property": "C28",
   "status": "proved",
   "theorems": [
    "Verif.C28_worst_case_error_add",
    "Verif.C28_agrees_with_worst_case_error",
    "Verif.C28_disagrees_signed"
   ],
   "note": "Index order, at most 64 variables. The disagreement for two's complement is proved with a witness."
  },
  {
   "property": "C29",
   "status": "partial",
   "theorems": [
    "Verif.C29_upper_bound_unsigned",
    "Verif.C29_upper_bound_signed_partial",
    "Verif.C29_upper_bound_signed_false",
    "Verif.C29_assertion"
   ],
   "note": "Unsigned: proved. Two's complement: false (witness), right for differences that do not wrap."
  },
  {
   "property": "C30",
   "status": "partial",
   "theorems": [
    "Verif.C30_tightness_false",
    "Verif.C30_tightness_partial"
   ],
   "note": "The documented bound is false (witness); the bound that does hold is proved."
  },
  {
   "property": "C31",
   "status": "proved",
   "theorems": [
    "Verif.C31_average_value"
   ],
   "note": ""
  },
  {
   "property": "C32",
   "status": "partial",
   "theorems": [
    "Verif.C32_mean_squared_value_partial",
    "Verif.C32_mean_squared_value_full_support_partial",
    "Verif.C32_mean_squared_value_bounds",
    "Verif.C32_mean_squared_value_variables",
    "Verif.C32_mean_squared_value_false"
   ],
   "note": "False: conjunctions of two bits are counted over the support of a single bit and truncated (witness: 5/2 instead of 7/2). The result is never too large and at least a third of the true mean square (C32_mean_squared_value_bounds), and the exactness condition is proved as an iff."
  },
  {
   "property": "C33",
   "status": "partial",
   "theorems": [
    "Verif.C33_average_case_error",
    "Verif.C33_average_case_error_signed_wraps",
    "Verif.C33_average_case_error_signed_partial",
    "Verif.C33_average_case_error_signed_false",
    "Verif.C33_mean_squared_error_partial",
    "Verif.C33_mean_squared_error_false"
   ],
   "note": "average_case_error: proved for unsigned, for two's complement exact iff nothing wraps. mean_squared_error inherits the truncation of C32 (witness); it is between a third of the mean square and the mean square, exact if one difference bit depends on all the variables."
  },
  {
   "property": "C34",
   "status": "partial",
   "theorems": [
    "Verif.C34_average_case_error_add",
    "Verif.C34_mean_squared_error_add",
    "Verif.C34_average_agrees",
    "Verif.C34_mean_squared_agrees_false",
    "Verif.C34_mean_squared_agrees_partial"
   ],
   "note": "average_case_error_add: equal to the mean and to average_case_error. mean_squared_error_add: equal to the mean square, but not to mean_squared_error, which truncates (C32); negation proved, partial: the BDD variant is between a third of the ADD variant and the ADD variant."
  },
  {
   "property": "C35",
   "status": "proved",
   "theorems": [
    "Verif.C35_error_rate",
    "Verif.C35_error_rate_lengths",
    "Verif.C35_error_rate_single"
   ],
   "note": ""
  },
  {
   "property": "C36",
   "status": "proved",
   "theorems": [
    "Verif.C36_error_rate_add",
    "Verif.C36_agrees_with_error_rate",
    "Verif.C36_sixty_four_levels"
   ],
   "note": "Index order, at most 63 levels as the property says; at 64 levels the total wraps (C36_sixty_four_levels)."
  },
  {
   "property": "C37",
   "status": "proved",
   "theorems": [
    "Verif.C37_error_rate_sampling",
    "Verif.C37_error_rate_sampling_degenerate"
   ],
   "note": ""
  },
  {
   "property": "C38",
   "status": "partial",
   "theorems": [
    "Verif.C38_efficient_sampling_bounds_partial",
    "Verif.C38_bounds_enclose_error_rate",
    "Verif.C38_efficient_sampling_one_bit",
    "Verif.C38_efficient_sampling_undefined",
    "Verif.C38_efficient_sampling_bounds_false",
    "Verif.C38_no_variables_false",
    "Verif.C38_efficient_sampling_nested",
    "Verif.C38_efficient_sampling_disjoint"
   ],
   "note": "False for two or more bits of which at most one differs (undefined behaviour, proved). Otherwise the bounds hold for all random sequences; exactness for nested and for disjoint bit differences is proved as well. Also false in a manager without variables, where the divisor is infinite and the estimate is 0 (C38_no_variables_false)."
  },
  {
   "property": "C39",
   "status": "proved",
   "theorems": [
    "Verif.C39_worst_case_bit_flip_error",
    "Verif.C39_worst_case_bit_flip_error_add",
    "Verif.C39_assertion",
    "Verif.C39_sixty_five_bits"
   ],
   "note": "The ADD variant needs at most 64 output bits (C39_sixty_five_bits shows the undefined behaviour beyond)."
  },
  {
   "property": "C40",
   "status": "proved",
   "theorems": [
    "Verif.C40_average_bit_flip_error_add",
    "Verif.C40_average_bit_flip_error_add_overflow",
    "Verif.C40_average_bit_flip_error",
    "Verif.C40_average_bit_flip_error_assertion"
   ],
   "note": "The ADD variant sums in unsigned long: (bits+1)*2^N <= 2^64 is needed (C40_average_bit_flip_error_add_overflow shows the wrap)."
  },
  {
   "property": "C41",
   "status": "proved",
   "theorems": [
    "Verif.C41_wcre_add"
   ],
   "note": "Index order, at most 64 variables; doubles are exact rationals."
  },
  {
   "property": "C42",
   "status": "partial",
   "theorems": [
    "Verif.C42_wcre_randomized_search",
    "Verif.C42_wcre_randomized_search_signed_partial",
    "Verif.C42_wcre_randomized_search_signed_false",
    "Verif.C42_wcre_randomized_search_saturates",
    "Verif.C42_wcre_randomized_search_terminates",
    "Verif.C42_wcre_randomized_search_no_samples"
   ],
   "note": "Exact for unsigned numbers up to 61 bits, for all random sequences; it returns if every round takes at least one sample (with rand() avoiding 0, C20) and C42_..._no_samples shows that it otherwise runs for ever unless the error is 0 or a power of two. False for signed numbers whose difference wraps (witness), proved for those that do not wrap."
  },
  {
   "property": "C43",
   "status": "partial",
   "theorems": [
    "Verif.C43_wcre_search_partial",
    "Verif.C43_wcre_search_false",
    "Verif.C43_wcre_search_below_one_ub"
   ],
   "note": "The claim is false of the code: inputs removed by the mask compare equal, so a wrong middle value is returned as exact (C43_wcre_search_false), and every error strictly between 0 and 1 is undefined behaviour. The partial theorem bounds the result for errors that are 0 or at least 1."
  },
  {
   "property": "C44",
   "status": "proved",
   "theorems": [
    "Verif.C44_wcre_symbolic_division",
    "Verif.C44_wcre_symbolic_division_signed"
   ],
   "note": ""
  },
  {
   "property": "C45",
   "status": "partial",
   "theorems": [
    "Verif.C45_maximum_relative_value_bounds",
    "Verif.C45_maximum_relative_value_bounds_exact",
    "Verif.C45_wcre_bounds",
    "Verif.C45_wcre_bounds_signed_partial",
    "Verif.C45_wcre_bounds_signed_false"
   ],
   "note": "Proved for maximum_relative_value_bounds and for wcre_bounds on unsigned numbers; false for signed numbers whose difference wraps (witness), proved for those that do not wrap."
  },
  {
   "property": "C46",
   "status": "partial",
   "theorems": [
    "Verif.C46_average_relative_value",
    "Verif.C46_average_relative_value_exact",
    "Verif.C46_acre_bounds",
    "Verif.C46_acre_bounds_signed_partial",
    "Verif.C46_acre_bounds_signed_false"
   ],
   "note": "Proved for average_relative_value and for acre_bounds on unsigned numbers; false for signed numbers whose difference wraps (witness), proved for those that do not wrap."
  },
  {
   "property": "C47",
   "status": "partial",
   "theorems": [
    "Verif.C47_acre_add",
    "Verif.C47_acre_symbolic_division",
    "Verif.C47_acre_symbolic_division_exact",
    "Verif.C47_acre_symbolic_division_signed_partial",
    "Verif.C47_acre_symbolic_division_signed_false"
   ],
   "note": "acre_add: proved (index order, at most 64 variables). acre_symbolic_division: proved for unsigned numbers, for signed ones without wrapping differences; a witness shows that wrapping differences break it."
  },
  {
   "property": "C48",
   "status": "proved",
   "theorems": [
    "Verif.C48_subset_operators"
   ],
   "note": ""
  },
  {
   "property": "C49",
   "status": "proved",
   "theorems": [
    "Verif.C49_superset_operators"
   ],
   "note": ""
  },
  {
   "property": "C50",
   "status": "proved",
   "theorems": [
    "Verif.C50_subset_light_child",
    "Verif.C50_subset_heavy_child",
    "Verif.C50_superset_light_child",
    "Verif.C50_superset_heavy_child",
    "Verif.C50_subset_light_child_level"
   ],
   "note": "Any range [ls,le], index order; ties included. The single-level form is spelled out for subset_light_child."
  },
  {
   "property": "C51",
   "status": "proved",
   "theorems": [
    "Verif.C51_untouched",
    "Verif.C51_untouched_round"
   ],
   "note": ""
  },
  {
   "property": "C52",
   "status": "proved",
   "theorems": [
    "Verif.C52_round_bdd"
   ],
   "note": ""
  },
  {
   "property": "C53",
   "status": "partial",
   "theorems": [
    "Verif.C53_round_best_partial",
    "Verif.C53_round_best_factor_two",
    "Verif.C53_round_best_false"
   ],
   "note": "False in ties (negation proved): both children are replaced. Without ties the local error is optimal among all single-child replacements; in general the error rate is at most twice the optimum (C53_round_best_factor_two)."
  },
  {
   "property": "C54",
   "status": "proved",
   "theorems": [
    "Verif.C54_subset_light_child_idempotent",
    "Verif.C54_superset_heavy_child_idempotent",
    "Verif.C54_round_bdd_idempotent",
    "Verif.C54_others_not_idempotent"
   ],
   "note": "Negation for the two remaining operators proved as well."
  },
  {
   "property": "C55",
   "status": "proved",
   "theorems": [
    "Verif.C55_reduce_then_create",
    "Verif.C55_create_then_reduce",
    "Verif.C55_reduce_monotone",
    "Verif.C55_zero_bound",
    "Verif.C55_wraps"
   ],
   "note": "Also proved: beyond 2^64 points positions wrap (C55_wraps) and a bound of 0 is a division by zero."
  },
  {
   "property": "C56",
   "status": "proved",
   "theorems": [
    "Verif.C56_terminates",
    "Verif.C56_returns",
    "Verif.C56_no_metric",
    "Verif.C56_zero_grid"
   ],
   "note": "C56_terminates needs no assumption on what metrics and operators return; C56_returns says when the call returns a value. Metrics and operators are pure functions in the model."
  },
  {
   "property": "C57",
   "status": "proved",
   "theorems": [
    "Verif.C57_error_bounds"
   ],
   "note": "Errors are exact rationals in the model; the bucket vector's size must fit std::size_t, bounds are positive."
  },
  {
   "property": "C58",
   "status": "proved",
   "theorems": [
    "Verif.C58_sizes"
   ],
   "note": ""
  },
  {
   "property": "C59",
   "status": "proved",
   "theorems": [
    "Verif.C59_front"
   ],
   "note": ""
  },
  {
   "property": "C60",
   "status": "proved",
   "theorems": [
    "Verif.C60_reachable"
   ],
   "note": ""
  },
  {
   "property": "C61",
   "status": "proved",
   "theorems": [
    "Verif.C61_cofactor",
    "Verif.C61_apply_operator",
    "Verif.C61_single",
    "Verif.C61_multi",
    "Verif.C61_random",
    "Verif.C61_random_ub"
   ],
   "note": "The documentation of generate_random_operators (random bit, drawn on each call) does not match the code; C61_random states what it does."
  },
  {
   "property": "C62",
   "status": "proved",
   "theorems": [
    "Verif.C62_almost_correct_adder_1",
    "Verif.C62_almost_correct_adder_2",
    "Verif.C62_gracefully_degrading_adder",
    "Verif.C62_generic_accuracy_reconfigurable_adder"
   ],
   "note": "For all legal parameters, as characterised by C64; widths below 2^31."
  },
  {
   "property": "C63",
   "status": "proved",
   "theorems": [
    "Verif.C63_almost_correct_adder_1",
    "Verif.C63_almost_correct_adder_1_full",
    "Verif.C63_almost_correct_adder_2",
    "Verif.C63_gracefully_degrading_adder",
    "Verif.C63_gracefully_degrading_adder_one",
    "Verif.C63_generic_accuracy_reconfigurable_adder"
   ],
   "note": ""
  },
  {
   "property": "C64",
   "status": "partial",
   "theorems": [
    "Verif.C64_almost_correct_adder_1_asserts",
    "Verif.C64_almost_correct_adder_1",
    "Verif.C64_almost_correct_adder_2",
    "Verif.C64_gracefully_degrading_adder",
    "Verif.C64_generic_accuracy_reconfigurable_adder",
    "Verif.C64_parameters_false"
   ],
   "note": "The claim is false: the witnesses in C64_parameters_false are undefined behaviour that no assertion catches. The other theorems say exactly which parameters are defined, detected by an assertion, or undefined (widths below 2^31)."
  },
  {
   "property": "C65",
   "status": "proved",
   "theorems": [
    "Verif.C65_and_bdd",
    "Verif.C65_or_bdd",
    "Verif.C65_xor_bdd"
   ],
   "note": ""
  },
  {
   "property": "C66",
   "status": "proved",
   "theorems": [
    "Verif.C66_sum_of_products",
    "Verif.C66_usual_file",
    "Verif.C66_undefined_behaviour",
    "Verif.C66_inputs_declared_twice"
   ],
   "note": "Stated for arbitrary callback sequences; characters other than 0 and 1 beyond the columns are harmless."
  },
  {
   "property": "C67",
   "status": "proved",
   "theorems": [
    "Verif.C67_circuit",
    "Verif.C67_values",
    "Verif.C67_undeclared_operand",
    "Verif.C67_undeclared_output",
    "Verif.C67_gate_index",
    "Verif.C67_redefined_input"
   ],
   "note": "Also proved: the assertion in on_and is off by one (C67_gate_index) and a redefined input leaves a stale negation (C67_redefined_input)."
  },
  {
   "property": "C68",
   "status": "partial",
   "theorems": [
    "Verif.C68_input_name_boundary",
    "Verif.C68_names_checked_false",
    "Verif.C68_names_partial"
   ],
   "note": "The claim is false: the assertions use <=, so index = count is an out of range write in every build. Missing: rejection of that index."
  },
  {
   "property": "C69",
   "status": "proved",
   "theorems": [
    "Verif.C69_and",
    "Verif.C69_or",
    "Verif.C69_index",
    "Verif.C69_assign",
    "Verif.C69_empty"
   ],
   "note": ""
  },
  {
   "property": "C70",
   "status": "proved",
   "theorems": [
    "Verif.C70_nodes",
    "Verif.C70_draws",
    "Verif.C70_reads",
    "Verif.C70_assertions",
    "Verif.C70_ub",
    "Verif.C70_unnamed"
   ],
   "note": "Under the documented numbers of names; C70_assertions and C70_ub say what happens otherwise, C70_unnamed that NDEBUG builds silently leave functions without a name. Attributes for the appearance are not modelled."
  },
  {
   "property": "C71",
   "status": "partial",
   "theorems": [
    "Verif.C71_reordering_false",
    "Verif.C71_terminal_values_partial",
    "Verif.C71_metrics_partial"
   ],
   "note": "False: after reordering count_paths shifts by a negative number (undefined behaviour, witness proved). Partial: for every order, whenever the functions return, the result is right."
  },
  {
   "property": "C72",
   "status": "partial",
   "theorems": [
    "Verif.C72_round_up_partial",
    "Verif.C72_round_down_partial",
    "Verif.C72_round_down_false"
   ],
   "note": "False (negation proved for round_down): the counts compared are unnormalised. The partial theorems say exactly which child is replaced."
  },
  {
   "property": "C73",
   "status": "proved",
   "theorems": [
    "Verif.C73_subset_light_keeps_half",
    "Verif.C73_subset_light_range",
    "Verif.C73_superset_heavy_range"
   ],
   "note": ""
  },
  {
   "property": "C74",
   "status": "proved",
   "theorems": [
    "Verif.C74_split",
    "Verif.C74_split_all",
    "Verif.C74_input_names",
    "Verif.C74_output_names",
    "Verif.C74_second_line"
   ],
   "note": ""
  },
  {
   "property": "C75",
   "status": "partial",
   "theorems": [
    "Verif.C75_metric_function_partial",
    "Verif.C75_mean_squared_false",
    "Verif.C75_names"
   ],
   "note": "False for the mean squared error, which metric_function maps to another computation (C75_mean_squared_false); all others proved (C75_metric_function_partial)."
  },
  {
   "property": "C76",
   "status": "partial",
   "theorems": [
    "Verif.C76_load_adder",
    "Verif.C76_load_refused",
    "Verif.C76_load_circuit",
    "Verif.C76_result_partial",
    "Verif.C76_returns",
    "Verif.C76_unset"
   ],
   "note": "Missing in C76_result_partial: requests with the mean squared error, whose metric function is wrong (C75). In mode RANDOM without a number of operators the behaviour is undefined (C76_unset)."
  },
  {
   "property": "C77",
   "status": "proved",
   "theorems": [
    "Verif.C77_operator_support",
    "Verif.C77_round_up_down_support",
    "Verif.C77_cofactor_support",
    "Verif.C77_generated"
   ],
   "note": "Operators, generators and whole searches."
  },
  {
   "property": "C78",
   "status": "proved",
   "theorems": [
    "Verif.C78_format_time_rounded",
    "Verif.C78_format_time",
    "Verif.C78_format_time_ub",
    "Verif.C78_format_time_precision"
   ],
   "note": "Below 2^31 minutes; from there on the conversion is undefined (C78_format_time_ub)."
  },
  {
   "property": "C79",
   "status": "proved",
   "theorems": [
    "Verif.C79_cofactor_shrinks",
    "Verif.C79_cofactor_shrinks_strictly",
    "Verif.C79_growth_bound",
    "Verif.C79_growth_bound_ordered",
    "Verif.C79_operators_can_grow"
   ],
   "note": "The bound of 2 needs the original order; the bound of 3 holds for every order. C79_operators_can_grow: every operator other than a cofactor can add nodes."
  },
  {
   "property": "C80",
   "status": "proved",
   "theorems": [
    "Verif.C80_possible_operators",
    "Verif.C80_steps",
    "Verif.C80_next",
    "Verif.C80_order"
   ],
   "note": "Independent of grid sizes and of populate_all_buckets. Added after three wrong programs about possible_operators survived."
  },
  {
   "property": "C81",
   "status": "proved",
   "theorems": [
    "Verif.C81_example1a",
    "Verif.C81_example1a_regular_adder",
    "Verif.C81_figures",
    "Verif.C81_figures_need_order",
    "Verif.C81_figure_errors",
    "Verif.C81_figure_bits",
    "Verif.C81_example3",
    "Verif.C81_running_example",
    "Verif.C81_testing"
   ],
   "note": "Operators count levels by index, so the relation between the figures needs an order preserving manager (C81_figures_need_order)."
  },
  {
   "property": "C82",
   "status": "proved",
   "theorems": [
    "Verif.C82_positions",
    "Verif.C82_individuum",
    "Verif.C82_default",
    "Verif.C82_short",
    "Verif.C82_support",
    "Verif.C82_can_grow",
    "Verif.C82_population",
    "Verif.C82_bounds",
    "Verif.C82_population_constant"
   ],
   "note": "C82_can_grow: the shared diagram of an individual can be larger. Constant functions divide by zero (C82_population_constant)."
  },
  {
   "property": "C83",
   "status": "proved",
   "theorems": [
    "Verif.C83_admissible",
    "Verif.C83_not_smaller",
    "Verif.C83_original_punished",
    "Verif.C83_nobj",
    "Verif.C83_no_domination",
    "Verif.C83_punished",
    "Verif.C83_multipliers_matter"
   ],
   "note": "Pareto domination; C83_multipliers_matter shows that the first objective alone does not separate."
  },
  {
   "property": "C84",
   "status": "partial",
   "theorems": [
    "Verif.C84_result_partial",
    "Verif.C84_terminates",
    "Verif.C84_float_false"
   ],
   "note": "C84_result_partial needs limits that the conversion to float does not round down; C84_float_false is a run in which it does and a punished value is reported. The populations of pagmo are arbitrary."
  },
  {
   "property": "C85",
   "status": "partial",
   "theorems": [
    "Verif.C85_metric_partial",
    "Verif.C85_average_relative_partial",
    "Verif.C85_average_relative_false",
    "Verif.C85_average_relative_above",
    "Verif.C85_binary_search_partial",
    "Verif.C85_binary_search_false",
    "Verif.C85_mean_squared_partial",
    "Verif.C85_mean_squared_false",
    "Verif.C85_symmetric",
    "Verif.C85_names"
   ],
   "note": "Missing: the ADD based average relative error is called with the arguments swapped, so it is relative to the approximation (C85_average_relative_false, unbounded discrepancy; C85_average_relative_partial holds for the swapped pair). The binary search can stop early and the mean squared error can be cut off (C85_binary_search_false, C85_mean_squared_false). The mean squared error is between a third of the true one and the true one."
  },
  {
   "property": "C86",
   "status": "partial",
   "theorems": [
    "Verif.C86_adder",
    "Verif.C86_adder_measured",
    "Verif.C86_name",
    "Verif.C86_narrowing",
    "Verif.C86_files",
    "Verif.C86_files_differ",
    "Verif.C86_load",
    "Verif.C86_load_failure_partial",
    "Verif.C86_load_failure_false"
   ],
   "note": "Missing: the EPFL loader ignores the return code of the parser, so an unreadable file is a circuit without outputs (C86_load_failure_false). C86_narrowing: the parameters are cut to 32 bits."
  },
  {
   "property": "C87",
   "status": "proved",
   "theorems": [
    "Verif.C87_vec_to_arr",
    "Verif.C87_del_arr",
    "Verif.C87_del_null",
    "Verif.C87_dump_dot",
    "Verif.C87_dump_dot_undefined",
    "Verif.C87_dump_dot_empty",
    "Verif.C87_dump_dot_single"
   ],
   "note": "The heap is a list of blocks; allocation succeeds. Of CUDD's DumpDot only the reads of the name arrays are modelled."
  },
  {
   "property": "C88",
   "status": "partial",
   "theorems": [
    "Verif.C88_minterms_exact",
    "Verif.C88_solutions_exact",
    "Verif.C88_operators_exact",
    "Verif.C88_relative_error",
    "Verif.C88_subset",
    "Verif.C88_superset",
    "Verif.C88_children",
    "Verif.C88_light_child",
    "Verif.C88_light_child_false",
    "Verif.C88_round_bdd",
    "Verif.C88_random_satisfying_input_partial",
    "Verif.C88_minterms_inexact",
    "Verif.C88_minterms_exact_false",
    "Verif.C88_underflow_false",
    "Verif.C88_solutions_relative_error",
    "Verif.C88_round_up",
    "Verif.C88_round_down",
    "Verif.C88_round_best",
    "Verif.C88_round_best_factor_two"
   ],
   "note": "Exact up to 53 variables (C88_minterms_exact, C88_solutions_exact, C88_operators_exact). Beyond, the relative error is at most N/2^52, up to 1021 variables for minterms and 1000 levels for solutions, also in the choices of the operators (C88_relative_error, C88_solutions_relative_error, C88_children, C88_light_child, C88_round_bdd, C88_round_up, C88_round_down, C88_round_best, C88_round_best_factor_two). The full claim is false: no function with an odd number of more than 2^53 solutions has an exact count, subset_light_child can remove the heavier child from 56 variables on, and counts underflow to 0 from 1075 variables on. Missing: draws of 0 (C20). Subset and superset hold for any rounding."
  },
  {
   "property": "C89",
   "status": "proved",
   "theorems": [
    "Verif.C89_closed",
    "Verif.C89_front",
    "Verif.C89_local_optimum"
   ],
   "note": ""
  },
  {
   "property": "C90",
   "status": "partial",
   "theorems": [
    "Verif.C90_random_satisfying_input_near_uniform_partial",
    "Verif.C90_every_solution_is_drawn",
    "Verif.C90_unsatisfying_result_is_rare",
    "Verif.C90_exactly_uniform_false"
   ],
   "note": "rand() is perfect: every sequence of numbers 0..2^31-1 counts once. Exact uniformity is false (C90_exactly_uniform_false: a draw of 0 takes a branch without solutions, with probability exactly 1/2^31 for one variable). Proved: for every set of inputs the probability differs from the uniform one by at most N/2^31, every solution has at least the share 1 - N/2^31 of its uniform probability, and a result that does not satisfy the function has probability at most N/2^31. Exact counts; rounding is treated in C88."
  },
  {
   "property": "C91",
   "status": "proved",
   "theorems": [
    "Verif.C91_error_rate_sampling_unbiased",
    "Verif.C91_error_rate_sampling_variance",
    "Verif.C91_error_rate_sampling_accuracy"
   ],
   "note": "rand() is perfect, as in C90. Parities of the draws are fair because RAND_MAX + 1 is even."
  },
  {
   "property": "C92",
   "status": "partial",
   "theorems": [
    "Verif.C92_efficient_sampling_mean_upper",
    "Verif.C92_efficient_sampling_mean_lower_partial",
    "Verif.C92_efficient_sampling_unbiased_false"
   ],
   "note": "rand() is perfect, as in C90. Unbiasedness is false: bits that get no sample are skipped (C92_efficient_sampling_unbiased_false, estimate always 1/2 for an error rate of 7/8), and cutting off at 1 lowers the mean. Proved: the mean never exceeds the error rate by more than N/2^31 times the sum of the bit rates; with a sample for every bit it is at least (1 - N/2^31) times the error rate, divided by the sum of the bit rates where that exceeds 1. Undefined cases: C38."
  },
  {
   "property": "C93",
   "status": "proved",
   "theorems": [
    "Verif.C93_efficient_sampling_accuracy",
    "Verif.C93_efficient_sampling_rarely_far_off"
   ],
   "note": ""
  },
  {
   "property": "C94",
   "status": "proved",
   "theorems": [
    "Verif.C94_regular_average",
    "Verif.C94_average_case_error",
    "Verif.C94_topmost_start"
   ],
   "note": ""
  },
  {
   "property": "C95",
   "status": "proved",
   "theorems": [
    "Verif.C95_average_bit_flip_error",
    "Verif.C95_worst_case_bit_flip_error"
   ],
   "note": ""
  },
  {
   "property": "C96",
   "status": "proved",
   "theorems": [
    "Verif.C96_worst_case_error",
    "Verif.C96_aca1",
    "Verif.C96_gda",
    "Verif.C96_aca2",
    "Verif.C96_gear"
   ],
   "note": ""
  },
  {
   "property": "C97",
   "status": "proved",
   "theorems": [
    "Verif.C97_error_rate",
    "Verif.C97_aca1"
   ],
   "note": ""
  },
  {
   "property": "C98",
   "status": "partial",
   "theorems": [
    "Verif.C98_average_value",
    "Verif.C98_average_value_exact_false",
    "Verif.C98_average_case_error",
    "Verif.C98_mean_squared_value_partial",
    "Verif.C98_mean_squared_value_bounds_partial",
    "Verif.C98_mean_squared_error_partial",
    "Verif.C98_error_rate",
    "Verif.C98_error_rate_inexact",
    "Verif.C98_error_rate_exact_false",
    "Verif.C98_average_bit_flip_error"
   ],
   "note": "Exactness is false from 54 variables on (C98_average_value_exact_false, C98_error_rate_exact_false; C98_error_rate_inexact names all functions with an odd number of more than 2^53 errors). Proved: up to 53 variables error_rate is exact and average_case_error is off by at most the accuracy of the decimal type (relative 10^-98); beyond, the relative error is at most N/2^52 for N variables (plus one 2^-52 per bit in average_bit_flip_error), and 0 is returned exactly for equal functions. error_rate and average_bit_flip_error up to 1000 variables. mean_squared_value: between a third of the mean square and the mean square up to that error, and the exact computation up to the accuracy of the decimal type up to 53 variables (C32 shows that one is wrong); close to the mean square where one bit depends on all variables. The accuracy of cpp_dec_float_100 (relative error 10^-99) and the recursion of Cudd_CountMinterm are assumed."
  },
  {
   "property": "C99",
   "status": "proved",
   "theorems": [
    "Verif.C99_subset_light_satisfiable",
    "Verif.C99_superset_heavy_falsifiable",
    "Verif.C99_subset_light_prefix",
    "Verif.C99_superset_heavy_prefix",
    "Verif.C99_others_constant"
   ],
   "note": ""
  },
  {
   "property": "C100",
   "status": "proved",
   "theorems": [
    "Verif.C100_single_path",
    "Verif.C100_subset_light",
    "Verif.C100_superset_heavy"
   ],
   "note": ""
  },
  {
   "property": "C101",
   "status": "proved",
   "theorems": [
    "Verif.C101_iscas85",
    "Verif.C101_label",
    "Verif.C101_table"
   ],
   "note": ""
  },
  {
   "property": "C102",
   "status": "proved",
   "theorems": [
    "Verif.C102_steps_table",
    "Verif.C102_average_case_error",
    "Verif.C102_steps",
    "Verif.C102_label"
   ],
   "note": ""
  },
  {
   "property": "C103",
   "status": "proved",
   "theorems": [
    "Verif.C103_table",
    "Verif.C103_idle",
    "Verif.C103_operators",
    "Verif.C103_label"
   ],
   "note": ""
  },
  {
   "property": "C104",
   "status": "proved",
   "theorems": [
    "Verif.C104_table",
    "Verif.C104_regular",
    "Verif.C104_improved",
    "Verif.C104_label",
    "Verif.C104_comparison"
   ],
   "note": ""
  },
  {
   "property": "C105",
   "status": "proved",
   "theorems": [
    "Verif.C105_mean_squared_error",
    "Verif.C105_mean_squared_error_add",
    "Verif.C105_aca1",
    "Verif.C105_aca1_value"
   ],
   "note": ""
  },
  {
   "property": "C106",
   "status": "proved",
   "theorems": [
    "Verif.C106_measure",
    "Verif.C106_figure",
    "Verif.C106_tables",
    "Verif.C106_label",
    "Verif.C106_comparison",
    "Verif.C106_last"
   ],
   "note": ""
  },
  {
   "property": "C107",
   "status": "proved",
   "theorems": [
    "Verif.C107_minimize_adders",
    "Verif.C107_minimize_circuit",
    "Verif.C107_limit",
    "Verif.C107_files"
   ],
   "note": ""
  },
  {
   "property": "C108",
   "status": "proved",
   "theorems": [
    "Verif.C108_limit",
    "Verif.C108_adders",
    "Verif.C108_circuits",
    "Verif.C108_files",
    "Verif.C108_unreadable"
   ],
   "note": ""
  },
  {
   "property": "C109",
   "status": "partial",
   "theorems": [
    "Verif.C109_coordinate",
    "Verif.C109_coordinate_exact",
    "Verif.C109_coordinate_same",
    "Verif.C109_min_element",
    "Verif.C109_error_bounds",
    "Verif.C109_error_bounds_exact",
    "Verif.C109_sizes",
    "Verif.C109_front",
    "Verif.C109_terminates",
    "Verif.C109_returns",
    "Verif.C109_same",
    "Verif.C109_accepts",
    "Verif.C109_rejects",
    "Verif.C109_error_bounds_false",
    "Verif.C109_closed_false"
   ],
   "note": "False as stated: an error equal to the bound is accepted with grid 7 and bound 0.289 (C109_accepts, C109_error_bounds_false), one below the bound is refused with grid 10 and bound 0.101 (C109_rejects, C109_closed_false). Proved: limits hold up to the factor 1 + 2^-51, and exactly if grid * error is a double; termination, sizes and the front hold for every rounding; with agreeing coordinates the result is that of the exact search. Grids up to 2^53, bounds at least 2^-60."
  },
  {
   "property": "C110",
   "status": "partial",
   "theorems": [
    "Verif.C110_metric_exact",
    "Verif.C110_metric_near",
    "Verif.C110_percent",
    "Verif.C110_metric_percent",
    "Verif.C110_metric_mean_squared_partial",
    "Verif.C110_minimize_adders_same",
    "Verif.C110_minimize_adders",
    "Verif.C110_minimize_circuit_same",
    "Verif.C110_minimize_circuit"
   ],
   "note": "The adder experiment and circuit rows up to 45 inputs are the exact ones; up to 53 inputs the printed error rate is the true one and below 0.05; up to 1000 inputs it is off by at most inputs * 2^-52 and below 0.05 up to such an error (exactness fails there, C98_error_rate_exact_false). The conversion of cpp_dec_float_100 to double is assumed to read back 18 decimal digits. The relative errors stay exact in this model. worst_case_error_percent is off by two units in the last place at most; the mean squared error is cut off as in C32 (C110_metric_mean_squared_partial). The conversion of a 256 bit integer to double is taken to round to nearest."
  },
  {
   "property": "C111",
   "status": "proved",
   "theorems": [
    "Verif.C111_result",
    "Verif.C111_same",
    "Verif.C111_adders",
    "Verif.C111_circuits"
   ],
   "note": "C111_result: any limits, any conversion to float; C111_adders and C111_circuits: the rows of the experiments. Node counts below 2^31 and at most 1000 inputs are assumed, and the accuracy of cpp_dec_float_100 as in C110. The populations of the genetic algorithm (pagmo) are arbitrary."
  },
  {
   "property": "C112",
   "status": "proved",
   "theorems": [
    "Verif.C112_round_any",
    "Verif.C112_round_bdd",
    "Verif.C112_round_best",
    "Verif.C112_round_up_down"
   ],
   "note": "Exact counts (rationals); doubles are in C127. Saturation of the counts at 2^32 and failing allocations (nullptr) are left out; dynamic reordering is off when the operators run. C112_round_up_down assumes indices in the order of the levels."
  },
  {
   "property": "C113",
   "status": "partial",
   "theorems": [
    "Verif.C113_left_behind",
    "Verif.C113_balanced_iff",
    "Verif.C113_repeated_calls",
    "Verif.C113_balanced_false"
   ],
   "note": "False (C113_balanced_false): one reference for every distinct handle the operator builds a new version of is never released (the Cudd_Ref marked 'TODO: is this necessary?'). C113_left_behind counts them exactly for every operator of C112, C113_balanced_iff says when none stays, C113_repeated_calls that every call adds the same number again. That reference is what keeps the new nodes alive during the rest of the recursion."
  },
  {
   "property": "C114",
   "status": "proved",
   "theorems": [
    "Verif.C114_or",
    "Verif.C114_and",
    "Verif.C114_trivial_error_rate",
    "Verif.C114_example3",
    "Verif.C114_average",
    "Verif.C114_check_wcr_values",
    "Verif.C114_wcr",
    "Verif.C114_children",
    "Verif.C114_cofactor",
    "Verif.C114_cofactor_zero",
    "Verif.C114_constrain_cofactor",
    "Verif.C114_is_cube",
    "Verif.C114_constrain_eval",
    "Verif.C114_constrain_on",
    "Verif.C114_dinge",
    "Verif.C114_trivial_worst_case",
    "Verif.C114_not_a_cube",
    "Verif.C114_constrain",
    "Verif.C114_rounding",
    "Verif.C114_function",
    "Verif.C114_parsing",
    "Verif.C114_or_pla",
    "Verif.C114_dump_dot"
   ],
   "note": "C114_average assumes that the exact quotient 3 is not changed by the rounding to 100 digits. The tests of parsing, Example 3, children and cofactor are run on the model with the natural variable order. Reading the .pla files is lorina's: the model starts at its callbacks."
  },
  {
   "property": "C115",
   "status": "partial",
   "theorems": [
    "Verif.C115_message_partial",
    "Verif.C115_message_false",
    "Verif.C115_xor_false",
    "Verif.C115_wcre_add_unchecked_false"
   ],
   "note": "False: find() returns a position, so the predicate accepts every message that does not begin with the text (C115_message_partial says exactly which); xor_bdd is the constant 0 (C115_xor_false); the last check of check_wcr_values repeats the symbolic division (C115_wcre_add_unchecked_false)."
  },
  {
   "property": "C116",
   "status": "partial",
   "theorems": [
    "Verif.C116_forest_to_add",
    "Verif.C116_worst_case_error_add",
    "Verif.C116_average_case_error_add",
    "Verif.C116_mean_squared_error_add",
    "Verif.C116_error_rate_add",
    "Verif.C116_worst_case_bit_flip_error",
    "Verif.C116_worst_case_bit_flip_error_add",
    "Verif.C116_average_bit_flip_error_add",
    "Verif.C116_fifty_four_bits_false",
    "Verif.C116_wcre_add",
    "Verif.C116_acre_add",
    "Verif.C116_runs",
    "Verif.C116_new_manager",
    "Verif.C116_near_constants"
   ],
   "note": "Proved for up to 53 output bits from a table of constants in which whole numbers stand apart; runs of metrics with up to 39 bits keep it so. Exactness fails at 54 bits (C116_fifty_four_bits_false). Which close constant CUDD takes is left open; C116_near_constants shows what that can do after a relative error with more bits. The hash function of the table is not modelled."
  },
  {
   "property": "C117",
   "status": "partial",
   "theorems": [
    "Verif.C117_multiply_constant",
    "Verif.C117_multiply_fraction_partial",
    "Verif.C117_multiply_fraction_small_factor_ub",
    "Verif.C117_multiply_fraction_limit",
    "Verif.C117_wcre_randomized_search",
    "Verif.C117_wcre_randomized_search_terminates",
    "Verif.C117_wcre_randomized_search_no_samples",
    "Verif.C117_wcre_search_exact",
    "Verif.C117_wcre_search_partial",
    "Verif.C117_wcre_search_below_one_ub",
    "Verif.C117_wcre_search_runs_forever",
    "Verif.C117_wcre_search_false",
    "Verif.C117_maximum_relative_value_bounds",
    "Verif.C117_wcre_bounds",
    "Verif.C117_average_relative_value",
    "Verif.C117_acre_bounds",
    "Verif.C117_wcre_symbolic_division",
    "Verif.C117_acre_symbolic_division"
   ],
   "note": "Partial: wcre_search never ends for the constants 3 and 2^40+2^39+4 with default arguments (relative error 2^39+1/3, no double), as for every constant relative error beyond the precision of doubles; up to 2^38 it gives the result of exact arithmetic, including the overestimates and the undefined behaviour of C43. The fractional product is 0 for the factor 2^256, which passes the assertion. The rest is proved."
  },
  {
   "property": "C118",
   "status": "partial",
   "theorems": [
    "Verif.C118_metric_partial",
    "Verif.C118_metric_exact",
    "Verif.C118_average_relative_partial",
    "Verif.C118_average_relative_false",
    "Verif.C118_binary_search_partial",
    "Verif.C118_binary_search_false",
    "Verif.C118_mean_squared_partial",
    "Verif.C118_mean_squared_false",
    "Verif.C118_symmetric",
    "Verif.C118_runs_partial",
    "Verif.C118_measure_adder_partial",
    "Verif.C118_comparison_row",
    "Verif.C118_comparison"
   ],
   "note": "Partial: the average relative errors are computed with the functions swapped (C118_average_relative_false), mean_squared_error truncates (C118_mean_squared_false), the binary search does not end for a relative error of 2^39+1/3 (C118_binary_search_false) and is undefined between 0 and 1 (C118_binary_search_partial). All other metrics are as near as claimed."
  },
  {
   "property": "C119",
   "status": "partial",
   "theorems": [
    "Verif.C119_graph",
    "Verif.C119_draws",
    "Verif.C119_reads",
    "Verif.C119_layout",
    "Verif.C119_default",
    "Verif.C119_outcome",
    "Verif.C119_file",
    "Verif.C119_quote_false",
    "Verif.C119_angle_false",
    "Verif.C119_width_false",
    "Verif.C119_symbol_false",
    "Verif.C119_dir_false",
    "Verif.C119_testing"
   ],
   "note": "Proved for plain names; quotation marks in function names (C119_quote_false), single angle brackets (C119_angle_false), a width printed with an exponent (C119_width_false) make the text unreadable, a variable called like a terminal (C119_symbol_false) makes it ambiguous, and all edges carry the unknown direction `non` (C119_dir_false)."
  },
  {
   "property": "C120",
   "status": "partial",
   "theorems": [
    "Verif.C120_closest",
    "Verif.C120_exact",
    "Verif.C120_mono",
    "Verif.C120_limit_false",
    "Verif.C120_near"
   ],
   "note": "The converse fails: a number above a limit can look like the limit (C120_limit_false)."
  },
  {
   "property": "C121",
   "status": "partial",
   "theorems": [
    "Verif.C121_time",
    "Verif.C121_no_fault",
    "Verif.C121_clock_set_back_false"
   ],
   "note": "Exact up to 2^50 ns; without a fault for all durations that are not negative; undefined for a clock set back (C121_clock_set_back_false)."
  },
  {
   "property": "C122",
   "status": "proved",
   "theorems": [
    "Verif.C122_minimize_adders",
    "Verif.C122_minimize_iscas",
    "Verif.C122_minimize_epfl",
    "Verif.C122_nsga_iscas",
    "Verif.C122_nsga_epfl",
    "Verif.C122_nsga_adders",
    "Verif.C122_comparison"
   ],
   "note": "For files that are well-formed circuits with at most 1000 inputs; in the genetic minimisation fewer than 2^31 nodes and individuals with one entry for each variable (as pagmo gives them)."
  },
  {
   "property": "C123",
   "status": "partial",
   "theorems": [
    "Verif.C123_sampling",
    "Verif.C123_efficient_exact",
    "Verif.C123_efficient_partial",
    "Verif.C123_efficient_one_bit",
    "Verif.C123_efficient_undefined",
    "Verif.C123_efficient_lost_rate_false"
   ],
   "note": "False in general: with error rates 1/2 and 2^-60 the smaller one is lost when the rates are added up, the code divides by 0 and converts the quotient to long (C123_efficient_lost_rate_false), though two bits differ; C123_efficient_partial assumes that two bits have rates of at least 2^-50 of the largest, up to 1000 variables, 1500 bits and fewer than 2^30 samples. As in C38 the result is undefined if at most one of several bits ever differs (C123_efficient_undefined). One-bit functions: C123_efficient_one_bit."
  },
  {
   "property": "C124",
   "status": "partial",
   "theorems": [
    "Verif.C124_apply_operator",
    "Verif.C124_apply_operator_exact",
    "Verif.C124_single",
    "Verif.C124_multi",
    "Verif.C124_random",
    "Verif.C124_metric",
    "Verif.C124_result_partial",
    "Verif.C124_result_small",
    "Verif.C124_returns",
    "Verif.C124_unset"
   ],
   "note": "Relative errors stay exact in this part of the model and are left out (C128 has them); the mean squared error may be as small as a third of the true one, as with exact numbers (C75_mean_squared_false)."
  },
  {
   "property": "C125",
   "status": "partial",
   "theorems": [
    "Verif.C125_text_partial"
   ],
   "note": "Missing: circuits of which several outputs change but only one of them not less often than 2^-50 times another; C123_efficient_lost_rate_false shows that the program can then be undefined."
  },
  {
   "property": "C126",
   "status": "partial",
   "theorems": [
    "Verif.C126_iscas85",
    "Verif.C126_average_case_error",
    "Verif.C126_steps",
    "Verif.C126_operators",
    "Verif.C126_regular",
    "Verif.C126_improved_partial"
   ],
   "note": "Missing: improved sampling on circuits where all outputs but one are ones less often than 2^-50 times another; C123_efficient_lost_rate_false shows that it can then be undefined."
  },
  {
   "property": "C127",
   "status": "proved",
   "theorems": [
    "Verif.C127_round_any",
    "Verif.C127_round_bdd",
    "Verif.C127_round_best",
    "Verif.C127_round_up_down",
    "Verif.C127_balanced_iff",
    "Verif.C127_exact"
   ],
   "note": "C127_round_any, C127_round_bdd and C127_round_up_down hold for every function as rounding; C127_round_best needs rounding to nearest, which makes its conditions exclude each other. C127_round_up_down assumes indices in the order of the levels."
  },
  {
   "property": "C128",
   "status": "partial",
   "theorems": [
    "Verif.C128_metric",
    "Verif.C128_metric_mean_squared_partial",
    "Verif.C128_metric_same",
    "Verif.C128_error_bounds",
    "Verif.C128_sizes",
    "Verif.C128_front",
    "Verif.C128_terminates",
    "Verif.C128_returns",
    "Verif.C128_result_partial",
    "Verif.C128_helper_returns",
    "Verif.C128_same"
   ],
   "note": "The mean squared error may be as small as a third of the true one, as with exact numbers (C75_mean_squared_false); the other nine metrics are covered in full. CUDD's epsilon has its default value 10^-12. C128_error_bounds to C128_returns hold for metrics that make any constants."
  }
 ]
}