import Verif.Props.Add
import Verif.Props.AdderErrors
import Verif.Props.AdderSquare
import Verif.Props.AdderTables
import Verif.Props.Adders
import Verif.Props.Arith
import Verif.Props.Average
import Verif.Props.BenchTables
import Verif.Props.Benchmark
import Verif.Props.Bucket
import Verif.Props.Closure
import Verif.Props.DotText
import Verif.Props.DumpDot
import Verif.Props.Experiments
import Verif.Props.Float
import Verif.Props.FloatAdd
import Verif.Props.FloatAddBucket
import Verif.Props.FloatBenchmark
import Verif.Props.FloatBucket
import Verif.Props.FloatExperiments
import Verif.Props.FloatHelper
import Verif.Props.FloatMemory
import Verif.Props.FloatMetrics
import Verif.Props.FloatNsga
import Verif.Props.FloatRelative
import Verif.Props.FloatRuntime
import Verif.Props.FloatSampling
import Verif.Props.FloatSolutions
import Verif.Props.FloatTime
import Verif.Props.Helper
import Verif.Props.Minimize
import Verif.Props.Nodes
import Verif.Props.Nsga
import Verif.Props.NsgaExperiments
import Verif.Props.Operators
import Verif.Props.Papers
import Verif.Props.Parsing
import Verif.Props.Print
import Verif.Props.PrintSampling
import Verif.Props.PrintTables
import Verif.Props.PrintTesting
import Verif.Props.Prob
import Verif.Props.ProbEfficient
import Verif.Props.Range
import Verif.Props.RefCount
import Verif.Props.Relative
import Verif.Props.Sampling
import Verif.Props.Size
import Verif.Props.Strings
import Verif.Props.Testing
import Verif.Props.Testsuite
import Verif.Props.Trail
import Verif.Props.WorstCase

/-! Prints the axioms of every property theorem. -/

#print axioms Verif.C01_bdd_add
#print axioms Verif.C01_bdd_add_ub
#print axioms Verif.C02_bdd_subtract
#print axioms Verif.C02_bdd_subtract_ub
#print axioms Verif.C03_absolute_difference_unsigned
#print axioms Verif.C04_absolute_difference_signed_wraps
#print axioms Verif.C04_absolute_difference_signed_partial
#print axioms Verif.C04_absolute_difference_signed_empty
#print axioms Verif.C04_absolute_difference_signed_false
#print axioms Verif.C05_bdd_abs
#print axioms Verif.C06_bdd_shift
#print axioms Verif.C07_multiply_constant
#print axioms Verif.C07_multiply_constant_rounding
#print axioms Verif.C08_multiply_fraction_partial
#print axioms Verif.C08_multiply_fraction_small_factor_ub
#print axioms Verif.C09_exists_greater_equals
#print axioms Verif.C10_comparisons
#print axioms Verif.C11_max_one
#print axioms Verif.C12_divide
#print axioms Verif.C13_number_to_bdds
#print axioms Verif.C14_high
#print axioms Verif.C14_terminal
#print axioms Verif.C14_low_partial
#print axioms Verif.C14_low_false
#print axioms Verif.C14_cofactors_false
#print axioms Verif.C15_terminal_level
#print axioms Verif.C15_terminal_level_constant
#print axioms Verif.C16_eval
#print axioms Verif.C16_eval_sound
#print axioms Verif.C16_eval_ub
#print axioms Verif.C16_eval_short_ub
#print axioms Verif.C17_regular_adder
#print axioms Verif.C17_eval_adder_signed
#print axioms Verif.C17_eval_adder
#print axioms Verif.C17_eval_regular_adder_signed
#print axioms Verif.C17_eval_regular_adder_32
#print axioms Verif.C17_eval_regular_adder
#print axioms Verif.C17_eval_adder_ub
#print axioms Verif.C18_count_minterms
#print axioms Verif.C18_count_minterms_root
#print axioms Verif.C19_count_solutions
#print axioms Verif.C20_random_satisfying_input_partial
#print axioms Verif.C20_random_satisfying_input_false
#print axioms Verif.C21_terminal_values
#print axioms Verif.C21_terminal_values_constant
#print axioms Verif.C22_forest_to_add
#print axioms Verif.C22_forest_to_add_empty
#print axioms Verif.C23_absolute_difference_add
#print axioms Verif.C23_xor_difference_add
#print axioms Verif.C24_get_max_value
#print axioms Verif.C24_get_max_value_wraps
#print axioms Verif.C25_worst_case_error_unsigned
#print axioms Verif.C25_worst_case_error_signed_wraps
#print axioms Verif.C25_worst_case_error_signed_partial
#print axioms Verif.C25_worst_case_error_signed_false
#print axioms Verif.C26_zero_iff_equal
#print axioms Verif.C26_symmetric
#print axioms Verif.C26_triangle
#print axioms Verif.C26_metric_signed
#print axioms Verif.C27_percent
#print axioms Verif.C27_percent_empty
#print axioms Verif.C28_worst_case_error_add
#print axioms Verif.C28_agrees_with_worst_case_error
#print axioms Verif.C28_disagrees_signed
#print axioms Verif.C29_upper_bound_unsigned
#print axioms Verif.C29_upper_bound_signed_partial
#print axioms Verif.C29_upper_bound_signed_false
#print axioms Verif.C29_assertion
#print axioms Verif.C30_tightness_false
#print axioms Verif.C30_tightness_partial
#print axioms Verif.C31_average_value
#print axioms Verif.C32_mean_squared_value_partial
#print axioms Verif.C32_mean_squared_value_full_support_partial
#print axioms Verif.C32_mean_squared_value_bounds
#print axioms Verif.C32_mean_squared_value_variables
#print axioms Verif.C32_mean_squared_value_false
#print axioms Verif.C33_average_case_error
#print axioms Verif.C33_average_case_error_signed_wraps
#print axioms Verif.C33_average_case_error_signed_partial
#print axioms Verif.C33_average_case_error_signed_false
#print axioms Verif.C33_mean_squared_error_partial
#print axioms Verif.C33_mean_squared_error_false
#print axioms Verif.C34_average_case_error_add
#print axioms Verif.C34_mean_squared_error_add
#print axioms Verif.C34_average_agrees
#print axioms Verif.C34_mean_squared_agrees_false
#print axioms Verif.C34_mean_squared_agrees_partial
#print axioms Verif.C35_error_rate
#print axioms Verif.C35_error_rate_lengths
#print axioms Verif.C35_error_rate_single
#print axioms Verif.C36_error_rate_add
#print axioms Verif.C36_agrees_with_error_rate
#print axioms Verif.C36_sixty_four_levels
#print axioms Verif.C37_error_rate_sampling
#print axioms Verif.C37_error_rate_sampling_degenerate
#print axioms Verif.C38_efficient_sampling_bounds_partial
#print axioms Verif.C38_bounds_enclose_error_rate
#print axioms Verif.C38_efficient_sampling_one_bit
#print axioms Verif.C38_efficient_sampling_undefined
#print axioms Verif.C38_efficient_sampling_bounds_false
#print axioms Verif.C38_no_variables_false
#print axioms Verif.C38_efficient_sampling_nested
#print axioms Verif.C38_efficient_sampling_disjoint
#print axioms Verif.C39_worst_case_bit_flip_error
#print axioms Verif.C39_worst_case_bit_flip_error_add
#print axioms Verif.C39_assertion
#print axioms Verif.C39_sixty_five_bits
#print axioms Verif.C40_average_bit_flip_error_add
#print axioms Verif.C40_average_bit_flip_error_add_overflow
#print axioms Verif.C40_average_bit_flip_error
#print axioms Verif.C40_average_bit_flip_error_assertion
#print axioms Verif.C41_wcre_add
#print axioms Verif.C42_wcre_randomized_search
#print axioms Verif.C42_wcre_randomized_search_signed_partial
#print axioms Verif.C42_wcre_randomized_search_signed_false
#print axioms Verif.C42_wcre_randomized_search_saturates
#print axioms Verif.C42_wcre_randomized_search_terminates
#print axioms Verif.C42_wcre_randomized_search_no_samples
#print axioms Verif.C43_wcre_search_partial
#print axioms Verif.C43_wcre_search_false
#print axioms Verif.C43_wcre_search_below_one_ub
#print axioms Verif.C44_wcre_symbolic_division
#print axioms Verif.C44_wcre_symbolic_division_signed
#print axioms Verif.C45_maximum_relative_value_bounds
#print axioms Verif.C45_maximum_relative_value_bounds_exact
#print axioms Verif.C45_wcre_bounds
#print axioms Verif.C45_wcre_bounds_signed_partial
#print axioms Verif.C45_wcre_bounds_signed_false
#print axioms Verif.C46_average_relative_value
#print axioms Verif.C46_average_relative_value_exact
#print axioms Verif.C46_acre_bounds
#print axioms Verif.C46_acre_bounds_signed_partial
#print axioms Verif.C46_acre_bounds_signed_false
#print axioms Verif.C47_acre_add
#print axioms Verif.C47_acre_symbolic_division
#print axioms Verif.C47_acre_symbolic_division_exact
#print axioms Verif.C47_acre_symbolic_division_signed_partial
#print axioms Verif.C47_acre_symbolic_division_signed_false
#print axioms Verif.C48_subset_operators
#print axioms Verif.C49_superset_operators
#print axioms Verif.C50_subset_light_child
#print axioms Verif.C50_subset_heavy_child
#print axioms Verif.C50_superset_light_child
#print axioms Verif.C50_superset_heavy_child
#print axioms Verif.C50_subset_light_child_level
#print axioms Verif.C51_untouched
#print axioms Verif.C51_untouched_round
#print axioms Verif.C52_round_bdd
#print axioms Verif.C53_round_best_partial
#print axioms Verif.C53_round_best_factor_two
#print axioms Verif.C53_round_best_false
#print axioms Verif.C54_subset_light_child_idempotent
#print axioms Verif.C54_superset_heavy_child_idempotent
#print axioms Verif.C54_round_bdd_idempotent
#print axioms Verif.C54_others_not_idempotent
#print axioms Verif.C55_reduce_then_create
#print axioms Verif.C55_create_then_reduce
#print axioms Verif.C55_reduce_monotone
#print axioms Verif.C55_zero_bound
#print axioms Verif.C55_wraps
#print axioms Verif.C56_terminates
#print axioms Verif.C56_returns
#print axioms Verif.C56_no_metric
#print axioms Verif.C56_zero_grid
#print axioms Verif.C57_error_bounds
#print axioms Verif.C58_sizes
#print axioms Verif.C59_front
#print axioms Verif.C60_reachable
#print axioms Verif.C61_cofactor
#print axioms Verif.C61_apply_operator
#print axioms Verif.C61_single
#print axioms Verif.C61_multi
#print axioms Verif.C61_random
#print axioms Verif.C61_random_ub
#print axioms Verif.C62_almost_correct_adder_1
#print axioms Verif.C62_almost_correct_adder_2
#print axioms Verif.C62_gracefully_degrading_adder
#print axioms Verif.C62_generic_accuracy_reconfigurable_adder
#print axioms Verif.C63_almost_correct_adder_1
#print axioms Verif.C63_almost_correct_adder_1_full
#print axioms Verif.C63_almost_correct_adder_2
#print axioms Verif.C63_gracefully_degrading_adder
#print axioms Verif.C63_gracefully_degrading_adder_one
#print axioms Verif.C63_generic_accuracy_reconfigurable_adder
#print axioms Verif.C64_almost_correct_adder_1_asserts
#print axioms Verif.C64_almost_correct_adder_1
#print axioms Verif.C64_almost_correct_adder_2
#print axioms Verif.C64_gracefully_degrading_adder
#print axioms Verif.C64_generic_accuracy_reconfigurable_adder
#print axioms Verif.C64_parameters_false
#print axioms Verif.C65_and_bdd
#print axioms Verif.C65_or_bdd
#print axioms Verif.C65_xor_bdd
#print axioms Verif.C66_sum_of_products
#print axioms Verif.C66_usual_file
#print axioms Verif.C66_undefined_behaviour
#print axioms Verif.C66_inputs_declared_twice
#print axioms Verif.C67_circuit
#print axioms Verif.C67_values
#print axioms Verif.C67_undeclared_operand
#print axioms Verif.C67_undeclared_output
#print axioms Verif.C67_gate_index
#print axioms Verif.C67_redefined_input
#print axioms Verif.C68_input_name_boundary
#print axioms Verif.C68_names_checked_false
#print axioms Verif.C68_names_partial
#print axioms Verif.C69_and
#print axioms Verif.C69_or
#print axioms Verif.C69_index
#print axioms Verif.C69_assign
#print axioms Verif.C69_empty
#print axioms Verif.C70_nodes
#print axioms Verif.C70_draws
#print axioms Verif.C70_reads
#print axioms Verif.C70_assertions
#print axioms Verif.C70_ub
#print axioms Verif.C70_unnamed
#print axioms Verif.C71_reordering_false
#print axioms Verif.C71_terminal_values_partial
#print axioms Verif.C71_metrics_partial
#print axioms Verif.C72_round_up_partial
#print axioms Verif.C72_round_down_partial
#print axioms Verif.C72_round_down_false
#print axioms Verif.C73_subset_light_keeps_half
#print axioms Verif.C73_subset_light_range
#print axioms Verif.C73_superset_heavy_range
#print axioms Verif.C74_split
#print axioms Verif.C74_split_all
#print axioms Verif.C74_input_names
#print axioms Verif.C74_output_names
#print axioms Verif.C74_second_line
#print axioms Verif.C75_metric_function_partial
#print axioms Verif.C75_mean_squared_false
#print axioms Verif.C75_names
#print axioms Verif.C76_load_adder
#print axioms Verif.C76_load_refused
#print axioms Verif.C76_load_circuit
#print axioms Verif.C76_result_partial
#print axioms Verif.C76_returns
#print axioms Verif.C76_unset
#print axioms Verif.C77_operator_support
#print axioms Verif.C77_round_up_down_support
#print axioms Verif.C77_cofactor_support
#print axioms Verif.C77_generated
#print axioms Verif.C78_format_time_rounded
#print axioms Verif.C78_format_time
#print axioms Verif.C78_format_time_ub
#print axioms Verif.C78_format_time_precision
#print axioms Verif.C79_cofactor_shrinks
#print axioms Verif.C79_cofactor_shrinks_strictly
#print axioms Verif.C79_growth_bound
#print axioms Verif.C79_growth_bound_ordered
#print axioms Verif.C79_operators_can_grow
#print axioms Verif.C80_possible_operators
#print axioms Verif.C80_steps
#print axioms Verif.C80_next
#print axioms Verif.C80_order
#print axioms Verif.C81_example1a
#print axioms Verif.C81_example1a_regular_adder
#print axioms Verif.C81_figures
#print axioms Verif.C81_figures_need_order
#print axioms Verif.C81_figure_errors
#print axioms Verif.C81_figure_bits
#print axioms Verif.C81_example3
#print axioms Verif.C81_running_example
#print axioms Verif.C81_testing
#print axioms Verif.C82_positions
#print axioms Verif.C82_individuum
#print axioms Verif.C82_default
#print axioms Verif.C82_short
#print axioms Verif.C82_support
#print axioms Verif.C82_can_grow
#print axioms Verif.C82_population
#print axioms Verif.C82_bounds
#print axioms Verif.C82_population_constant
#print axioms Verif.C83_admissible
#print axioms Verif.C83_not_smaller
#print axioms Verif.C83_original_punished
#print axioms Verif.C83_nobj
#print axioms Verif.C83_no_domination
#print axioms Verif.C83_punished
#print axioms Verif.C83_multipliers_matter
#print axioms Verif.C84_result_partial
#print axioms Verif.C84_terminates
#print axioms Verif.C84_float_false
#print axioms Verif.C85_metric_partial
#print axioms Verif.C85_average_relative_partial
#print axioms Verif.C85_average_relative_false
#print axioms Verif.C85_average_relative_above
#print axioms Verif.C85_binary_search_partial
#print axioms Verif.C85_binary_search_false
#print axioms Verif.C85_mean_squared_partial
#print axioms Verif.C85_mean_squared_false
#print axioms Verif.C85_symmetric
#print axioms Verif.C85_names
#print axioms Verif.C86_adder
#print axioms Verif.C86_adder_measured
#print axioms Verif.C86_name
#print axioms Verif.C86_narrowing
#print axioms Verif.C86_files
#print axioms Verif.C86_files_differ
#print axioms Verif.C86_load
#print axioms Verif.C86_load_failure_partial
#print axioms Verif.C86_load_failure_false
#print axioms Verif.C87_vec_to_arr
#print axioms Verif.C87_del_arr
#print axioms Verif.C87_del_null
#print axioms Verif.C87_dump_dot
#print axioms Verif.C87_dump_dot_undefined
#print axioms Verif.C87_dump_dot_empty
#print axioms Verif.C87_dump_dot_single
#print axioms Verif.C88_minterms_exact
#print axioms Verif.C88_solutions_exact
#print axioms Verif.C88_operators_exact
#print axioms Verif.C88_relative_error
#print axioms Verif.C88_subset
#print axioms Verif.C88_superset
#print axioms Verif.C88_children
#print axioms Verif.C88_light_child
#print axioms Verif.C88_light_child_false
#print axioms Verif.C88_round_bdd
#print axioms Verif.C88_random_satisfying_input_partial
#print axioms Verif.C88_minterms_inexact
#print axioms Verif.C88_minterms_exact_false
#print axioms Verif.C88_underflow_false
#print axioms Verif.C88_solutions_relative_error
#print axioms Verif.C88_round_up
#print axioms Verif.C88_round_down
#print axioms Verif.C88_round_best
#print axioms Verif.C88_round_best_factor_two
#print axioms Verif.C89_closed
#print axioms Verif.C89_front
#print axioms Verif.C89_local_optimum
#print axioms Verif.C90_random_satisfying_input_near_uniform_partial
#print axioms Verif.C90_every_solution_is_drawn
#print axioms Verif.C90_unsatisfying_result_is_rare
#print axioms Verif.C90_exactly_uniform_false
#print axioms Verif.C91_error_rate_sampling_unbiased
#print axioms Verif.C91_error_rate_sampling_variance
#print axioms Verif.C91_error_rate_sampling_accuracy
#print axioms Verif.C92_efficient_sampling_mean_upper
#print axioms Verif.C92_efficient_sampling_mean_lower_partial
#print axioms Verif.C92_efficient_sampling_unbiased_false
#print axioms Verif.C93_efficient_sampling_accuracy
#print axioms Verif.C93_efficient_sampling_rarely_far_off
#print axioms Verif.C94_regular_average
#print axioms Verif.C94_average_case_error
#print axioms Verif.C94_topmost_start
#print axioms Verif.C95_average_bit_flip_error
#print axioms Verif.C95_worst_case_bit_flip_error
#print axioms Verif.C96_worst_case_error
#print axioms Verif.C96_aca1
#print axioms Verif.C96_gda
#print axioms Verif.C96_aca2
#print axioms Verif.C96_gear
#print axioms Verif.C97_error_rate
#print axioms Verif.C97_aca1
#print axioms Verif.C98_average_value
#print axioms Verif.C98_average_value_exact_false
#print axioms Verif.C98_average_case_error
#print axioms Verif.C98_mean_squared_value_partial
#print axioms Verif.C98_mean_squared_value_bounds_partial
#print axioms Verif.C98_mean_squared_error_partial
#print axioms Verif.C98_error_rate
#print axioms Verif.C98_error_rate_inexact
#print axioms Verif.C98_error_rate_exact_false
#print axioms Verif.C98_average_bit_flip_error
#print axioms Verif.C99_subset_light_satisfiable
#print axioms Verif.C99_superset_heavy_falsifiable
#print axioms Verif.C99_subset_light_prefix
#print axioms Verif.C99_superset_heavy_prefix
#print axioms Verif.C99_others_constant
#print axioms Verif.C100_single_path
#print axioms Verif.C100_subset_light
#print axioms Verif.C100_superset_heavy
#print axioms Verif.C101_iscas85
#print axioms Verif.C101_label
#print axioms Verif.C101_table
#print axioms Verif.C102_steps_table
#print axioms Verif.C102_average_case_error
#print axioms Verif.C102_steps
#print axioms Verif.C102_label
#print axioms Verif.C103_table
#print axioms Verif.C103_idle
#print axioms Verif.C103_operators
#print axioms Verif.C103_label
#print axioms Verif.C104_table
#print axioms Verif.C104_regular
#print axioms Verif.C104_improved
#print axioms Verif.C104_label
#print axioms Verif.C104_comparison
#print axioms Verif.C105_mean_squared_error
#print axioms Verif.C105_mean_squared_error_add
#print axioms Verif.C105_aca1
#print axioms Verif.C105_aca1_value
#print axioms Verif.C106_measure
#print axioms Verif.C106_figure
#print axioms Verif.C106_tables
#print axioms Verif.C106_label
#print axioms Verif.C106_comparison
#print axioms Verif.C106_last
#print axioms Verif.C107_minimize_adders
#print axioms Verif.C107_minimize_circuit
#print axioms Verif.C107_limit
#print axioms Verif.C107_files
#print axioms Verif.C108_limit
#print axioms Verif.C108_adders
#print axioms Verif.C108_circuits
#print axioms Verif.C108_files
#print axioms Verif.C108_unreadable
#print axioms Verif.C109_coordinate
#print axioms Verif.C109_coordinate_exact
#print axioms Verif.C109_coordinate_same
#print axioms Verif.C109_min_element
#print axioms Verif.C109_error_bounds
#print axioms Verif.C109_error_bounds_exact
#print axioms Verif.C109_sizes
#print axioms Verif.C109_front
#print axioms Verif.C109_terminates
#print axioms Verif.C109_returns
#print axioms Verif.C109_same
#print axioms Verif.C109_accepts
#print axioms Verif.C109_rejects
#print axioms Verif.C109_error_bounds_false
#print axioms Verif.C109_closed_false
#print axioms Verif.C110_metric_exact
#print axioms Verif.C110_metric_near
#print axioms Verif.C110_percent
#print axioms Verif.C110_metric_percent
#print axioms Verif.C110_metric_mean_squared_partial
#print axioms Verif.C110_minimize_adders_same
#print axioms Verif.C110_minimize_adders
#print axioms Verif.C110_minimize_circuit_same
#print axioms Verif.C110_minimize_circuit
#print axioms Verif.C111_result
#print axioms Verif.C111_same
#print axioms Verif.C111_adders
#print axioms Verif.C111_circuits
#print axioms Verif.C112_round_any
#print axioms Verif.C112_round_bdd
#print axioms Verif.C112_round_best
#print axioms Verif.C112_round_up_down
#print axioms Verif.C113_left_behind
#print axioms Verif.C113_balanced_iff
#print axioms Verif.C113_repeated_calls
#print axioms Verif.C113_balanced_false
#print axioms Verif.C114_or
#print axioms Verif.C114_and
#print axioms Verif.C114_trivial_error_rate
#print axioms Verif.C114_example3
#print axioms Verif.C114_average
#print axioms Verif.C114_check_wcr_values
#print axioms Verif.C114_wcr
#print axioms Verif.C114_children
#print axioms Verif.C114_cofactor
#print axioms Verif.C114_cofactor_zero
#print axioms Verif.C114_constrain_cofactor
#print axioms Verif.C114_is_cube
#print axioms Verif.C114_constrain_eval
#print axioms Verif.C114_constrain_on
#print axioms Verif.C114_dinge
#print axioms Verif.C114_trivial_worst_case
#print axioms Verif.C114_not_a_cube
#print axioms Verif.C114_constrain
#print axioms Verif.C114_rounding
#print axioms Verif.C114_function
#print axioms Verif.C114_parsing
#print axioms Verif.C114_or_pla
#print axioms Verif.C114_dump_dot
#print axioms Verif.C115_message_partial
#print axioms Verif.C115_message_false
#print axioms Verif.C115_xor_false
#print axioms Verif.C115_wcre_add_unchecked_false
#print axioms Verif.C116_forest_to_add
#print axioms Verif.C116_worst_case_error_add
#print axioms Verif.C116_average_case_error_add
#print axioms Verif.C116_mean_squared_error_add
#print axioms Verif.C116_error_rate_add
#print axioms Verif.C116_worst_case_bit_flip_error
#print axioms Verif.C116_worst_case_bit_flip_error_add
#print axioms Verif.C116_average_bit_flip_error_add
#print axioms Verif.C116_fifty_four_bits_false
#print axioms Verif.C116_wcre_add
#print axioms Verif.C116_acre_add
#print axioms Verif.C116_runs
#print axioms Verif.C116_new_manager
#print axioms Verif.C116_near_constants
#print axioms Verif.C117_multiply_constant
#print axioms Verif.C117_multiply_fraction_partial
#print axioms Verif.C117_multiply_fraction_small_factor_ub
#print axioms Verif.C117_multiply_fraction_limit
#print axioms Verif.C117_wcre_randomized_search
#print axioms Verif.C117_wcre_randomized_search_terminates
#print axioms Verif.C117_wcre_randomized_search_no_samples
#print axioms Verif.C117_wcre_search_exact
#print axioms Verif.C117_wcre_search_partial
#print axioms Verif.C117_wcre_search_below_one_ub
#print axioms Verif.C117_wcre_search_runs_forever
#print axioms Verif.C117_wcre_search_false
#print axioms Verif.C117_maximum_relative_value_bounds
#print axioms Verif.C117_wcre_bounds
#print axioms Verif.C117_average_relative_value
#print axioms Verif.C117_acre_bounds
#print axioms Verif.C117_wcre_symbolic_division
#print axioms Verif.C117_acre_symbolic_division
#print axioms Verif.C118_metric_partial
#print axioms Verif.C118_metric_exact
#print axioms Verif.C118_average_relative_partial
#print axioms Verif.C118_average_relative_false
#print axioms Verif.C118_binary_search_partial
#print axioms Verif.C118_binary_search_false
#print axioms Verif.C118_mean_squared_partial
#print axioms Verif.C118_mean_squared_false
#print axioms Verif.C118_symmetric
#print axioms Verif.C118_runs_partial
#print axioms Verif.C118_measure_adder_partial
#print axioms Verif.C118_comparison_row
#print axioms Verif.C118_comparison
#print axioms Verif.C119_graph
#print axioms Verif.C119_draws
#print axioms Verif.C119_reads
#print axioms Verif.C119_layout
#print axioms Verif.C119_default
#print axioms Verif.C119_outcome
#print axioms Verif.C119_file
#print axioms Verif.C119_quote_false
#print axioms Verif.C119_angle_false
#print axioms Verif.C119_width_false
#print axioms Verif.C119_symbol_false
#print axioms Verif.C119_dir_false
#print axioms Verif.C119_testing
#print axioms Verif.C120_closest
#print axioms Verif.C120_exact
#print axioms Verif.C120_mono
#print axioms Verif.C120_limit_false
#print axioms Verif.C120_near
#print axioms Verif.C121_time
#print axioms Verif.C121_no_fault
#print axioms Verif.C121_clock_set_back_false
#print axioms Verif.C122_minimize_adders
#print axioms Verif.C122_minimize_iscas
#print axioms Verif.C122_minimize_epfl
#print axioms Verif.C122_nsga_iscas
#print axioms Verif.C122_nsga_epfl
#print axioms Verif.C122_nsga_adders
#print axioms Verif.C122_comparison
#print axioms Verif.C123_sampling
#print axioms Verif.C123_efficient_exact
#print axioms Verif.C123_efficient_partial
#print axioms Verif.C123_efficient_one_bit
#print axioms Verif.C123_efficient_undefined
#print axioms Verif.C123_efficient_lost_rate_false
#print axioms Verif.C124_apply_operator
#print axioms Verif.C124_apply_operator_exact
#print axioms Verif.C124_single
#print axioms Verif.C124_multi
#print axioms Verif.C124_random
#print axioms Verif.C124_metric
#print axioms Verif.C124_result_partial
#print axioms Verif.C124_result_small
#print axioms Verif.C124_returns
#print axioms Verif.C124_unset
#print axioms Verif.C125_text_partial
#print axioms Verif.C126_iscas85
#print axioms Verif.C126_average_case_error
#print axioms Verif.C126_steps
#print axioms Verif.C126_operators
#print axioms Verif.C126_regular
#print axioms Verif.C126_improved_partial
#print axioms Verif.C127_round_any
#print axioms Verif.C127_round_bdd
#print axioms Verif.C127_round_best
#print axioms Verif.C127_round_up_down
#print axioms Verif.C127_balanced_iff
#print axioms Verif.C127_exact
#print axioms Verif.C128_metric
#print axioms Verif.C128_metric_mean_squared_partial
#print axioms Verif.C128_metric_same
#print axioms Verif.C128_error_bounds
#print axioms Verif.C128_sizes
#print axioms Verif.C128_front
#print axioms Verif.C128_terminates
#print axioms Verif.C128_returns
#print axioms Verif.C128_result_partial
#print axioms Verif.C128_helper_returns
#print axioms Verif.C128_same
