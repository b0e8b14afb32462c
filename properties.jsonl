{"id": "C01", "title": "bdd_add adds modulo 2^n", "statement": "For functions f, g with g at least as long as f, bdd_add(f,g) returns a function with f.size() bits whose unsigned value at every input x is (f(x)+g(x)) mod 2^f.size() (g truncated to f.size() bits); if g is shorter the call reads outside the vector.", "quantifier": "all vectors of BDDs of any length, all input assignments, all variable orders", "why_tests_cant": "every bit width and every pair of Boolean functions; tests sample a few widths", "anchors": ["src/util/cudd_helpers.cpp:bdd_add", "src/util/cudd_helpers.cpp:full_adder"]}
{"id": "C02", "title": "bdd_subtract subtracts modulo 2^n", "statement": "bdd_subtract(a,b) returns a.size() bits whose value at every input is (a(x)-b(x)) mod 2^a.size() when b is at least as long as a; otherwise it reads outside the vector.", "quantifier": "all vectors, all assignments", "why_tests_cant": "all widths and functions", "anchors": ["src/util/cudd_helpers.cpp:bdd_subtract"]}
{"id": "C03", "title": "bdd_absolute_difference is exact for unsigned numbers", "statement": "In BaseTwo, bdd_absolute_difference(f,g) never fails and its unsigned value at every input is |f(x)-g(x)|, for functions of possibly different length.", "quantifier": "all pairs of vectors (any lengths, also empty), all assignments", "why_tests_cant": "all widths and functions", "anchors": ["src/util/cudd_helpers.cpp:bdd_absolute_difference"]}
{"id": "C04", "title": "bdd_absolute_difference is exact for two's complement numbers", "statement": "In TwosComplement, the unsigned value of bdd_absolute_difference(f,g) at every input is |f(x)-g(x)| with f and g read as signed numbers.", "quantifier": "all pairs of non-empty vectors, all assignments", "why_tests_cant": "the failing inputs are those where the difference does not fit the width; tests do not use TwosComplement at all", "anchors": ["src/util/cudd_helpers.cpp:bdd_absolute_difference", "src/util/cudd_helpers.cpp:bdd_abs"]}
{"id": "C05", "title": "bdd_abs computes the absolute value", "statement": "bdd_abs returns f itself for BaseTwo; for TwosComplement the unsigned value of the result is |f(x)| at every input, including the most negative number; an empty vector is undefined behaviour.", "quantifier": "all vectors, all assignments", "why_tests_cant": "all widths; boundary value -2^(n-1)", "anchors": ["src/util/cudd_helpers.cpp:bdd_abs"]}
{"id": "C06", "title": "bdd_shift shifts by any signed amount", "statement": "bdd_shift(f,k) keeps the number of bits; for k>=0 its value is (f(x)*2^k) mod 2^n, for k<0 it is f(x) div 2^-k.", "quantifier": "all vectors, all integers k, all assignments", "why_tests_cant": "unbounded shift amounts and widths", "anchors": ["src/util/cudd_helpers.cpp:bdd_shift"]}
{"id": "C07", "title": "bdd_multiply_constant (integer factor) never loses bits", "statement": "bdd_multiply_constant(f, factor) with a 256 bit factor returns a function whose value at every input is exactly f(x)*factor.", "quantifier": "all vectors, all factors below 2^256, all assignments", "why_tests_cant": "2^256 factors and all widths", "anchors": ["src/util/cudd_helpers.cpp:bdd_multiply_constant(uint256_t)"]}
{"id": "C08", "title": "bdd_multiply_constant (fractional factor) truncates downwards with a bounded error", "statement": "For factor > 0 the value of bdd_multiply_constant(f, factor, e) is at most f(x)*factor and smaller by at most f(x)/2^e + e; it is exact when factor*2^e is an integer and f(x) is divisible by 2^e.", "quantifier": "all vectors, all dyadic factors, all extra bit counts, all assignments", "why_tests_cant": "infinitely many factors", "anchors": ["src/util/cudd_helpers.cpp:bdd_multiply_constant(double)"]}
{"id": "C09", "title": "exists_greater_equals decides the existential comparison", "statement": "exists_greater_equals(f1,f2) returns {ge,e} with ge iff some x has f1(x)>=f2(x), and e iff some x has f1(x)=f2(x) and no x has f1(x)>f2(x).", "quantifier": "all pairs of vectors of any lengths", "why_tests_cant": "quantifies over all inputs of all functions", "anchors": ["src/util/cudd_helpers.cpp:exists_greater_equals"]}
{"id": "C10", "title": "greater_equals and greater_than are the pointwise comparisons", "statement": "greater_equals(f,g) is true at x iff f(x)>=g(x); greater_than(f,g) is true at x iff f(x)>g(x), as unsigned numbers, also for different lengths.", "quantifier": "all pairs of vectors, all assignments", "why_tests_cant": "all widths and functions", "anchors": ["src/util/cudd_helpers.cpp:greater_equals", "src/util/cudd_helpers.cpp:greater_than"]}
{"id": "C11", "title": "bdd_max_one is max(1, f)", "statement": "bdd_max_one(f) has the same length as f and value max(1,f(x)) at every input; the empty vector is undefined behaviour.", "quantifier": "all non-empty vectors, all assignments", "why_tests_cant": "all widths and functions", "anchors": ["src/util/cudd_helpers.cpp:bdd_max_one"]}
{"id": "C12", "title": "bdd_divide is fixed point division", "statement": "bdd_divide(f,g,e) has value floor(f(x)*2^e / g(x)) at every input with g(x)>0, and all ones at inputs with g(x)=0; it never fails.", "quantifier": "all vectors, all extra bit counts, all assignments", "why_tests_cant": "restoring division over all widths; loop invariant over every step", "anchors": ["src/util/cudd_helpers.cpp:bdd_divide"]}
{"id": "C13", "title": "number_to_bdds represents the number", "statement": "number_to_bdds(n) has value n at every input, length at least 1, and no superfluous leading zero bit.", "quantifier": "all numbers below 2^256", "why_tests_cant": "2^256 inputs", "anchors": ["src/util/cudd_helpers.cpp:number_to_bdds"]}
{"id": "C14", "title": "high and low return the cofactors", "statement": "For a non-terminal BDD v with top variable i, high(v) is the function v with variable i set to true and low(v) the function v with i set to false; on a terminal both throw invalid_argument.", "quantifier": "all BDDs (including complemented edges), all assignments", "why_tests_cant": "depends on the complement edge structure of the shared graph; the existing test expects a wrong value", "anchors": ["src/util/cudd_helpers.cpp:high", "src/util/cudd_helpers.cpp:low", "tests/operations_test.cpp"]}
{"id": "C15", "title": "terminal_level bounds the support", "statement": "terminal_level(forests) is larger than every variable index in the support of every BDD, and is the least such number when some BDD is not constant.", "quantifier": "all lists of lists of BDDs", "why_tests_cant": "all functions", "anchors": ["src/util/cudd_helpers.cpp:terminal_level"]}
{"id": "C16", "title": "eval reads the unsigned value", "statement": "eval(f,input) returns the unsigned value of f at the input for up to 63 bits when the input vector covers the support; an input vector that is too short on the evaluated path is undefined behaviour.", "quantifier": "all functions with at most 63 bits, all inputs", "why_tests_cant": "all functions", "anchors": ["src/util/cudd_helpers.cpp:eval"]}
{"id": "C17", "title": "regular_adder adds and eval_adder agrees", "statement": "eval_adder(regular_adder(n),a,b,n) = a+b for all 0<=a,b<2^n and n<=31; the adder has n+1 bits and its value at every input is the sum of the two interleaved operands. Operands that are negative or too large count modulo 2^n for n<=31; at n=32 bit 31 of a negative operand is lost.", "quantifier": "all widths n, all operands", "why_tests_cant": "all widths", "anchors": ["src/example_bdds/approximate_adders.cpp:regular_adder", "src/util/cudd_helpers.cpp:eval_adder"]}
{"id": "C18", "title": "count_minterms is the fraction of satisfying inputs", "statement": "For every node reachable from the BDD the map returned by count_minterms has an entry, and it is the fraction of inputs that satisfy the function of that (possibly complemented) node.", "quantifier": "all BDDs, all reachable nodes", "why_tests_cant": "all functions; memo table correctness", "anchors": ["src/util/cudd_helpers.cpp:count_minterms"]}
{"id": "C19", "title": "count_solutions counts solutions below a node", "statement": "With the identity variable order, count_solutions maps every reachable node to the number of satisfying assignments of the variables from the node's own index up to the terminal level.", "quantifier": "all BDDs, all reachable nodes", "why_tests_cant": "all functions", "anchors": ["src/util/cudd_helpers.cpp:count_solutions"]}
{"id": "C20", "title": "random_satisfying_input satisfies the function", "statement": "For a satisfiable BDD whose support lies below max_level, the vector returned by random_satisfying_input has max_level entries, all 0 or 1, and satisfies the BDD.", "quantifier": "all satisfiable BDDs, all sequences of random numbers", "why_tests_cant": "all random sequences; the violating sequence has probability 2^-31 per draw", "anchors": ["src/util/cudd_helpers.cpp:random_satisfying_input"]}
{"id": "C21", "title": "add_terminal_values is the exact value histogram", "statement": "With the identity order, the list returned by add_terminal_values contains every value a non-constant ADD takes exactly once, with the number of inputs over the variables up to the last one of its support that produce it (no overflow for at most 64 levels); the numbers sum to 2^levels. A constant ADD gives one pair with count 1.", "quantifier": "all ADDs", "why_tests_cant": "breadth first traversal with a counting map over every shared graph", "anchors": ["src/util/cudd_helpers.cpp:add_terminal_values", "src/util/cudd_helpers.cpp:count_paths"]}
{"id": "C22", "title": "bdd_forest_to_add preserves the value", "statement": "The ADD returned by bdd_forest_to_add has at every input the unsigned (BaseTwo) or signed (TwosComplement) value of the vector; the empty TwosComplement vector is undefined behaviour.", "quantifier": "all vectors, all assignments", "why_tests_cant": "all widths and functions", "anchors": ["src/util/cudd_helpers.cpp:bdd_forest_to_add"]}
{"id": "C23", "title": "difference ADDs are the pointwise differences", "statement": "absolute_difference_add is |f(x)-g(x)| at every input in both number representations, and xor_difference_add is the unsigned value of the bitwise XOR.", "quantifier": "all vectors, all assignments", "why_tests_cant": "all widths and functions", "anchors": ["src/util/cudd_helpers.cpp:absolute_difference_add", "src/util/cudd_helpers.cpp:xor_difference_add"]}
{"id": "C24", "title": "get_max_value is the maximum", "statement": "get_max_value(f) is an upper bound of f(x) for all x and is attained by some x, for vectors of at most 256 bits.", "quantifier": "all vectors up to 256 bits", "why_tests_cant": "maximum over all inputs of all functions", "anchors": ["src/error_metrics/worst_case_error.cpp:get_max_value"]}
{"id": "C25", "title": "worst_case_error is the maximum absolute difference", "statement": "worst_case_error(f,g) is the maximum over all inputs of |f(x)-g(x)| (BaseTwo, up to 255 bits); the same claim for TwosComplement.", "quantifier": "all function pairs, all inputs", "why_tests_cant": "maximum over all inputs of all functions; signed overflow", "anchors": ["src/error_metrics/worst_case_error.cpp:worst_case_error"]}
{"id": "C26", "title": "worst_case_error is a metric", "statement": "For unsigned functions of equal length worst_case_error is zero iff the two vectors are equal BDDs, symmetric, and satisfies the triangle inequality.", "quantifier": "all triples of functions", "why_tests_cant": "algebraic laws over all functions", "anchors": ["src/error_metrics/worst_case_error.cpp:worst_case_error"]}
{"id": "C27", "title": "worst_case_error_percent is normalised", "statement": "worst_case_error_percent lies in [0,1] for vectors of equal positive length and is 1 iff some input has difference 2^n-1 (BaseTwo).", "quantifier": "all function pairs of equal length", "why_tests_cant": "all functions", "anchors": ["src/error_metrics/worst_case_error.cpp:worst_case_error_percent"]}
{"id": "C28", "title": "worst_case_error_add is the maximum absolute difference", "statement": "worst_case_error_add returns the maximum over all inputs of |f(x)-g(x)| in both number representations, so it agrees with worst_case_error for BaseTwo and can disagree for TwosComplement.", "quantifier": "all function pairs", "why_tests_cant": "agreement of two independent algorithms on all inputs", "anchors": ["src/error_metrics/worst_case_error.cpp:worst_case_error_add"]}
{"id": "C29", "title": "approximate_worst_case_error is an upper bound", "statement": "The result x of approximate_worst_case_error(f,g,n) satisfies wc <= x where wc is the true worst case error, for every n>=1 and both number representations.", "quantifier": "all function pairs, all precisions n", "why_tests_cant": "all functions", "anchors": ["src/error_metrics/worst_case_error.cpp:approximate_worst_case_error"]}
{"id": "C30", "title": "approximate_worst_case_error is tight as documented", "statement": "The result x satisfies x <= wc*(1+1/(2^(n+1)-1)).", "quantifier": "all function pairs, all precisions n", "why_tests_cant": "documented accuracy guarantee; counterexamples are rare", "anchors": ["src/error_metrics/worst_case_error.hpp:approximate_worst_case_error", "src/error_metrics/worst_case_error.cpp"]}
{"id": "C31", "title": "average_value is the mean", "statement": "average_value(f) is the sum of f(x) over all assignments of the manager's variables divided by their number, independent of how many unused variables are counted (no overflow if bits + support <= 256).", "quantifier": "all vectors, all sets of variables containing the support", "why_tests_cant": "all functions; minterm counts of bits with different supports", "anchors": ["src/error_metrics/average_case_error.cpp:average_value"]}
{"id": "C32", "title": "mean_squared_value is the mean square", "statement": "mean_squared_value(f) is the mean of f(x)^2 over all assignments (under the no overflow condition).", "quantifier": "all vectors", "why_tests_cant": "all functions", "anchors": ["src/error_metrics/average_case_error.cpp:mean_squared_value"]}
{"id": "C33", "title": "average_case_error and mean_squared_error are the mean and mean squared difference", "statement": "For unsigned functions the results are the mean of |f(x)-g(x)| and of (f(x)-g(x))^2 over all assignments.", "quantifier": "all function pairs", "why_tests_cant": "all functions", "anchors": ["src/error_metrics/average_case_error.cpp:average_case_error", "src/error_metrics/average_case_error.cpp:mean_squared_error"]}
{"id": "C34", "title": "the ADD variants of the average metrics agree with the BDD variants", "statement": "average_case_error_add and mean_squared_error_add equal the mean and mean squared absolute difference, hence average_case_error and mean_squared_error (BaseTwo).", "quantifier": "all function pairs with identity variable order", "why_tests_cant": "agreement of two algorithms on all functions", "anchors": ["src/error_metrics/average_case_error.cpp:average_case_error_add", "src/error_metrics/average_case_error.cpp:mean_squared_error_add"]}
{"id": "C35", "title": "error_rate is the fraction of differing inputs", "statement": "error_rate(f,g) is the fraction of inputs x at which the vectors differ in some bit; it lies in [0,1] and is 0 iff the vectors are equal.", "quantifier": "all function pairs of equal length", "why_tests_cant": "all functions; the variable count passed to the counter is off by one and must not matter", "anchors": ["src/error_metrics/error_rate.cpp:error_rate"]}
{"id": "C36", "title": "error_rate_add agrees with error_rate", "statement": "error_rate_add equals error_rate for at most 63 variable levels.", "quantifier": "all function pairs with identity variable order", "why_tests_cant": "agreement of two algorithms", "anchors": ["src/error_metrics/error_rate.cpp:error_rate_add"]}
{"id": "C37", "title": "error_rate_sampling is a frequency", "statement": "For every random sequence and samples>=1, error_rate_sampling is the fraction of the drawn inputs on which the functions differ, lies in [0,1], is 0 when f=g and 1 when they differ everywhere.", "quantifier": "all random sequences, all functions", "why_tests_cant": "all random sequences", "anchors": ["src/error_metrics/error_rate.cpp:error_rate_sampling"]}
{"id": "C38", "title": "error_rate_efficient_sampling stays within its bounds", "statement": "For every random sequence the result lies between the largest single-bit error rate and min(1, sum of single-bit error rates), and it is the exact error rate for one-bit functions.", "quantifier": "all random sequences, all functions", "why_tests_cant": "all random sequences; undefined behaviour when only one bit differs", "anchors": ["src/error_metrics/error_rate.cpp:error_rate_efficient_sampling"]}
{"id": "C39", "title": "worst_case_bit_flip_error is the maximum Hamming distance", "statement": "worst_case_bit_flip_error(f,g) and worst_case_bit_flip_error_add(f,g) are the maximum over all inputs of the number of differing bits.", "quantifier": "all function pairs", "why_tests_cant": "maximum over all inputs", "anchors": ["src/error_metrics/worst_case_bit_flip_error.cpp"]}
{"id": "C40", "title": "average_bit_flip_error is the mean Hamming distance", "statement": "average_bit_flip_error(f,g) and average_bit_flip_error_add(f,g) are the mean over all inputs of the number of differing bits; they lie in [0, bits].", "quantifier": "all function pairs", "why_tests_cant": "all functions", "anchors": ["src/error_metrics/average_bit_flip_error.cpp"]}
{"id": "C41", "title": "wcre_add is the maximum relative error", "statement": "wcre_add(f,g) is the maximum over all x of |f(x)-g(x)|/max(1,|f(x)|) in both number representations.", "quantifier": "all function pairs", "why_tests_cant": "maximum over all inputs", "anchors": ["src/error_metrics/worst_case_relative_error.cpp:wcre_add"]}
{"id": "C42", "title": "wcre_randomized_search is exact whenever it returns", "statement": "If wcre_randomized_search returns (num,den) then num/den is the maximum relative error, for every random sequence and sample count.", "quantifier": "all random sequences, all functions", "why_tests_cant": "all random sequences; loop invariant over an unbounded search", "anchors": ["src/error_metrics/worst_case_relative_error.cpp:wcre_randomized_search"]}
{"id": "C43", "title": "wcre_search meets the requested precision", "statement": "wcre_search returns a value within the requested precision of the maximum relative error (precision >= 2^-num_extra_bits).", "quantifier": "all functions, all precisions", "why_tests_cant": "binary search over all functions; existing tests only use constant functions", "anchors": ["src/error_metrics/worst_case_relative_error.cpp:wcre_search"]}
{"id": "C44", "title": "wcre_symbolic_division is exact up to 2^-extra_bits", "statement": "wcre_symbolic_division returns a value v with v <= wcre < v + 2^-e where e is the number of extra bits (unsigned functions).", "quantifier": "all functions, all extra bit counts", "why_tests_cant": "maximum over all inputs", "anchors": ["src/error_metrics/worst_case_relative_error.cpp:wcre_symbolic_division"]}
{"id": "C45", "title": "relative value bounds enclose the truth within a factor of two", "statement": "maximum_relative_value_bounds and wcre_bounds return (lo,hi) with lo <= max f(x)/max(1,g(x)) <= hi and hi <= 2*lo.", "quantifier": "all functions", "why_tests_cant": "all functions", "anchors": ["src/error_metrics/worst_case_relative_error.cpp:maximum_relative_value_bounds", "src/error_metrics/worst_case_relative_error.cpp:wcre_bounds"]}
{"id": "C46", "title": "acre_bounds enclose the average relative error within a factor of two", "statement": "average_relative_value and acre_bounds return (lo,hi) with lo <= mean f(x)/max(1,g(x)) <= hi and hi <= 2*lo.", "quantifier": "all functions", "why_tests_cant": "all functions", "anchors": ["src/error_metrics/average_case_relative_error.cpp:average_relative_value", "src/error_metrics/average_case_relative_error.cpp:acre_bounds"]}
{"id": "C47", "title": "acre_add and acre_symbolic_division compute the average relative error", "statement": "acre_add is the mean of |f(x)-g(x)|/max(1,|f(x)|); acre_symbolic_division is below it by less than 2^-e.", "quantifier": "all functions", "why_tests_cant": "all functions", "anchors": ["src/error_metrics/average_case_relative_error.cpp:acre_add", "src/error_metrics/average_case_relative_error.cpp:acre_symbolic_division"]}
{"id": "C48", "title": "subset operators only remove minterms", "statement": "subset_light_child, subset_heavy_child and round_down return a function that implies the input function, for every level range, and never throw.", "quantifier": "all BDDs, all level ranges", "why_tests_cant": "all functions and level ranges", "anchors": ["src/approximation_operators/approximation_operators.cpp:subset_light_child", "src/approximation_operators/approximation_operators.cpp:subset_heavy_child", "src/approximation_operators/approximation_operators.cpp:round_down"]}
{"id": "C49", "title": "superset operators only add minterms", "statement": "superset_light_child, superset_heavy_child and round_up return a function implied by the input function, for every level range, and never throw.", "quantifier": "all BDDs, all level ranges", "why_tests_cant": "all functions and level ranges", "anchors": ["src/approximation_operators/approximation_operators.cpp:superset_light_child", "src/approximation_operators/approximation_operators.cpp:superset_heavy_child", "src/approximation_operators/approximation_operators.cpp:round_up"]}
{"id": "C50", "title": "the child operators replace exactly the light or heavy child", "statement": "At a single level j, for every assignment of the variables before j under which the function depends on variable j first, the operator replaces the cofactor with the smaller (light) or larger (heavy) ON-set by the constant and keeps the other; elsewhere the function is unchanged.", "quantifier": "all BDDs, all levels, all assignments", "why_tests_cant": "all functions; tie and complement handling", "anchors": ["src/approximation_operators/approximation_operators.cpp:remove_children_rec"]}
{"id": "C51", "title": "operators leave functions without nodes in the range untouched", "statement": "If no variable with an index in [level_start,level_end] occurs in the BDD, the child operators and round_best return the BDD itself; round_bdd returns it if all its variables are below the level.", "quantifier": "all BDDs, all level ranges", "why_tests_cant": "all functions", "anchors": ["src/approximation_operators/approximation_operators.cpp"]}
{"id": "C52", "title": "round_bdd is the majority rounding", "statement": "round_bdd(f,l) depends only on variables below l, equals 1 at x iff more than half of the inputs agreeing with x below l satisfy f, and no function of these variables has a smaller error rate.", "quantifier": "all BDDs, all levels, all competing functions", "why_tests_cant": "optimality against all competitors", "anchors": ["src/approximation_operators/approximation_operators.cpp:round_bdd"]}
{"id": "C53", "title": "round_best replaces one child by the best terminal", "statement": "At a single level j, round_best replaces children by terminals so that the local error is at most that of every single-child replacement by a terminal.", "quantifier": "all BDDs, all levels", "why_tests_cant": "optimality over all choices on all functions", "anchors": ["src/approximation_operators/approximation_operators.cpp:round_best"]}
{"id": "C54", "title": "subset_light_child, superset_heavy_child and round_bdd are idempotent", "statement": "Applying subset_light_child, superset_heavy_child or round_bdd twice with the same single level gives the same BDD as applying it once; superset_light_child and subset_heavy_child do not have this property.", "quantifier": "all BDDs, all levels", "why_tests_cant": "algebraic law over all functions", "anchors": ["src/approximation_operators/approximation_operators.cpp"]}
{"id": "C55", "title": "multi dimensional bucket indices are a bijection", "statement": "create_multi_dim_index and reduce_multi_dim_index are inverse to each other on [0, product of bounds) and the box of the bounds, as long as the number of points fits std::size_t.", "quantifier": "all bounds vectors, all indices", "why_tests_cant": "unbounded dimensions", "anchors": ["src/minimization/bucket_minimization.cpp:reduce_multi_dim_index", "src/minimization/bucket_minimization.cpp:create_multi_dim_index"]}
{"id": "C56", "title": "bucket_greedy_minimize terminates", "statement": "For all deterministic operators and metrics with positive grid sizes and bounds the minimisation loop terminates.", "quantifier": "all operators, metrics, functions", "why_tests_cant": "termination over unbounded executions", "anchors": ["src/minimization/bucket_minimization.cpp:bucket_greedy_minimize"]}
{"id": "C57", "title": "every returned bucket respects its error bounds", "statement": "Every bucket returned non-empty holds a function whose error in each metric is below bound*(index+1)/grid_size for its grid position and therefore below the metric bound, with the recorded metric values equal to the metrics of that function.", "quantifier": "all operators, metrics, functions, executions", "why_tests_cant": "invariant over every execution of the search", "anchors": ["src/minimization/bucket_minimization.cpp:bucket_greedy_minimize"]}
{"id": "C58", "title": "bucket sizes are truthful and never grow", "statement": "Every returned bucket's bdd_size is the node count of its function and at most the node count of the original, strictly smaller when the bucket is not empty; empty buckets hold the original function.", "quantifier": "all executions", "why_tests_cant": "invariant over every execution", "anchors": ["src/minimization/bucket_minimization.cpp:bucket_greedy_minimize"]}
{"id": "C59", "title": "populated buckets form a monotone front", "statement": "With populate_all_buckets, a bucket with componentwise larger grid index never holds a larger function.", "quantifier": "all executions", "why_tests_cant": "invariant over every execution", "anchors": ["src/minimization/bucket_minimization.cpp:bucket_greedy_minimize"]}
{"id": "C60", "title": "every returned function is reachable by the operators", "statement": "Every function in a returned bucket is obtained from the original by a sequence of the given operators.", "quantifier": "all executions", "why_tests_cant": "invariant over every execution", "anchors": ["src/minimization/bucket_minimization.cpp:bucket_greedy_minimize"]}
{"id": "C61", "title": "operator generators enumerate every level, bit and operator", "statement": "generate_single_bdd_operators returns bits*levels*operators functions, each applying one operator at one level to one bit and leaving the others unchanged; generate_multi_bdd_operators returns levels*operators functions applied to all bits; generate_random_operators returns the requested number of functions.", "quantifier": "all functions and operator lists", "why_tests_cant": "all sizes", "anchors": ["src/minimization/bucket_minimization.cpp:generate_single_bdd_operators", "src/minimization/bucket_minimization.cpp:generate_multi_bdd_operators", "src/minimization/bucket_minimization.cpp:apply_operator"]}
{"id": "C62", "title": "approximate adders never overestimate", "statement": "For every legal parameter combination the value of almost_correct_adder_1/2, gracefully_degrading_adder and generic_accuracy_reconfigurable_adder is at most the exact sum at every input, and they have num_bits+1 output bits.", "quantifier": "all widths, all parameters, all operands", "why_tests_cant": "all parameters and operands", "anchors": ["src/example_bdds/approximate_adders.cpp"]}
{"id": "C63", "title": "approximate adders are exact without long carry chains", "statement": "The approximate adders compute the exact sum on all inputs in which no dropped carry occurs, in particular the low partition bits are always exact.", "quantifier": "all widths, parameters, operands", "why_tests_cant": "all parameters and operands", "anchors": ["src/example_bdds/approximate_adders.cpp"]}
{"id": "C64", "title": "approximate adder parameter errors are detected", "statement": "almost_correct_adder_2, gracefully_degrading_adder and generic_accuracy_reconfigurable_adder have defined behaviour for all parameters.", "quantifier": "all parameters", "why_tests_cant": "division by zero and out of range accesses on unusual parameters", "anchors": ["src/example_bdds/approximate_adders.cpp"]}
{"id": "C65", "title": "and_bdd, or_bdd, xor_bdd", "statement": "and_bdd(n) / or_bdd(n) / xor_bdd(n) are the conjunction, disjunction and parity of variables 0..n-1.", "quantifier": "all n, all assignments", "why_tests_cant": "all n", "anchors": ["src/example_bdds/simple.cpp"]}
{"id": "C66", "title": "PLA parsing builds the sum of products", "statement": "After any sequence of term callbacks output j is true at x iff some term with a '1' at output j matches x; terms longer than the declared inputs are undefined behaviour.", "quantifier": "all sequences of terms, all assignments", "why_tests_cant": "all files", "anchors": ["src/parsing/pla_parser.cpp"]}
{"id": "C67", "title": "AIG parsing builds the circuit", "statement": "For every well formed and-inverter graph the outputs returned after the callbacks are the functions of the output literals; undeclared literals raise invalid_argument.", "quantifier": "all and-inverter graphs, all assignments", "why_tests_cant": "all files", "anchors": ["src/parsing/aig_parser.cpp"]}
{"id": "C68", "title": "AIG name callbacks are range checked", "statement": "A name callback with an index outside the declared inputs/outputs is rejected.", "quantifier": "all indices", "why_tests_cant": "boundary index", "anchors": ["src/parsing/aig_parser.cpp:on_input_name", "src/parsing/aig_parser.cpp:on_output_name"]}
{"id": "C69", "title": "Function operators act on every bit", "statement": "Function::operator& / | and their assignment forms apply the operation to every bit, leave the operand unchanged, and operator[] throws out_of_range exactly for invalid indices.", "quantifier": "all functions, all indices", "why_tests_cant": "all functions", "anchors": ["src/util/function.cpp"]}
{"id": "C70", "title": "dump_dot_readable draws the function", "statement": "In the graph written by dump_dot_readable every reachable node is declared exactly once, and following solid edges for true and dashed edges for false from a function node reaches the terminal given by the function value.", "quantifier": "all forests, all assignments", "why_tests_cant": "all functions", "anchors": ["src/util/dump_dot.cpp"]}
{"id": "C71", "title": "dynamic reordering keeps the metrics meaningful", "statement": "The ADD based averages and error rates are independent of the variable order.", "quantifier": "all variable orders", "why_tests_cant": "load_file enables sifting; the counters use the variable index as a level", "anchors": ["src/util/cudd_helpers.cpp:count_paths", "src/minimization/minimization_helper.cpp:load_file"]}
{"id": "C72", "title": "round_up and round_down replace the child with the smaller ON-set", "statement": "round_up / round_down replace, at every node in the level range, the child with the smaller ON-set by the constant 1 / 0.", "quantifier": "all BDDs, all level ranges", "why_tests_cant": "the solution counts compared are not normalised to a common variable set, which only shows when the children start at different levels", "anchors": ["src/approximation_operators/approximation_operators.cpp:round_up", "src/approximation_operators/approximation_operators.cpp:round_down"]}
{"id": "C73", "title": "subset_light_child keeps at least half of the ON-set per level", "statement": "At a single level subset_light_child removes at most half of the ON-set, so its error rate is at most half of the ON-set; over a range of k levels it keeps at least 1/2^k of it, and superset_heavy_child 1/2^k of the OFF-set.", "quantifier": "all BDDs, all level ranges, all variable orders", "why_tests_cant": "quantitative bound over all functions", "anchors": ["src/approximation_operators/approximation_operators.cpp:subset_light_child"]}
{"id": "C74", "title": "Names in PLA files", "statement": "split appends the white space separated words of a text; a .ilb line names the inputs and the manager's variables, a .ob line the outputs; a second .ilb line pushes the earlier names again.", "quantifier": "all texts, all parser states", "why_tests_cant": "all texts", "anchors": ["src/util/string_helpers.hpp:split", "src/parsing/pla_parser.cpp:on_keyword"]}
{"id": "C75", "title": "metric names and functions agree", "statement": "metric_function(m) computes the metric that m names, for each of the metrics, and metric_to_string / operator_to_string give different metrics and operators different names.", "quantifier": "all metrics, all pairs of functions", "why_tests_cant": "one wrong case label in a switch; tests use few metrics", "anchors": ["src/minimization/minimization_helper.cpp:metric_function", "src/minimization/minimization_helper.cpp:metric_to_string", "src/minimization/minimization_helper.cpp:operator_to_string"]}
{"id": "C76", "title": "the minimisation helper respects the request", "statement": "bucket_minimize_helper loads the requested adder or file, refuses unknown input, and the function it returns has the smallest size of all buckets and error values below every requested bound; it always returns for metrics in range.", "quantifier": "all requests, all files, all random sequences", "why_tests_cant": "end to end over every request", "anchors": ["src/minimization/minimization_helper.cpp:bucket_minimize_helper", "src/minimization/minimization_helper.cpp:load_input"]}
{"id": "C77", "title": "operators introduce no variables", "statement": "Every operator of the library, every generated operator function and every function reached by a search depends only on variables the original function depends on; cofactors no longer depend on their variable.", "quantifier": "all BDDs, all operators, all level ranges, all executions", "why_tests_cant": "all functions and executions", "anchors": ["src/approximation_operators/approximation_operators.cpp", "src/minimization/bucket_minimization.cpp:apply_operator"]}
{"id": "C78", "title": "format_time", "statement": "format_time writes the whole number of milliseconds (below a second), seconds (below five minutes) or minutes of a non-negative time, so that times written alike differ by less than the unit. Rounding the quotient to a double does not change what is written.", "quantifier": "all times", "why_tests_cant": "all times; very long times overflow the conversion to int", "anchors": ["src/minimization/minimization_helper.cpp:format_time"]}
{"id": "C79", "title": "operators and the number of nodes", "statement": "Cofactors never add nodes and remove at least one if the function depends on the variable. No operator can double the number of nodes in the original variable order, or triple it in any order; each of the other operators can add nodes.", "quantifier": "all vectors of BDDs, all operators, all level ranges, all orders", "why_tests_cant": "a bound for all shared diagrams", "anchors": ["src/minimization/bucket_minimization.cpp:apply_operator", "src/approximation_operators/approximation_operators.cpp"]}
{"id": "C80", "title": "operators are given up for a reason", "statement": "Each bucket is reached along a way on which every operator is used at most once and every step makes the function smaller. The operators of the way are switched off; any other that is switched off was over an error bound or too large when tried on a function of the way; an operator that is still on was never clearly bad on the way. The next bucket treated is the first one with the smallest coordinate sum.", "quantifier": "all functions, operators, metrics, executions", "why_tests_cant": "the flags of a bucket depend on the whole history of the search", "anchors": ["src/minimization/bucket_minimization.cpp:bucket_greedy_minimize"]}
{"id": "C81", "title": "the example functions of the papers", "statement": "example1a is the two bit adder and equals regular_adder(2); example1b, example1c and example1d are example1a under round_down, round_up and round from the third variable, with worst-case errors 6, 6 and 4; example3 and the running example have the values of the papers.", "quantifier": "all assignments, all variable orders in which indices are levels", "why_tests_cant": "all managers; another variable order breaks the relation", "anchors": ["src/example_bdds/from_papers.cpp"]}
{"id": "C82", "title": "an individual of the genetic search is a choice of cofactors", "statement": "There is one parameter per bit and variable of its support; function_from_individuum fixes exactly the variables whose parameter is above 0.5 (to true above 1.5) in exactly the bit of the parameter; the default individual is the original; random individuals lie within the bounds.", "quantifier": "all functions, all parameter vectors, all random sequences", "why_tests_cant": "all functions and vectors", "anchors": ["experiments/minimization/nsga2/bddminimizationproblem.cpp:function_from_individuum", "experiments/minimization/nsga2/bddminimizationproblem.cpp:get_bounds"]}
{"id": "C83", "title": "the fitness punishes what is not admissible", "statement": "fitness returns node count, error rate and average error of an individual that is smaller than the original and within the limits; an individual that is larger or exceeds a limit never dominates such an individual; there are get_nobj values.", "quantifier": "all functions, all limits, all individuals", "why_tests_cant": "quantifies over all pairs of individuals", "anchors": ["experiments/minimization/nsga2/bddminimizationproblem.cpp:fitness"]}
{"id": "C84", "title": "the genetic search reports true figures", "statement": "The search stops after at most one round more than the original has nodes; a reported result is the node count and the errors of an individual that is smaller than the original and within the limits, and none of the individuals seen has fewer nodes.", "quantifier": "all functions, limits and sequences of populations", "why_tests_cant": "all executions of the genetic algorithm; the limits are narrowed to float on the way", "anchors": ["experiments/minimization/nsga2/nsga2_minimization_helper.cpp"]}
{"id": "C85", "title": "the benchmark metrics are what they are called", "statement": "compute_error_metric returns, for each of its fourteen metrics, the metric of that name of the original and the approximation, whenever the metric is in range; the metrics have different names; the metrics that are symmetric do not depend on the order of the arguments.", "quantifier": "all functions, all metrics in range", "why_tests_cant": "one wrong case or swapped argument pair; benchmarks only print the numbers", "anchors": ["experiments/util/benchmark_util.cpp:compute_error_metric", "experiments/util/benchmark_util.cpp:error_metric_name"]}
{"id": "C86", "title": "the benchmark adders and circuits are the named ones", "statement": "get_approximate_adder builds the configuration its arguments name: the exact sum minus the dropped carries, which are also what the metrics then measure; the name determines the configuration; every circuit id has its own file and loading it gives the circuit of the file or an error.", "quantifier": "all adders, widths, parameters, files", "why_tests_cant": "all configurations and files, including unreadable ones", "anchors": ["experiments/util/benchmark_util.cpp:get_approximate_adder", "experiments/util/benchmark_util.cpp:approximate_adder_name", "experiments/util/benchmark_util.cpp:load_iscas_85_file", "experiments/util/benchmark_util.cpp:load_epfl_benchmark_file"]}
{"id": "C87", "title": "strings for CUDD", "statement": "vec_to_arr makes one C string per entry showing it up to the first NUL and touches nothing else; del_arr with the length of the vector frees exactly what vec_to_arr allocated, with a smaller count it leaks, with a larger one or a second time it is undefined; dump_dot labels exactly the variables the functions depend on and all functions with their names and frees everything, and is undefined exactly if names are given but too few.", "quantifier": "all vectors of strings, all heaps, all forests", "why_tests_cant": "memory errors and leaks do not show in the output", "anchors": ["src/util/string_helpers.cpp:vec_to_arr", "src/util/string_helpers.cpp:del_arr", "src/util/cudd_helpers.cpp:dump_dot"]}
{"id": "C88", "title": "counting with doubles", "statement": "The double valued counts of minterms and solutions are the exact ones and the operators choose as with exact counts; counts are 0 only for the constant false function, the random walk over them ends in a satisfying input, and the subset and superset operators stay below and above the function whatever is lost in rounding.", "quantifier": "all BDDs, all roundings to nearest, all level ranges, all draws", "why_tests_cant": "rounding only shows with more than 53 variables", "anchors": ["src/util/cudd_helpers.cpp:count_minterms", "src/util/cudd_helpers.cpp:count_solutions", "src/util/cudd_helpers.cpp:random_satisfying_input", "src/approximation_operators/approximation_operators.cpp:remove_children_rec", "src/approximation_operators/approximation_operators.cpp:round_best"]}
{"id": "C89", "title": "the bucket search leaves nothing to try", "statement": "When bucket_greedy_minimize returns, every operator has been applied to the original and every operator a filled bucket may still use has been applied to its function; each smaller result breaks an error bound or is matched by a bucket at or below its coordinates that holds a function no larger. With all buckets populated every bucket whose limits the result keeps is no larger, so no operator still allowed improves a bucket within its limits.", "quantifier": "all functions, operators, metrics, grids, executions", "why_tests_cant": "a lost entry of the work list or a skipped update still returns valid but worse functions; no test knows what should have been found", "anchors": ["src/minimization/bucket_minimization.cpp:bucket_greedy_minimize"]}
{"id": "C90", "title": "random_satisfying_input draws uniformly", "statement": "If every sequence of draws of rand() is equally likely, random_satisfying_input returns each satisfying input with the same probability and never one that does not satisfy the function.", "quantifier": "all satisfiable BDDs, all sets of inputs, the mean over all sequences of draws", "why_tests_cant": "a bias of a few parts in 2^31 cannot be seen in samples; it needs the mean over all sequences", "anchors": ["src/util/cudd_helpers.cpp:random_satisfying_input"]}
{"id": "C91", "title": "error_rate_sampling is unbiased and accurate", "statement": "If every sequence of draws of rand() is equally likely, the mean of the estimate is the error rate p for every number of samples, its variance is p(1-p)/samples, and an error of eps or more has probability at most 1/(4 samples eps^2).", "quantifier": "all pairs of functions, all sample counts, the mean over all sequences of draws", "why_tests_cant": "a statement on the distribution over all random sequences", "anchors": ["src/error_metrics/error_rate.cpp:error_rate_sampling"]}
{"id": "C92", "title": "error_rate_efficient_sampling is unbiased", "statement": "If every sequence of draws of rand() is equally likely, the mean of the estimate is the error rate, up to the inaccuracy of random_satisfying_input.", "quantifier": "all pairs of functions, all sample counts, the mean over all sequences of draws", "why_tests_cant": "a statement on the distribution over all random sequences; bits with too few samples are skipped silently", "anchors": ["src/error_metrics/error_rate.cpp:error_rate_efficient_sampling"]}
{"id": "C93", "title": "error_rate_efficient_sampling is accurate with enough samples", "statement": "If every sequence of draws of rand() is equally likely and at least two bits can be wrong, the mean squared deviation of the estimate from the error rate is at most S^2/(2*samples) + (S*(N/2^31 + bits/samples))^2, where S is the sum of the single-bit error rates and N the number of variables.", "quantifier": "all pairs of functions, all sample counts, the mean over all sequences of draws", "why_tests_cant": "a statement on the distribution over all random sequences; reusing draws between samples or bits leaves every single result plausible", "anchors": ["src/error_metrics/error_rate.cpp:error_rate_efficient_sampling"]}
{"id": "C94", "title": "average error of the approximate adders", "statement": "average_case_error of regular_adder(n) and an approximate adder is (2^s - 1)/2, where s is the first bit used for the topmost carry: s = n-p+1 for almost_correct_adder_1, n - n/parts - q for gracefully_degrading_adder and n - res - prev for generic_accuracy_reconfigurable_adder where these divide evenly; the average of the exact sum is 2^n - 1.", "quantifier": "all widths for which the sums fit 256 bits, all legal parameters", "why_tests_cant": "tests compare single widths; the closed form holds for all", "anchors": ["src/example_bdds/approximate_adders.cpp", "src/error_metrics/average_case_error.cpp:average_case_error"]}
{"id": "C95", "title": "bit flips of the approximate adders", "statement": "average_bit_flip_error of regular_adder(n) and an approximate adder is the sum over all bits i of (2^s(i) - 1)/2^(i+1), where s(i) is the first bit used for the carry into i; worst_case_bit_flip_error is the number of bits with s(i) > 0, reached by 11..1 + 00..1.", "quantifier": "all widths, all legal parameters", "why_tests_cant": "all widths", "anchors": ["src/example_bdds/approximate_adders.cpp", "src/error_metrics/average_bit_flip_error.cpp", "src/error_metrics/worst_case_bit_flip_error.cpp"]}
{"id": "C96", "title": "worst-case error of the approximate adders", "statement": "worst_case_error of regular_adder(n) and an approximate adder is found greedily from the top: drop the topmost carry that can be dropped and go on below its window. For almost_correct_adder_1 this is 2^n + 2^(n-p) + ... down to exponent p; for the block adders the sum of 2^k over all boundaries k if fewer bits predict than a block has.", "quantifier": "all widths, all legal parameters", "why_tests_cant": "the maximum is over 4^n operand pairs", "anchors": ["src/example_bdds/approximate_adders.cpp", "src/error_metrics/worst_case_error.cpp:worst_case_error"]}
{"id": "C97", "title": "error rate of the approximate adders", "statement": "error_rate of regular_adder(n) and an approximate adder is 1 - E(n) with E(0) = 1 and E(k+1) = E(k) - sum of E(g)/2^(k-g+2) over the g from s(k) to below s(k+1); for almost_correct_adder_1: E(k) = E(k-1) - E(k-p)/2^(p+1).", "quantifier": "all widths, all legal parameters", "why_tests_cant": "the rate is over 4^n operand pairs", "anchors": ["src/example_bdds/approximate_adders.cpp", "src/error_metrics/error_rate.cpp:error_rate"]}
{"id": "C98", "title": "the metrics with rounded counts", "statement": "average_value, average_case_error, error_rate and average_bit_flip_error, computed with the doubles of CountMinterm and the decimal type of the code, are the exact means; they are 0 exactly if the functions agree (the value is 0).", "quantifier": "all functions, all roundings to nearest", "why_tests_cant": "rounding only shows with more than 53 variables", "anchors": ["src/error_metrics/average_case_error.cpp:average_value", "src/error_metrics/error_rate.cpp:error_rate", "src/error_metrics/average_bit_flip_error.cpp"]}
{"id": "C99", "title": "light subsets and heavy supersets never become constant", "statement": "subset_light_child of a satisfiable function is satisfiable and superset_heavy_child of a function that is not a tautology is none, for every level range, also below every assignment of the variables before the range if indices are levels; subset_heavy_child and superset_light_child can make such functions constant.", "quantifier": "all BDDs, all level ranges, all variable orders", "why_tests_cant": "all functions and level ranges; the choice between the children depends on counts", "anchors": ["src/approximation_operators/approximation_operators.cpp:subset_light_child", "src/approximation_operators/approximation_operators.cpp:superset_heavy_child", "src/approximation_operators/approximation_operators.cpp:remove_children_rec"]}
{"id": "C100", "title": "rounding to the last level leaves one path", "statement": "If indices are levels and the level range reaches the last variable, the child operators leave below every assignment of the variables before the range a constant or a single cube (or its complement); for subset_light_child it is a cube of solutions, one input in 2^k with k at most the number of levels, for superset_heavy_child all inputs but such a cube of non-solutions.", "quantifier": "all BDDs, all level ranges reaching the last variable, all assignments", "why_tests_cant": "all functions; the experiments round with level_end 10000", "anchors": ["src/approximation_operators/approximation_operators.cpp:remove_children_rec"]}
{"id": "C101", "title": "the circuit roundings of the runtime experiments", "statement": "Each iteration of the error metric experiment loads the circuit its label names, rounds every output with the operation and at the level of the label, and returns the metric of the label of circuit and rounding; the average-case error of round_up is the mean of the rounding minus that of the circuit, of round_down the reverse; the label determines metric, circuit, operation and level, and the table has no entry twice.", "quantifier": "all circuit files with at most 255 inputs plus outputs, all metrics, operations and levels", "why_tests_cant": "the measured value is never looked at by the benchmark", "anchors": ["experiments/runtime/iscas85.cpp", "experiments/util/benchmark_util.cpp:load_iscas_85_file"]}
{"id": "C102", "title": "the average-case error experiments", "statement": "The average-case error experiment rounds with superset_light_child or subset_light_child from the level on and measures the difference of the averages; the step experiment computes the absolute difference at every input and, unless told to stop, its exact average; the labels determine the arguments; each registered rounding is measured once with and once without the average.", "quantifier": "all circuit files with at most 255 inputs plus outputs, all levels", "why_tests_cant": "the values are discarded by the benchmark", "anchors": ["experiments/runtime/average_case_error.cpp", "experiments/runtime/ace_steps.cpp"]}
{"id": "C103", "title": "the operator experiment", "statement": "Each iteration applies to every output the operator of the label exactly as the minimisation does at that level: subsets lower, supersets raise the value at every input, cofactors fix the variable; the label determines circuit, operator and level; every operator is registered once at each of the levels 1 to 40, and levels from the number of inputs on change nothing.", "quantifier": "all circuit files, all operators and levels", "why_tests_cant": "one wrong case of the switch; only the time is looked at", "anchors": ["experiments/runtime/operators.cpp"]}
{"id": "C104", "title": "the sampling experiments", "statement": "Regular sampling returns the share of drawn inputs with some output one, has the exact share as its mean and mean square error at most 1/(4 samples); improved sampling lies between the largest single share and the sum of the shares if two outputs are satisfiable, and is undefined with two or more outputs of which at most one is; the comparison prints the number of outputs, the exact error rate and 200 rows for 100, 200, ... 20000 samples obeying the same bounds; the labels determine the arguments; both methods are registered with 1, 10, ... 1000000 samples on each of three circuits.", "quantifier": "all circuit files, all sample counts, all random sequences", "why_tests_cant": "all random sequences", "anchors": ["experiments/runtime/sampling_methods.cpp", "experiments/misc/improved_sampling.cpp"]}
{"id": "C105", "title": "mean squared error of the approximate adders", "statement": "The mean square of the error of an approximate adder is the sum over all dropped carries j of 2^j (2^s(j+1) - 2^s(j)) plus, for i < j, (2^s(i+1) - 2^s(i)) (2^s(j+1) - 2^t) / 2, where s(k) is the first bit used for the carry into k and t the larger of s(j) and i+1, at most s(j+1). mean_squared_error_add returns it; mean_squared_error returns it with each number of inputs on which two carries are dropped rounded down to whole inputs over the variables of the widest window, and is exact iff those numbers are whole: for almost_correct_adder_1 iff n < 2p.", "quantifier": "all widths up to 63 (32 for the ADD variant), all legal parameters", "why_tests_cant": "the mean is over 4^n operand pairs; the table of the experiments shows the rounded numbers", "anchors": ["src/example_bdds/approximate_adders.cpp", "src/error_metrics/average_case_error.cpp:mean_squared_value"]}
{"id": "C106", "title": "the adder experiments", "statement": "Each measurement builds the exact sum and the adder of its label and returns the metric of its label, six of the eight in closed form; the two relative errors are within 3/4 and 3/2 of the true one, the average relative to the approximate sum; all adders of the tables are legal; the label determines the measurement; the comparison prints name, error rate, average and worst-case error of four adders and 1/8 in its last line.", "quantifier": "all legal adders up to 63 bits, all metrics of the table", "why_tests_cant": "the benchmark discards the values", "anchors": ["experiments/runtime/approximate_adder_error_metrics.cpp", "experiments/runtime/acr_approx.cpp", "experiments/misc/er_ace_adder_comparison.cpp"]}
{"id": "C107", "title": "the minimisation experiments", "statement": "The adder experiment returns and prints sizes, error rate and average-case error of a function with the inputs and outputs of the eight bit sum that is no larger than it, with error rate below 0.05 and average-case error below 7, then 400 rows with the indices and, where there is a function, size and true errors within the limits of the bucket, none smaller than the first one; each row of the circuit experiments has the name of the file, the sizes and the true error rate, below 0.05, of a function no larger than the circuit.", "quantifier": "all circuit files with up to 1024 inputs", "why_tests_cant": "all circuits; the experiments only print the numbers", "anchors": ["experiments/minimization/bucket/minimize_adders.cpp", "experiments/minimization/bucket/minimize_iscas.cpp", "experiments/minimization/bucket/minimize_epfl.cpp"]}
{"id": "C108", "title": "the experiments with the genetic algorithm", "statement": "Each row shows the size of the exact sum or of the circuit and the size and true errors of a smallest function among the individuals seen that are smaller and have error rate below 0.05 (and average-case error below the limit of the row), or 2^64-1 nodes; the conversion of the limits to float loses none of them; a circuit file that cannot be read is not noticed.", "quantifier": "all circuit files with up to 1024 inputs, all sequences of populations, all conversions to a nearest float", "why_tests_cant": "all executions of the genetic algorithm; the return code is ignored", "anchors": ["experiments/minimization/nsga2/nsga2_minimize_adders.cpp", "experiments/minimization/nsga2/nsga2_minimize_iscas.cpp", "experiments/minimization/nsga2/nsga2_minimize_epfl.cpp", "experiments/minimization/nsga2/nsga2_minimization_helper.cpp"]}
{"id": "C109", "title": "the grid of the bucket search on doubles", "statement": "With grid * error / bound computed on doubles, every coordinate is the exact one up to a relative error of 2^-51 and errors in a bucket are below the limits of the bucket; the search ends and is the exact search wherever the coordinates agree.", "quantifier": "all functions, operators, metrics, grids, bounds, all roundings to nearest", "why_tests_cant": "needs errors that differ from the bound in the last bits", "anchors": ["src/minimization/bucket_minimization.cpp:bucket_greedy_minimize"]}
{"id": "C110", "title": "the minimisation experiments on doubles", "statement": "Computed with doubles throughout, the values the search sees are the exact errors for small functions and off by a few units in the last place per variable and bit otherwise; the adder experiment and the circuit rows print what the exact computation gives: true figures, error rate below 0.05, average-case error below 7.", "quantifier": "all roundings to nearest, all circuit files with up to 1000 inputs, all functions", "why_tests_cant": "rounding errors show only for special values and large circuits", "anchors": ["experiments/minimization/bucket/minimize_adders.cpp", "experiments/minimization/bucket/minimize_iscas.cpp", "experiments/minimization/bucket/minimize_epfl.cpp", "src/minimization/bucket_minimization.cpp:metric_function", "src/minimization/minimization_helper.cpp:bucket_minimize_helper"]}
{"id": "C111", "title": "the genetic search on doubles", "statement": "With error rate and average-case error computed on doubles and the limits narrowed to float, the search still ends after at most one round more than the original has nodes; a reported result has the errors of an individual seen up to a few units in the last place per variable, those are within the limits, and its node count if they also keep the limits narrowed to float (50 times as much or more otherwise); no individual seen that keeps both by that margin has fewer nodes. With at most 53 inputs the errors are the true ones and the rows of the experiments are those of the exact computation.", "quantifier": "all functions with fewer than 2^31 nodes and up to 1000 inputs, all limits, all sequences of populations, all roundings to nearest", "why_tests_cant": "rounding only shows with more than 53 inputs; all executions of the genetic algorithm", "anchors": ["experiments/minimization/nsga2/nsga2_minimization_helper.cpp", "experiments/minimization/nsga2/bddminimizationproblem.cpp:fitness", "experiments/minimization/nsga2/nsga2_minimize_adders.cpp", "experiments/minimization/nsga2/nsga2_minimize_iscas.cpp", "experiments/minimization/nsga2/nsga2_minimize_epfl.cpp"]}
{"id": "C112", "title": "the operators are safe under garbage collection", "statement": "Whenever CUDD collects garbage and whatever addresses it reuses, the operators of approximation_operators.cpp read, reference and release only nodes that are in the table, return a pointer to the function they compute with one reference for the returned object, and leave every node that was in use at its address; they can be called again on the result and on every other object.", "quantifier": "all BDDs, all level ranges, all unique tables, all points of time of a collection, all addresses of new nodes", "why_tests_cant": "a collection happens only with large tables; a missing reference shows up only if one happens between two lines", "anchors": ["src/approximation_operators/approximation_operators.cpp:remove_children_rec", "src/approximation_operators/approximation_operators.cpp:round_rec", "src/approximation_operators/approximation_operators.cpp:round_best_rec", "src/approximation_operators/approximation_operators.cpp:round_any", "src/approximation_operators/approximation_operators.cpp:round_bdd", "src/approximation_operators/approximation_operators.cpp:round_best", "src/approximation_operators/approximation_operators.cpp:round_up", "src/approximation_operators/approximation_operators.cpp:round_down"]}
{"id": "C113", "title": "the operators give back the references they take", "statement": "After the returned object has been destroyed the nodes have as many references as before the call.", "quantifier": "all BDDs, all level ranges, all unique tables, all points of time of a collection", "why_tests_cant": "nodes that are never freed do not change any result", "anchors": ["src/approximation_operators/approximation_operators.cpp:remove_children_rec", "src/approximation_operators/approximation_operators.cpp:round_rec", "src/approximation_operators/approximation_operators.cpp:round_best_rec"]}
{"id": "C114", "title": "every check of the repository's tests holds", "statement": "All checks in /repo/tests hold: the error rate tests for any number of variables up to 53 with doubles, the comparison of Constrain and Cofactor for any functions and any number of variables, the relative error checks for all constants with a whole quotient and all random numbers, the tests of class Function for all functions, the others as they are. The two tests without checks run through: \"Dinge\" computes the functions and cofactors it names, and the DOT test writes its three graphs.", "quantifier": "all roundings to nearest, all random streams, all functions and sizes where the test is generic", "why_tests_cant": "the tests use one size and one stream of random numbers and run on one machine", "anchors": ["tests/error_metrics_test.cpp", "tests/operations_test.cpp", "tests/approximation_operations_test.cpp", "tests/function_test.cpp", "tests/parsing_test.cpp", "tests/dump_dot_test.cpp"]}
{"id": "C115", "title": "the tests check what they name", "statement": "The predicate of the exception test accepts exactly the messages that contain the expected text, the function called xor_bdd is not constant, and the check labelled as the ADD metric depends on it.", "quantifier": "all messages, all numbers of variables, all functions", "why_tests_cant": "a test that passes for the wrong reason passes", "anchors": ["tests/operations_test.cpp", "tests/error_metrics_test.cpp:check_wcr_values"]}
{"id": "C116", "title": "the ADD metrics on doubles with merged constants", "statement": "With the terminals of the ADDs rounded to doubles and replaced by any earlier constant that differs by less than epsilon, worst_case_error_add and the bit flip metrics are exact, average_case_error_add and mean_squared_error_add round only the final quotient, error_rate_add is off by a few units in the last place, wcre_add by at most epsilon and one rounding, acre_add by twice that, for up to 53 output bits; this stays so in any sequence of such calls with up to 39 bits.", "quantifier": "all functions, number representations, roundings to nearest, all earlier constants, all choices among close constants", "why_tests_cant": "which constant is taken depends on everything computed before in the manager; more than 53 bits are needed to see rounding", "anchors": ["src/util/cudd_helpers.cpp:bdd_forest_to_add", "src/util/cudd_helpers.cpp:absolute_difference_add", "src/error_metrics/worst_case_error.cpp:worst_case_error_add", "src/error_metrics/average_case_error.cpp:average_case_error_add", "src/error_metrics/error_rate.cpp:error_rate_add", "src/error_metrics/worst_case_relative_error.cpp:wcre_add", "src/error_metrics/average_case_relative_error.cpp:acre_add"]}
{"id": "C117", "title": "the relative errors on doubles", "statement": "With doubles, a rounded log2 and cpp_dec_float_100, bdd_multiply_constant stays exact below 2^256, wcre_randomized_search returns the exact worst case relative error and ends, wcre_search ends with the result of exact arithmetic, the bounds enclose the errors up to 2^-52 (worst case) or (N+1) 2^-52 (average over N variables) relatively, and the symbolic divisions give the truncated errors up to 10^-98 and the rounding of average_value.", "quantifier": "all functions, number representations without wrapping differences, roundings to nearest, logarithms on the right side of whole numbers, random sequences", "why_tests_cant": "rounding shows only for large numbers; a search that does not end only for errors beyond 2^38 that are no doubles", "anchors": ["src/error_metrics/worst_case_relative_error.cpp:wcre_search", "src/error_metrics/worst_case_relative_error.cpp:wcre_randomized_search", "src/error_metrics/worst_case_relative_error.cpp:wcre_bounds", "src/error_metrics/worst_case_relative_error.cpp:maximum_relative_value_bounds", "src/error_metrics/worst_case_relative_error.cpp:wcre_symbolic_division", "src/error_metrics/average_case_relative_error.cpp:average_relative_value", "src/error_metrics/average_case_relative_error.cpp:acre_bounds", "src/error_metrics/average_case_relative_error.cpp:acre_symbolic_division", "src/util/cudd_helpers.cpp:bdd_multiply_constant"]}
{"id": "C118", "title": "the measurements of the experiments on doubles", "statement": "With doubles, 100 digit decimals and merged ADD constants, compute_error_metric returns for every metric a value as near to the documented one as the last roundings allow (relatively (N+n+2) 2^-52 for the metrics on BDDs, 2^-39 for the bounds, 10^-12 for the relative errors on ADDs), whatever was measured before in the manager; for small functions the value is the one of exact arithmetic, the rows of the adder comparison are exact numbers, and the metrics that are not relative do not depend on the order of the functions.", "quantifier": "all functions with N inputs and n outputs in the range of the metric, all roundings to nearest, all earlier constants, all random streams, all sequences of measurements", "why_tests_cant": "rounding and merged constants depend on everything computed before in the manager", "anchors": ["experiments/util/benchmark_util.cpp:compute_error_metric", "experiments/runtime/approximate_adder_error_metrics.cpp:generate_adders", "experiments/runtime/acr_approx.cpp:acr_adders", "experiments/misc/er_ace_adder_comparison.cpp:generate_adders"]}
{"id": "C119", "title": "the text of a drawing is a DOT graph", "statement": "The text dump_dot_readable writes is a graph in the DOT language: its labelled nodes are the function names and the nodes of the functions, none labelled twice, its lines go from the names to the functions and from each inner node without style to its then and dashed to its else child; following the lines with the labels from a function to a terminal gives the value of the function. Shapes, widths and distances are the configured ones, names, the nodes of each variable and the terminals are in rows of their own, and the edges not drawn are those asked for (order of the names, left terminal) and one path through all rows. A file holds exactly this text.", "quantifier": "all functions, all names with matching angle brackets and without quotation marks and backslashes, all configurations with plain values, all pointers, all inputs", "why_tests_cant": "the tests only call the function; the text is looked at by nobody", "anchors": ["src/util/dump_dot.cpp:dump_dot_readable", "src/util/dump_dot.cpp:dump_dot_readable_to_file", "src/util/dump_dot.hpp:DotPresentationConfig"]}
{"id": "C120", "title": "numbers printed", "statement": "A number written to an output stream reads back as a closest decimal number with six significant digits, wrong by at most five millionths of it; numbers with six digits come back exactly and the order of numbers is kept. Different numbers can look alike, so a printed error rate of 0.05 does not show that the limit is kept.", "quantifier": "all rational numbers", "why_tests_cant": "every number is a different text; tests look at none", "anchors": ["experiments/minimization/bucket/minimize_adders.cpp:main", "experiments/misc/er_ace_adder_comparison.cpp:generate_adders"]}
{"id": "C121", "title": "times printed", "statement": "For every duration of up to thirteen days the time printed after a minimisation is the duration measured in nanoseconds, in full milliseconds, seconds or minutes, though it passes three roundings to double (and a conversion to size_t in the genetic minimisation); the program does not fail for any duration of the clock. A clock set back makes the conversions undefined.", "quantifier": "all durations, all roundings to nearest", "why_tests_cant": "needs every tick count; a test sees one", "anchors": ["src/minimization/minimization_helper.cpp:bucket_minimize_helper", "src/minimization/minimization_helper.cpp:format_time", "experiments/minimization/nsga2/nsga2_minimization_helper.cpp:run_genetic_minimization"]}
{"id": "C122", "title": "tables printed by the experiments", "statement": "What the minimisation experiments print reads back as a table with the announced columns and one row for each input: name or bits, size of the circuit, size found, error rate and average error as they are to six digits, never above the limits 0.05 and 7, 35 or 9000, and the time; the 400 lines for the buckets are in order and within the limits of their bucket or NaN. The comparison of adders prints five fixed lines.", "quantifier": "all files, random numbers, variable orders, roundings and durations", "why_tests_cant": "the experiments run for hours and have no tests", "anchors": ["experiments/minimization/bucket/minimize_adders.cpp:main", "experiments/minimization/bucket/minimize_iscas.cpp:main", "experiments/minimization/bucket/minimize_epfl.cpp:main", "experiments/minimization/nsga2/nsga2_minimize_adders.cpp:main", "experiments/minimization/nsga2/nsga2_minimize_iscas.cpp:main", "experiments/minimization/nsga2/nsga2_minimize_epfl.cpp:main", "experiments/misc/er_ace_adder_comparison.cpp:main"]}
{"id": "C123", "title": "sampling on doubles", "statement": "With every operation rounded to a double, error_rate_sampling returns the share of the drawn inputs with an error rounded once, 0 or 1 only if no or every input has one; error_rate_efficient_sampling returns at least the error rate of every bit and at most their sum and 1, exactly if the rates and their sum are doubles and up to one unit in the last place per variable and bit otherwise.", "quantifier": "all pairs of functions, all sample counts, all random sequences, all roundings to nearest", "why_tests_cant": "rounding shows only for special rates; all random sequences", "anchors": ["src/error_metrics/error_rate.cpp:error_rate_sampling", "src/error_metrics/error_rate.cpp:error_rate_efficient_sampling"]}
{"id": "C124", "title": "the minimisation helper on doubles", "statement": "With the counts of the operators, the metrics and the coordinates on doubles, the helper returns for every configuration in range; every function in a bucket has the outputs and variables of the input and is smaller unless the bucket is empty; the stored errors are the true ones up to a few units in the last place per variable and bit and exceed the bound by at most 2^-51 of it; for small functions they are the true ones and below the bounds. The operators keep below or above the function as they are named, however the counts are rounded, and are the exact ones up to 53 variables.", "quantifier": "all input files and adders, operators, modes, metrics except relative ones, grids, bounds, random sequences, all roundings to nearest", "why_tests_cant": "rounding shows only in counts of more than 53 variables or errors next to a bound", "anchors": ["src/minimization/bucket_minimization.cpp:apply_operator", "src/minimization/bucket_minimization.cpp:generate_single_bdd_operators", "src/minimization/bucket_minimization.cpp:generate_multi_bdd_operators", "src/minimization/bucket_minimization.cpp:generate_random_operators", "src/minimization/bucket_minimization.cpp:metric_function", "src/minimization/minimization_helper.cpp:bucket_minimize_helper"]}
{"id": "C125", "title": "the sampling comparison as printed", "statement": "If the rounding of the circuit changes two outputs, neither much rarer than another, improved_sampling prints the number of outputs, a fixed line, the error rate and then 200 rows, for 100, 200, ... 20000 samples. Each row shows, to six digits, the share of the drawn inputs with a difference and an estimate not below the rate of any one output and not above their sum, both at most 1. If at most one of several outputs changes, only the first three lines appear and the program's behaviour is then undefined.", "quantifier": "all circuits of up to 1000 inputs and 1500 outputs, all random sequences, all roundings to nearest", "why_tests_cant": "the failure needs a circuit where only one output changes", "anchors": ["experiments/misc/improved_sampling.cpp:main", "src/error_metrics/error_rate.cpp:error_rate_sampling", "src/error_metrics/error_rate.cpp:error_rate_efficient_sampling"]}
{"id": "C126", "title": "the runtime experiments on doubles", "statement": "With double counts, averages and rates, iscas85 and average_case_error compute the metric of the circuit and its rounding up to (inputs + outputs + 2) units in the last place, and exactly if inputs and outputs together are at most 53; the rounding is that of the named operator, rounding up never goes below and rounding down never above the circuit, and a majority is wrong only if it is that close. ace_steps computes the very numbers of average_case_error; operators applies the operators of the minimisation, exactly up to 53 inputs; regular sampling returns the share of the draws rounded once; improved sampling stays between the bounds of the error rate up to rounding.", "quantifier": "all circuits, levels, operations and random sequences, all roundings to nearest", "why_tests_cant": "rounding shows only on circuits larger than those measured in tests", "anchors": ["experiments/runtime/iscas85.cpp:benchmark_iscas85", "experiments/runtime/average_case_error.cpp:benchmark_ace", "experiments/runtime/ace_steps.cpp:benchmark_ace_steps", "experiments/runtime/operators.cpp:benchmark_operators", "experiments/runtime/sampling_methods.cpp:benchmark_sampling_methods"]}
{"id": "C127", "title": "the operators are safe under garbage collection on doubles", "statement": "With counts that are doubles, however they are rounded, the operators read, reference and release only nodes in the table, return a pointer to the function they compute and keep everything that was in use. The handles they build new versions of, and so the references they leave behind, are those the rounded counts select; with at most 53 variables they are those of exact counts. Whether any reference stays behind does not depend on the counts.", "quantifier": "all BDDs, all level ranges, all unique tables, all points of time of a collection, all addresses of new nodes, all roundings", "why_tests_cant": "a collection happens only with large tables, and rounding only with more than 53 variables", "anchors": ["src/approximation_operators/approximation_operators.cpp:remove_children_rec", "src/approximation_operators/approximation_operators.cpp:round_rec", "src/approximation_operators/approximation_operators.cpp:round_best_rec", "src/approximation_operators/approximation_operators.cpp:round_any", "src/approximation_operators/approximation_operators.cpp:round_bdd", "src/approximation_operators/approximation_operators.cpp:round_best", "src/approximation_operators/approximation_operators.cpp:round_up", "src/approximation_operators/approximation_operators.cpp:round_down"]}
{"id": "C128", "title": "the bucket search with metrics on ADDs and doubles", "statement": "With relative errors and worst-case bit flips computed on ADDs of doubles, whose constants are taken from those already in the manager, the bucket search ends and keeps its order of sizes; every stored error is the true one up to rounding and, for relative errors, 3 * 10^-12, and exceeds its bound by no more than twice that and rounding; whole numbers in the manager stay apart, so later calls start under the same conditions.", "quantifier": "all functions of at most 39 bits, all grids and bounds in range, all operators and modes, all tables of constants in which whole numbers stand apart, all roundings to nearest", "why_tests_cant": "which constants are found depends on everything computed before in the manager", "anchors": ["src/minimization/bucket_minimization.cpp:bucket_greedy_minimize", "src/minimization/bucket_minimization.cpp:metric_function", "src/minimization/minimization_helper.cpp:bucket_minimize_helper"]}
