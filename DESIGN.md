# Formal model of abo: design

`/repo` is the library *abo* (approximate BDD optimisation), C++ on top of CUDD.
This directory holds a Lean 4 model of it (`lean/Verif`) and proofs of the
properties in `properties.jsonl`.

## 1. What is modelled, and how

Layers (each definition cites the file and lines it models):

| Lean module | models |
|---|---|
| `Verif/Outcome.lean` | how a C++ call can end: a value, a thrown exception, or undefined behaviour (`Fault`) |
| `Verif/DD/*.lean` | CUDD BDDs: reduced ordered diagrams with complement edges, the unique-table constructor, `apply`, canonicity |
| `Verif/ADD/*.lean` | CUDD ADDs (terminals are exact rationals) |
| `Verif/Spec.lean` | the independent specification vocabulary: unsigned / two's complement value of a bit list, "is the maximum of", mean over all assignments |
| `Verif/SpecAdder.lean` | closed forms for the errors of approximate adders (C96, C97) |
| `Verif/SpecProb.lean` | the same for random sequences: the mean over all sequences of draws (C90–C93) |
| `Verif/Model/*.lean` | abo's own code, function by function |
| `Verif/Proofs/*.lean` | helper lemmas |
| `Verif/Props/*.lean` | the property theorems, one section per property id |

### 1.1 Diagrams
A BDD handle (`DdNode*` with CUDD's complement bit) is a pair of a Boolean and a
regular node; a node is `one` or `node v t c e` (then-edge regular, `c` the
complement bit of the else-edge). This is CUDD's canonical form. Structural
equality of the trees is what CUDD's pointer equality is under a strong unique
table. The variable order is an arbitrary injective level map held in the
manager `Mgr` (`Cudd_ReadPerm`); theorems hold for every order unless the order
is named in the hypotheses. Handles are well-formed (`WF`), as CUDD guarantees.

### 1.2 Outcomes
`Except Fault α`. Indexing a `std::vector` out of range, `.back()` on an empty
vector, integer division by zero, converting a NaN/negative double to an
unsigned integer are `Fault.ub`; thrown exceptions have their own constructors.
A floating point result that is infinite or NaN is `Fault.nonFinite` (for
`double` powers of two from exponent 1024 on, and for divisions by zero).
Loops without a bound in the code take an iteration budget in the model; running
out of it is `Fault.fuel`, which is not an outcome of the code (theorems say when
the budget suffices, or hold for every budget).
`assert` is modelled as compiled out only where the property speaks about it.

### 1.3 Numbers
`boost::multiprecision::uint256_t` is the unchecked type: arithmetic is modulo
2^256 in the model. `double` and `cpp_dec_float_100` are idealised as exact
rationals: rounding of floating point is **not** modelled, except in
`Verif/Model/Float.lean`, `FloatMetrics.lean` and `FloatBucket.lean`. The first (C88) models the counts of minterms and
solutions, the operators built on them and the random walk once more with every
operation on `double`s rounded to nearest. There a `double` is a rational
`k * 2^e` with the ranges of binary64, a rounding is any function that gives a
nearest one (ties are open), and results beyond 2^1023 are not specified.
`Verif/Model/FloatMetrics.lean` (C98) does the same for the metrics that count
minterms: `Cudd_CountMinterm` halves and adds `double`s from the leaves up, and
the division in `cpp_dec_float_100` has any result with a relative error of at
most 10^-99. `FloatBucket.lean` (C109) rounds the coordinates of the bucket search.
`FloatExperiments.lean` (C110) puts the two together for the minimisation experiments; a `cpp_dec_float_100`
becomes the `double` next to its first 18 digits, a uint256 becomes a nearest `double`.
`FloatNsga.lean` (C111) does the same for the genetic search, `FloatSampling.lean` (C123) for the sampled error rates,
`FloatOperators.lean` (C124) for the operators the bucket search is given, and `FloatRuntime.lean` (C126) for the
runtime experiments on circuits, whose registered arguments are in `BenchTables.lean`.
`FloatAddBucket.lean` (C128) passes the constants of the manager through the search, for the metrics computed on ADDs.
Conversion of a
uint256 to `long` saturates, as in boost. The parameters of the
adders are `unsigned int`s that wrap; widths are below 2^31. `std::rand()` is an
arbitrary stream of naturals handed to the function; C90–C93 average over all
streams of numbers up to `RAND_MAX`, which assumes a perfect generator.
`std::size_t` has 64 bits
and wraps.

### 1.3a Bucket minimisation
Metrics and operators are `std::function`s; the model takes them to be pure (as
the library's own are) but lets them fail. `std::set` is a strictly increasing
list in lexicographic order. Allocating the bucket vector succeeds. Converting
an error to `std::size_t` is undefined behaviour outside [0, 2^64).

### 1.3b Parsers and drawings
Strings are lists of characters. A PLA or AIG file is the sequence of callbacks
lorina makes for it; `assert` is a parameter (`asserts`), so both builds are
covered. The text written by `dump_dot_readable` is a list of statements
(`DotStmt`, C70): node identifiers (addresses in the code) are the handles, and the
header, comments and attributes for the appearance are left out.
`Verif/Model/DotText.lean` is the same function with all characters (C119). There
the pointers are a parameter `addr`, printed as `0x` and hexadecimal digits, and
the `float`s of the configuration are given in printed form. The text is read
back by `readDot` (`Verif/SpecDot.lean`), a reader for the DOT language written
from its grammar (tokens, statements, defaults in scope); texts with `strict`,
undirected or named sub-graphs, groups as ends of edges, negative numerals or
other comments than `#` are not read.
A file is a text under a name; which files can be opened is a parameter.

### 1.3c Experiments
The genetic search is modelled around pagmo: the populations it is given in each
round are arbitrary. The narrowing of the limits to `float` is a parameter `fl`.
The running time is left out of the result but not of the printed rows (C121, C122). A file read by the benchmarks is the
sequence of callbacks lorina makes for it and its return code. Of an executable
under `experiments/` one iteration of each benchmark, the labels, and the numbers
of the printed rows are modelled; a fresh manager has as many variables as the
circuit has inputs.

### 1.3ca Tests
The Catch2 tests in `/repo/tests` are functions that return the list of the results of their checks
(`Verif/Model/Testsuite.lean`, C114 and C115), with the calls of the library they make and CUDD's `Constrain`,
`Cofactor` and `IsCube`. Catch2 itself is left out, as is the text of the three `.pla` files before lorina.

### 1.3cb ADD terminals
The metrics on ADDs are modelled a second time with terminals rounded to `double`s and looked up in CUDD's table of
constants (`Verif/Model/FloatAdd.lean`, C116). Any earlier constant closer than `epsilon` may be taken; the hash
function, which decides among them, is left out.

### 1.3cc Relative errors
The multiplications by constants and the relative errors on BDDs are modelled a second time with `double`s
(`Verif/Model/FloatRelative.lean`, C117). Of `std::log2` only that it does not cross whole numbers is assumed.

### 1.3cda Printed text
`Verif/Model/Print.lean` is what the minimisation experiments and the adder comparison write to the standard output,
character by character, and the fault that stops it. The stream writes `double`s like `%g` with six digits, ties to even
(glibc); the clock counts nanoseconds in 64 bits, and its two readings are a parameter (their difference). Flushing is
left out: what was written before a fault counts as printed. The text is read back with `Verif/SpecPrint.lean`.
The numbers of the model are rationals, so a negative zero, which a stream prints as `-0`, is not told apart from zero.
`Verif/Model/PrintSampling.lean` is the same for `improved_sampling` (C125), `Verif/Model/PrintTesting.lean` for `testing` (C119).

### 1.3cd Measurements
`compute_error_metric` and the adder tables that use it are modelled a second time on top of these metrics, with the
table of constants passed from one measurement to the next (`Verif/Model/FloatBenchmark.lean`, C118). `format_time` is modelled a second time with
rounded quotients (`formatTimeF`, C78).

### 1.3d Memory
`vec_to_arr` and `del_arr` work on an explicit heap, a list of blocks whose
positions are the addresses (`Verif/Model/Strings.lean`). Uninitialised memory,
freed blocks and accesses outside of a block are `Fault.ub`. Of `Cudd_DumpDot`
the reads of the two name arrays are modelled. The operators of
`approximation_operators.cpp` are modelled a second time with pointers into CUDD's
unique table and reference counts (`Verif/Model/RefCount.lean`, C112 and C113; with rounded
counts `FloatMemory.lean`, C127);
`Cudd_bddIte` may collect garbage at any call and may give any unused address to a
new node. All other vectors and handles are values.

### 1.4 Not modelled
CUDD's reference counting and garbage collection outside of C112, C113 and C127, memory
limits and cache; CUDD's
merging of ADD constants closer than 1e-12 outside of C116; floating point
rounding outside of C88, C98, C109 to C111, C116 to C118, C121 and C123 to C128; printing outside of
C78, C119 to C122, C125 and the names; what takes how long (the clock's readings are
arbitrary); lorina's text parsing (its callbacks are modelled); pagmo's
algorithms; Google Benchmark.

## 2. Trusted base
Lean's kernel; the axioms `propext`, `Classical.choice`, `Quot.sound` (at most) -
the exact set per theorem is printed by `lean/Verif/Audit.lean`; the reading of
the C++ sources and CUDD's documented behaviour described above.

### 2.1 What the seeded edits show

`seeded/LOG.jsonl` has one line per attempt. `declarations_broken` lists the declarations that stopped compiling. `theorems_failed` lists the property theorems that were among them or whose proof depends on one of them. A listed theorem therefore no longer has its proof; the log alone does not show that its statement became false, since a proof can also break for reasons of form. An entry whose `theorems_failed` does not name a theorem of the claim is an edit that was not caught on that attempt.

For 271 entries, 204 of them among the first 310, this gap is closed by a second check. In a copy of the edited model, all proofs are replaced by `sorry`, so that the statements can be used as hypotheses. A probe then derives `False` from one of them. The same probe fails on the unedited model. `statement_refuted` names the theorems whose statements were shown to be false for the edited program in this way. A `note` says so when an edit turned out to be harmless or invalid. The build stops at the first module that fails, so later theorems can be missing from `theorems_failed`; for those entries `statement_refuted` is the evidence.

## 3. Plan per property

Technique abbreviations: *bit-vec* = induction over the bit list with a carry /
borrow invariant on values; *dag* = structural induction over diagrams; *inv* =
loop invariant over the model's loop; *neg* = the claim is false for the code, a
concrete counterexample is proved and the part that holds is proved as `_partial`.

| id | model | proof |
|---|---|---|
| C01, C02 | ripple loops over BDD lists | bit-vec |
| C03 | zero-extend, subtract, conditional negation | bit-vec |
| C04 | same, TwosComplement branch | neg + partial (exact when the difference fits) |
| C05 | conditional negation | bit-vec |
| C06 | index loop | bit-vec |
| C07, C08 | shift-and-add loop | inv |
| C09, C10 | bit loop from the top | bit-vec |
| C11 | OR of upper bits | bit-vec |
| C12 | restoring division loop | inv |
| C13 | bit extraction loop | inv |
| C14 | complement-edge case analysis | dag; neg for `low` |
| C15 | support computation | dag |
| C16, C17 | bit loop, ripple adder | bit-vec |
| C18, C19 | memoised recursion, map as state | dag + memo transparency |
| C20 | path walk with random draws | dag; neg for draw 0 |
| C21 | level-by-level counting map | inv (weighted path count) |
| C22, C23 | ADD apply | dag |
| C24 | top-down bit loop | inv |
| C25-C28 | compositions | corollaries; neg for TwosComplement |
| C29, C30 | top-down loop | inv; neg for the documented bound |
| C31-C34 | sums of minterm counts | linearity of the mean |
| C35-C40 | compositions | corollaries + invariants |
| C41-C47 | compositions, search loops | inv; neg for `wcre_search`; signed variants need `NoWrap` (no difference leaves the number range), neg without it |
| C48-C54 | memoised recursive operators | dag |
| C55 | mixed radix | induction |
| C56-C60 | loop over a bucket list | inv, termination measure |
| C61 | list generators | induction |
| C62-C64 | carry windows | bit-vec |
| C65 | fold | induction |
| C66-C68 | callback state machines | induction over the callback history |
| C69 | class methods | direct |
| C70 | collected nodes and edges | dag, inv over the visited set |
| C71 | ADD counters under a non-identity order | neg |
| C72, C73 | memoised recursive operators | dag |
| C74 | split and keyword callbacks | induction over the text |
| C75 | switch over the metrics | corollaries; neg for the mean squared error |
| C76 | helper around the search | corollaries of C56 - C60, C66, C67, C77 |
| C77 | operators on supports | dag, inv over the search |
| C78 | string of a time, also with rounded quotients | direct; neg outside of the int range |
| C79 | operators as local maps on nodes | dag, counting images of nodes; neg for "never grows" |
| C80 | flags of the buckets | inv over the search with the history as a ghost |
| C81 | literal cube tables | case split on the four variables; transfer along order preserving managers |
| C82 | loop over the parameters | induction over the positions; neg for "never grows" |
| C83, C84 | fitness and the loop over populations | cases; inv over the rounds; neg for limits rounded down to float |
| C85 | switch over the benchmark metrics | corollaries of C25 - C41; neg for the swapped relative error |
| C86 | benchmark adders, names and files | corollaries of C62, C67; injectivity of decimal numerals; neg for unreadable files |
| C87 | string arrays on an explicit heap | induction over the array; neg for too few names |
| C88 | counting with rounded `double`s | dag with error bounds; exact up to 53 variables; neg beyond |
| C89 | nothing left to try after the bucket search | inv: every bucket is queued, empty or closed; sizes only shrink |
| C90 | distribution of the random walk | induction over the levels, mean over all draw sequences; neg: not exactly uniform |
| C91 | mean and variance of `error_rate_sampling` | independence of the draws, Chebyshev |
| C92 | mean of `error_rate_efficient_sampling` | linearity of the mean, C90; neg: skipped bits |
| C93 | accuracy of `error_rate_efficient_sampling` | independence of the rows of draws, Chebyshev |
| C94 | average error of the approximate adders | frequency of a carry by induction on its position, telescoping |
| C95 | bit flips of the approximate adders | the same, bit by bit |
| C96 | worst-case error of the approximate adders | dropped carries are apart; greedy choice from the top |
| C97 | error rate of the approximate adders | decomposition by the first dropped carry |
| C98 | metrics with rounded counts | error bounds along the recursion; sums of non-negative terms; neg beyond 53 variables |
| C99, C100 | rounding over a range of levels | the range is one chain of kept children: values, residual counts and literals along it; neg for the other two operators |
| C101 - C103 | runtime experiments on circuits | loading (C86), operators per output, metrics (C85); labels are split at their separators |
| C104 | sampling experiments | C37, C38, C91 on the loaded circuit |
| C105 | mean squared error of the adders | a dropped carry depends on exactly its window; two carries are dropped independently above `i + 1`; whole numbers of inputs by the power of two in them |
| C106 | adder experiments | C85, C94 – C97, C105 on the table entries |
| C107 | minimisation experiments | C76 on the configurations of the experiments; each bucket's row is true of a function within its limits; 0.05 as a `double` |
| C108 | genetic experiments | C84 on the arguments of the experiments; 0.05 and the whole limits as nearest `float` |
| C109 | grid on doubles | the search on doubles follows an exact search with other metrics (simulation); relative error of two roundings; counterexamples at the bound |
| C110 | minimisation experiments on doubles | C109 with the metrics of C98: fractions with small denominators keep their distance from whole numbers; a double is read back from its 18 digits |
| C111 | genetic search on doubles | comparisons of rounded errors with floats agree outside of a gap of a few units; induction over rounds as in C83; counts below 2^53 are exact |
| C112 | operators under garbage collection | refinement: one recursion driven by a plan has the three as instances; pointers and handles correspond as long as everything needed is referenced |
| C113 | references given back | refuted; the keys of the memo table are the handles touched, each once |
| C114 | checks of the tests | error rate tests for up to 53 variables; Constrain = Cofactor on cubes, by induction on the diagrams; bisection on constants |
| C115 | tests check what they name | refuted; the accepted messages are characterised |
| C116 | ADD metrics on doubles | induction over apply with an invariant of the table of constants; refuted for 54 bits |
| C117 | relative errors on doubles | whole numbers and grid points are exact; relative errors of quotients and sums by induction over the bits; endless search by an invariant on neighbouring doubles |
| C118 | measurements on doubles | composition of C110, C116 and C117; invariant that whole numbers stand apart in the table of constants, by induction over the measurements |
| C119 | text of a drawing | lemmas per piece of text (what the lexer and the parser do with it in any state) give the exact list of DOT statements; nodes, edges, groups and attributes are read off that list block by block; labels and lines are those of the statements of C70 |
| C120 | numbers printed | rounding to six digits is to the nearest number of the decade; the text is read back digit by digit; monotonicity and the gap between numbers with six digits from the definition of closest |
| C121 | times printed | the two roundings of seconds and milliseconds move a time by less than a nanosecond, and whole seconds and milliseconds not below themselves (a table of the 1000 full milliseconds below a second is checked by the kernel, all others by bounds); C78 for the text |
| C122 | tables printed | C110, C111 and C118 for the numbers, C120 and C121 for their texts, lemmas that joined fields and lines read back |
| C123 | sampling on doubles | the sum of the rates on doubles is monotone, at least each rate and exact where everything is a double; the shares of each bit then stay below 1; neg with a rate that is lost in the sum |
| C124 | the minimisation helper on doubles | supports shrink for any counts; values near the metric and coordinates near the exact ones give the bounds; exact products for small functions |
| C125 | the sampling comparison as printed | C98 and C123 for the numbers, C122's lemmas for the text, the loop as a map over 200 numbers |
| C126 | the runtime experiments on doubles | C88 and C124 for the operators, C118 and C123 for the numbers |
| C127 | operators under garbage collection on doubles | as C112, with plans that follow the rounded counts; a rounded difference above a double is above it exactly |
| C128 | the bucket search with metrics on ADDs | invariant on the table of constants carried through the search; C116 and C124 for the values; without such metrics the search is that of C124 |
