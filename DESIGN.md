# Design

Subject: MatrixMultiplicationHPX (`/repo`, C++).  The properties are in
`properties.jsonl`, the Lean 4 development in `lean/`, the map from property to
theorem in `MANIFEST.json`, the log of mutation tests in `seeded/LOG.jsonl`. A line of the log
lists as failed the theorems that depend on a broken proof after the edit (`failed_by` says how this was
found). A theorem can be listed although its statement is still true, if only its proof stops.

## 1. Trusted base

* The Lean 4.33.0 kernel.  No own axioms, no `sorry`, no `native_decide`, no
  `bv_decide`.  Every theorem of the development depends on at most `propext`,
  `Classical.choice` and `Quot.sound`; `lean/Verif/Audit.lean` makes the build fail if
  any theorem in namespace `Verif` uses another axiom.  The theorems named in
  `MANIFEST.json` depend on all three, except:
  * no axiom: `C42_wrong_length`, `C47_never_returns`, `C53_once`;
  * `propext` only: `C25_zero_block_result`, `C31_bad_level`, `C31_bad_map`,
    `C38_kernel_tiled_flag`, `C38_kernel_test_flag`, `C40_verify`,
    `C40_proposal_verify`;
  * `propext` and `Quot.sound`: `C31_bad_bounds`, `C41_position_lt`,
    `C41_position_injective`, `C41_position_surjective`, `C53_empty`, `C53_destroy`,
    `C61_help`, `C64_copy_double_free`, `C72_schedule`, `C77_invisible`, `C91_finite`.
* That the Lean definitions under `lean/Verif/Model` transcribe the C++ sources
  correctly.  Every definition cites file and lines.  This is checked by reading,
  nothing in `/repo` was compiled or run.
* The modelling decisions of section 2.

## 2. Modelling decisions

**Scalars.**  The model is generic in the scalar type.  `Arith α` provides `zero`,
`add` and `mac acc a b` (for the C++ pattern `acc += a * b`) and *no laws*.  So
theorems stated over `[Arith α]` hold bit for bit for IEEE doubles in any rounding
mode, with or without fused multiply-add (as long as the compiler contracts the two
compared code sites alike).  For "is the matrix product" the scalars are an arbitrary
semiring (`mac acc a b = acc + a*b`, exact arithmetic).  Rounding errors are bounded (C85,
C86) for every arithmetic that satisfies the standard model of floating-point
arithmetic, `Rounding` in `SpecRounding.lean`, with values in any ordered field.
`SpecDouble.lean` and `Model/Double.lean` define IEEE 754 doubles (round to nearest, ties to
even, signed zeros, infinities, one NaN; no exception flags); C97 proves that they satisfy
these hypotheses, so C83 to C88 hold for `double` without assumptions on the arithmetic.  The
definition is part of the trusted base for C97 to C99, C101, C103 to C106, C108, C115, C116, C122,
C127 to C130, C134 and C135 only; as a plausibility check its sums, products and quotients were compared with those of the machine for 600 pairs of numbers (subnormal, tied,
overflowing and special ones included).

**Sizes.**  `size_t`/`uint64_t` values are natural numbers.  Every vector of `n`
doubles occupies `8n` bytes of a 64-bit address space, so the index arithmetic of an
execution that manages to allocate its vectors does not wrap, except that the size of a vector may
itself be a wrapped product.  C100 therefore repeats the model of the functions that create, print and
multiply whole matrices with arithmetic modulo 2^64 (`Size64`): below `N = 2^32` nothing changes, from
there on the program stops with an exception before any algorithm runs.  C103 does the same for the
algorithms (`Kernels64`, `Variants64`, `Tiled64`, `Driver64`; not "proposal", whose sizes are fixed by
its blocking): for sizes below 2^31 nothing changes, except that the counts of `looped` can wrap.
Matrices from 2^30 on exceed `max_size` of a vector, so the bound 2^31 loses nothing.  Sums and products are
reduced modulo 2^64 once at the end of an expression.  Where the code subtracts unsigned numbers
(`create_schedule`) absence of wrap-around is a theorem.
`uint32_t n` in `otherExperiments` is promoted to `size_t` before it is multiplied.

**Undefined behaviour and errors are outcomes.**  `Err` distinguishes out-of-bounds
access through `operator[]`/pointers, misaligned vector access, falling off the end of
a non-void function, integer division by zero, non-representable
floating-point-to-integer conversion, `delete[]` of a pointer that is not a live block,
`std::out_of_range` raised by `.at()`, `throw;`
without an active exception (which calls `std::terminate`), user exceptions, and
non-termination.  A `for` loop whose step is 0 ends in `Err.diverge` in the model.

**Sequential code** lives in `M = Except Err`.  Vectors are `Array α`; `rd`/`wr` model
`operator[]` (error `oob`), `rdAt`/`wrAt` model `.at()` (error `outOfRange`).

**Concurrency.**  `Act α` is a program over shared memory whose atomic steps are single
element reads and writes; `Tree α` is a fork/join tree of such programs (`seq`, `par`).
`PStep` is the small-step interleaving semantics: any active task may perform its next
access at any time.  `ND` is the set of possible outcomes (values or errors).
`#pragma omp parallel for` and `hpx::parallel::for_each_n(par, ..)` become `par` with
one task per iteration.  `SpecThreads.lean` defines runs on a limited number of threads, and
loops whose iterations are handed out in groups; C123 proves that nothing changes.  An error reached by any task is an outcome of the whole
program.  The memory model of `PStep` is sequential consistency at element granularity.
`SpecMemory.lean` defines executions in the memory model of C++ instead (accesses to
non-atomic objects ordered by "happens before", every read yields the value of a visible side
effect, a data race is undefined behaviour); C102 proves that both agree for all fork/join
programs of the model: an execution with a data race exists if and only if some interleaving reaches
one, and otherwise results and errors are the same.  That leaves one assumption: starting a task and
waiting for it order its accesses (the guarantee of OpenMP and of the futures of HPX).  Futures (`recursive`,
`static_improved`) are modelled twice.  `Model/Recursive` and `Model/StaticImproved`: the
children's results are independent values (they share nothing mutable), all children finish
before the continuations start, which write the results into the common vector, interleaved
arbitrarily.  `Model/Async`: all vectors are regions of one memory, all tasks of all levels are
one fork/join program, and a continuation may run as soon as its child has finished.  C90
proves that the results are the same.  A statement of the form `prog = ND.pure x` says: every
schedule terminates, none produces an error, and all of them return `x`.

**Not modelled.**  HPX itself (what C117 assumes of names, components and localities is listed in
`Model/Components.lean`; serialisation, crashing localities and stack overflow are left out), OpenMP itself,
`std::chrono` timing output,
console output except where a property is about it (C57, C79, C82, C108, C118), memory exhaustion,
command lines with arguments of other forms than those of C120, `evaluate.py` except for the command lines and the reading of the output
(C83, C108), the build system.

**`-ffast-math`.**  SConstruct:26 compiles the release program and the tests with this flag,
otherExperiments/Makefile:14 the experiments.  Unless a property says otherwise the model keeps the
order of operations of the source text, as a compiler does without the flag.  C99 (experiments) and
C105 (program and tests) cover what the compiler may make of the sums with it: every sum may be
commuted, reassociated and freed from added zeros, and each multiplication and addition may be fused or
not, differently for every entry (`Fast` and `Computes` in `SpecFast.lean`).  C106 covers what it may make of
the only division of doubles that decides which elements are computed, the number of blocks in
`iterate_indices`: a multiplication by the reciprocal.  Not covered: rewriting
by the distributive law, and other transformations of the checks themselves (with the flag the compiler
may assume that no NaN and no infinity occurs, so the part of C104 on such elements is about a check
that compares as IEEE 754 says).  Subnormal numbers are kept, as the programs are linked without this flag.

**Simplifications, by file.**

* `naive.hpp`, `otherExperiments`: `#pragma omp parallel for` runs all iterations
  concurrently.  The exception of `at` in an iteration of `naive.hpp` is the outcome of
  the run in the model; a real OpenMP program is ended by it (`std::terminate`).
* `recursive.cpp`, `static_improved.cpp`: `wait_all` does not rethrow a child's
  exception; the children modelled here fail only by undefined behaviour, which is an
  error of the whole run.  `repetitions` is a loop that drops all but the last result.
* `static_improved.cpp` `create_schedule`: the comparison of doubles is an arbitrary
  predicate (C98 has the comparison of IEEE doubles).  C19 and C21 assume `N*N < 2^63` for
  the casts to `int64_t`.
* `index_iterator.hpp`: `std::ceil` of a quotient of doubles is the exact ceiling; C98 proves
  it below 2^53.
* `looped.hpp`, `index_iterator.hpp`: the iterator is its current index, copying it is
  a value copy; C113 has the objects with their references and proves that this makes no
  difference within one range.  `memory_layout/index_iterator.hpp` is a textual copy of
  `variants/index_iterator.hpp` up to white space and comments (no file includes it).
  `memory_layout/tile_view_iterator.hpp` is not modelled: no file includes it, and it names
  `tile_view` with two template arguments instead of three, so it cannot be compiled.
  Loop counts are products of naturals; C103 has them modulo 2^64 and says when they wrap.
* `combined.cpp`, `kernel_tiled.cpp`: `Vc::double_v` is four lanes.  An aligned load
  requires `index % 4 = 0`, because the storage is 32-byte aligned.  Block size
  constants are parameters, the constants of the code are `blocking`.  The race on
  `first` in `combined` (C36) is undefined behaviour in C++ (C102 proves it from the definition of
  the memory model for every N > 256); C34/C35 are about the sequentially consistent interleaving
  semantics.
* `memory_layout`: uninitialised local arrays hold arbitrary values.
* `util`: printing produces a list of tokens; the random generator is an arbitrary
  sequence of numbers; `what()` of the exceptions is modelled apart from the algorithms (C133).
* `matrix_multiply.cpp`: options are already parsed (the parsing is modelled separately, C120);
  uncaught exceptions are error outcomes; HPX runs `hpx_main` on the console locality only.
* `src/tests`: Boost.Test and `hpx::start`/`hpx::stop` are not modelled; a test is a function
  that returns the list of
  its comparisons (`BOOST_CHECK_CLOSE`, `BOOST_CHECK_SMALL`); a decimal literal is an integer
  with a number of digits after the point, converted by a parameter.  `Model/Tests` passes the
  parameters directly, `Model/TestSession` through the global variables (C122).
* `aligned_allocator.hpp`: `std::align` as specified by the standard; `new[]` returns
  any block apart from the live ones.
* `otherExperiments`: the buffers A, B, C and the stack arrays do not overlap; stack
  arrays start with arbitrary contents and arbitrary alignment; the inline assembler of
  `multASM.cpp` is modelled instruction by instruction on the registers it uses.
* `benchmark.cpp`: the size `n` is a parameter (4096 in the code); the five blocks returned
  by `new[]` are separate vectors at arbitrary addresses; of each block only the `n * n`
  elements behind the aligned pointer are accessible; the console output is the number
  after "check:"; `sqrt` is an arbitrary function; C78 and C79 assume that the automatic
  arrays of the kernels happen to be 32-byte aligned.

## 3. Properties

M = modelled code, S = specification, P = proof idea.

| id | plan |
|----|------|
| C01 C02 | M `naive.hpp` as `par` over rows. S `rowMajor N (fun i j => dot ..)`. P the row tasks have disjoint footprints, general theorem "disjoint footprints => every interleaving equals sequential execution", then per-cell evaluation. |
| C03 | Same model with arbitrary lengths: invariant over all reachable configurations that no task ever fails with `oob`; if a vector is short, some task cannot complete. |
| C04 C05 C06 | M `kernel.hpp`. P update-list semantics of loop nests; for C05 invariant over the loop with early exit. |
| C07 C08 | M `kernel_transposed_blocked` with the eight named accumulators. P update list, blocked dot product; necessity by locating the first out-of-range access. |
| C09 | M `multiplier.cpp`. P case split onto C04, C06, C07. |
| C10 C11 C14 | M `recursive.cpp`, `single.cpp` as recursion in `ND`. P strong induction on block size. |
| C12 C13 | Same model; general theorems about wrong results (option text / arbitrary sizes). |
| C15-C21 | M `create_schedule` as fuelled while loop over explicit state; the double comparison is an arbitrary predicate. P measure (sum of cubes), loop invariants (disjoint, area, loads). |
| C22 C23 | M `static_improved::matrix_multiply`. P from C10, C16, C17. C23: the two empty schedules by evaluating the model; in general from C18, C21 (a most loaded locality with a nonempty package could be split), counting cells and the parity of the loads. |
| C24 C25 | M `algorithms.hpp`. P as C01 plus blocked dot product; necessity by locating the failing access in some task. |
| C26 C27 | M `looped.hpp`. P iterator enumeration, per-cell order of `k` ascending; counting argument for C27. |
| C28 | M the three `increment` functions. P mixed-radix counter. |
| C29-C31 | M `index_iterator.hpp` for arbitrary dimension/levels as fork/join tree. P permutation of grid by induction over levels. |
| C32 C33 | M `semi.cpp` on top of the `index_iterator` model. |
| C34-C36 | M `combined.cpp` on top of the `index_iterator` model with the ten named SIMD accumulators and the flag. |
| C37 C38 C40 C41 | M `kernel_tiled.cpp`. |
| C39 | M `kernel_test.cpp`. Both directions. |
| C42-C46 | M `memory_layout`. |
| C47 | M `proposal.cpp`. |
| C48 C49 C57 | M `util`. |
| C50-C52 | M driver `matrix_multiply.cpp`. |
| C53 C64 | M `aligned_allocator.hpp` with `std::align` as specified by the standard; the heap is a list of blocks, `new[]` returns any block apart from those in use. |
| C54-C56 | M `otherExperiments` kernels. |
| C58 | agreement of all algorithms, from the individual results. |
| C59 | the sizes for which each algorithm is defined at all. |
| C60 | the driver's check on the domain of every algorithm, from C51 and the individual results; repeated accumulation by C35. |
| C61 C62 | M driver: `--help` path and exit status. |
| C63 | M the benchmark's `align` on 64-bit words. |
| C65 | M `multExchanged.cpp` with its three blocking levels and the stack copies. P update lists of the loop nests; sizes that are no multiple of 128 by locating the first access outside. |
| C66 | M `multGPU.cpp`. S the order of summation (four interleaved partial sums per block) in `SpecExperiments.lean`. |
| C67 C68 | M `multGPUASM.cpp`, `multRegister.cpp` for both values of the FMA macro; stack alignment is a parameter. |
| C69 | M `multIntrinLoop.cpp`; alignment of the matrices is a parameter. |
| C70 | M `multASM.cpp` as a small register machine; the loop is proved by an invariant on registers. |
| C71 | agreement, from C65-C70. |
| C72 | M as C15, C22. P the scheduling loop stops at once, because the only locality is both the most and the least loaded one; the distributed program then reduces to the single-node one, compared as outcome sets. |
| C73 C75 | M `src/tests`: `hpx_main` of the tests, the comparison loops and the table of random tests. P from the results of the individual algorithms; `C73_compares` from C01, C02 and the comparison loop alone. |
| C74 | Same model, from C59. |
| C76 | Same model with `create_random_matrix`; the generator restarts in every call. |
| C77 | Same model, from C12. |
| C78 C79 | M `main` of `benchmark.cpp` on top of the kernel models and of `align` (C63). P from C54-C56, C63, C65-C70; dot products with a row of the identity matrix contain one nonzero term. |
| C80 | Same model. P the sum of squares is a sum over the list of elements. |
| C81 C82 | M `learning/MetaProgrammingCPP.cpp`: the recursive template is a recursion over `dim`, the function object a state copied into every call, its effects a fold over a world. P induction over the dimension. |
| C83 | M driver. P from C84, C50, C40 and C12. |
| C84 | M driver with any arithmetic. P the individual results for any arithmetic (for pseudodynamic with input blocking: each entry is accumulated as for the leaf that contains it, `C22_pseudodynamic_entries`); a dot product with a column of the identity, blocked or not, contains one product that is not with 0. |
| C85 | M all algorithms with any arithmetic, S `SpecRounding` (standard model: relative error `u` per operation, underflow `η` per product, no overflow up to `Ω`). P induction over dot products: after each operation the error of a sum of `m` products with `n` roundings is at most `bound n m W`; blocked sums have `bs + 1 + nb` roundings; the padding contributes products 0. |
| C86 | M test programs. P C85 for the algorithm and for the reference; `(1 + u)^n ≤ 1 + 2nu` for `2nu ≤ 1`. |
| C87 | M all algorithms with any arithmetic, S `SpecIntegers` (the arithmetic is exact as long as operands and results are integers up to a limit). P every partial sum of a dot product in any blocking is an integer of absolute value at most the sum of the absolute values of the products; induction over `dotFrom`, `bdotFrom`, `repeatDot`. |
| C88 | M `Model/TestsInverse` (the literals as integers with a number of decimal digits). P size 2: C87 and evaluation of the integer product; sizes 4, 8: C85 and evaluation of the integer product of the literals, which differs from the identity by at most 7E-10; `C88_naive_compares` from C01 and the comparison loop. |
| C89 | M `Model/TestsTiles`. P C42-C44 for the 256 x 256 matrix with tiles 4 x 4; invariant of the lambda's counters and flags over the 4096 tiles; the 64 reference values by evaluation; `C89_iterate_tiles_seen` by induction over the calls. S `tileChecks`: what the checks of a tile compare, for any matrix. |
| C90 | M `Model/Async`: the recursion as one fork/join tree over one memory with a region per call. P footprints: a call stays inside its region, a continuation reads the region of its call and writes its quadrant of the caller's vector; induction on the block size with the separation rules of `Core/Drf`; the values are those of `Model/Recursive`. |
| C91 | S `SpecRuns` (infinite runs, ends of runs). P every step decreases the tree in a well-founded order; progress; then C01, C02, C24, C90. |
| C92 C93 | Same model as C22. P the packages are disjoint and inside (C16), so the insertions are independent updates; a split never covers new cells, the first split of an odd size loses the last row and column. |
| C94 | Same models as C10, C22. P induction on the block size: given one outcome per child the continuations are independent updates; the checked kernel always returns (C05). |
| C95 | Models `Async.single_matrix_multiply`, `Async.improved` of C90. S equality of the sets of outcomes. P errors of the leaves are always out of bounds (`Act.Errs`), a leaf either always returns or never (`Act.Uniform`), a failing task stops every run; for the remaining inputs C90. |
| C96 | Models of C34, C37, C39, C54–C56, C65–C70; S `EveryRun` of `SpecRuns`. P C91 (finite runs, ends) with the race-freedom and single outcome of those claims. |
| C97 | M `Model/Double` (values of `double`, operations, literals, the checks of tests and driver), S `SpecDouble` (exact extended numbers and rounding to 53 bits with exponents from -1074), `SpecRounding`, `SpecIntegers`. P the rounded number is an integer multiple of the last bit, no double is nearer; relative error `2^-53` unless the result is subnormal, sums of doubles that are subnormal are exact; integers up to `2^53` are representable; then C84, C86, C88. |
| C98 | M `Model/DoubleUse` (the conversions, `std::ceil`, quotients and comparisons of `index_iterator.hpp` and `static_improved.cpp` with the doubles of C97), S smallest number of blocks, `Extent`. P rounding does not cross a double: the quotient `a / b` lies above `n - 1` by at least `1 / b`, the rounding error is below `2^-53 * a / b < 1 / b`; the blocks of a level are the ranges of the next one; a rounded quotient below a double bound was below it before rounding. |
| C99 | M the ten kernels of `otherExperiments` (C54, C55, C65 to C70) with any arithmetic, S `SpecSum` (orders of summation as trees over the products), `SpecRounding`, `SpecIntegers`. P induction over the trees with the lemmas of C85 and C87; the orders of the kernels are explicit trees whose products are a permutation of `0..n-1`. |
| C100 | M `Size64`: naive.hpp, transpose_matrix.hpp, the printing of square matrices and `hpx_main` with index arithmetic modulo 2^64 (the algorithms called by `hpx_main` and the part after HPX are those of `Driver`). P below 2^32 all indices are below 2^64, so both models agree; from 2^32 on some pair `(i, j)` has an index equal to the wrapped size of the vector. |
| C101 | M `Report` (the expressions for operations and performance with the doubles of C97), all algorithms of C01, C02, C10, C22, C24, C26, C32, C35, C37, C39, C54–C56, C65–C70 with scalars `Expr`. S `SpecOps`: expressions over matrix entries and their operations; `Performs`: every execution returns the same expressions. P the theorems on those algorithms hold for any arithmetic, so also for expressions; the operations of `dot`, `bdot`, `quarterBlocksDot` by induction. Doubles: relative error per operation (C97), exactness by representability. Only operations that contribute to the result are counted. |
| C102 | M the fork/join programs of C91 and C96 unchanged. S `SpecMemory`: accesses with the values read and written, positions of an execution and the order "happens before" on them, visible side effects, data races, final memory; `CppRuns`. P both directions for every fork/join program: a consistent execution without race is replayed by interleaving its parts one after the other; the accesses before the first race form a smaller consistent execution that ends in a race of the interleaving semantics; conversely each step of an interleaving appends an access, which reads a visible value unless it races. Then the results of C91 and C96 carry over, and `combined` for N > 256 is undefined by C36. |
| C103 | M `Kernels64`, `Variants64`, `Tiled64`, `Driver64`: kernel.hpp, multiplier.cpp, recursive.cpp, static_improved.cpp, index_iterator.hpp, looped.hpp, algorithms.hpp, semi.hpp, the tiled algorithms, kernel_test and the driver again, all `size_t` arithmetic modulo 2^64, loops with steps as `for64`. S results of the model with natural numbers, products, `NoWrap` (sizes below 2^31, and for `looped` both counts below 2^64). P bounds on every intermediate value (indices, loop variables after the last increment, block corners, padded sizes) show that no reduction changes anything, expression by expression, up to equality of the outcomes of the whole program; for `looped` the number of steps executed is the product of the two reduced counts, and the all-ones matrices count them. |
| C104 | M the checks of C51 and C86 with the doubles of C97 (`Double.small`; `Double.smallEq` for versions of Boost that accept the tolerance itself). S finiteness and exact values of doubles, exact sums of products. P a difference is finite only if both numbers are; rounding is monotone and keeps the tolerance, a double, so a rounded difference below it comes from an exact one below it; for the tests the bound of C85 for the reference is added. |
| C105 | M the algorithms, the driver and the tests, run with formulas (`Term`, an instance of `Arith`) in place of numbers: the result is what the source text asks for, symbolically. S `Term.Fast`, the laws by which `-ffast-math` lets the compiler rewrite sums, `Term.Computes`, the doubles a formula may yield, `FastResult`, a result of the compiled program; `Sums`, the products an entry has to consist of. P the rules keep the multiset of products and connect all sums with the same multiset (C105_rules); each algorithm adds up the right products by its theorem over `[Arith α]`, with products of zeros where it pads; induction over the formula bounds the error by that of `N + 1` roundings (a sum with a zero is exact), and gives exact values where all partial sums are doubles (integers, and the identity matrix of the driver); the checks follow as in C86 and C97. |
| C106 | M `Model/Reciprocal.lean`: `iterate_indices` and `combined` with the number of blocks computed by `x / y` or by `x * (1 / y)` (IEEE doubles, each operation rounded), chosen by a parameter that may depend on the bounds, the blocks and the dimension. S the least number of blocks that covers a range; the dot products of C35, repeated. P error of two roundings, below one for ranges below 2^52, so that the ceiling is right or, if the block divides the range, one too large; exact for powers of two (the product then lies within half an ulp). With a block too many the serial part of `dim_index_iterator` stays at the last block (`blockPos`), so each surplus task repeats it; running the tasks one after the other is an interleaving with the stated outcome; stopping two of them before the same write is the race. |
| C107 | M as for C09, C10 and C22, nothing new. S `SpecHalving`: `leafSize`, `extent` and `source` (size of the smallest blocks, rows reached, which entry lies where), `leafEntry` (an entry whose input blocks may run into the next rows), `LeafIn` (they end inside the matrices), `HalvesTo`, `InputFits`. P the blocked kernel for input blocks whose elements all exist, in whichever row; induction over the size for the recursion, one quarter after the other; if a block fails, the last one does, and all failures are accesses out of bounds. For the converse of the equivalences: ones, whose product has no zero, against a position that no block fills; and a pair of matrices with one entry each in the row after a block, whose product is zero in the block, against an input block that runs into that row. |
| C108 | M `Model/Console.lean`: the text written to the standard output with `--verbose=0`, as a list of characters, from the options, the outcome of the model of the driver, the measured times and `operator<<` for doubles (parameters); the command lines of evaluate.py. S `SpecConsole.lean`: `Matches`, `Reads` (first match of `key(.*?)stop`, shortest group, no end of line), `Unreadable`, `Occurs`, `Numeral`, `Plain`. P a text is quiet for a key if the key cannot begin in it whatever follows; all parts before the one looked for are quiet; C62, C51 and C83 for the outcomes. Not covered: `--verbose` above 0, `--help`, runs that end with an exception, and what the program does with the undeclared option `--small-block-size` of evaluate.py. |
| C109 | M as for C26 and C27, nothing new. S written out in the theorem: conditions on `N`, `block_result` and `block_input` and the partial sums (`dot`). P the indices visited are the first blocks of the iterator's order (`corner_eq`); they fill a box (`blocks_spec`, `box_result`) or contain an index below the last row (`mm_oob`). |
| C110 | M as for C01, C24–C39, C47 and C107, nothing new. S `SpecDomain.Multiplies`: every execution returns the product, for all matrices of exactly `N * N` elements. P the properties named give what happens outside the domain; matrices that are 1 in the last column (or the identity) tell the product from every other result. |
| C111 | M as for C15–C21, nothing new. S `SpecBalance`: `splits` (how often a square can be split), `busy`; `Extent`, `Balanced` and `Iter` of `SpecSchedule`. P each iteration lowers the sum of `splits` over all packages by exactly one, adds three packages and at most one busy locality; the quality follows from C18 and C21. |
| C112 | M as for C50 (`main` with the default values of `Opts`) and C110, nothing new. S `Multiplies` of `SpecDomain`; `usual` names the options that are given. P C110 gives the algorithm, C52 and C50 the driver around it; the sizes follow from arithmetic of powers of two. |
| C113 | M `Model/IteratorObjects.lean`: the objects of class `dim_index_iterator` with references to named vectors; construction, copy, assignment (which writes through the references), increment with unchecked element accesses, `std::equal` with three iterators. S `history` (the number of increments of each iterator), `walk`, prefixes of lists. P induction over the sequence of operations; the increment with references agrees with that of C28 if all lengths agree. |
| C114 | M as for C50, nothing new. S `OneOutcome` (a set of outcomes with exactly one element), `Unsettled` (kernel_test with a size outside C39). P C94, C24, C25, C32, C33, C35, C37 and C39 give the outcomes of the algorithms for all parameters, C50 and C61 the driver around them. |
| C115 | M as for C10, C22 and C97, nothing new. S `fixedOrder` (`bdot` or `dot`, independent of all other settings). P C09 for all block sizes `2^d q`, the schedule invariant of C17; for the negative part matrices with equal rows `2^53, 0, …, 1, 1, 0, …`, C72 for one computing locality, and C21 with the parity of the loads (C23) to find a package of fewer than four rows. |
| C116 | M as for C97 and C104, nothing new. S `Tiny`, `addUp` (iterated rounded addition). P dot products with a column of the identity on top of a running sum (sums of doubles are never `-0` unless both are), monotonicity of rounding for `addUp`, then C35, C107, C93, C109, C83 for the results and C104 for the check. |
| C117 | M `Model/Components.lean`: objects on localities, names as texts, `connect_to` as a nondeterministic choice among the registered objects, the list of computing localities as in the code; every computed block leaves an event with its place. S `elementsOn`, `halvings`, `computing`. P lookups are determined because all objects under one name agree (decimal numerals are injective); then induction over the recursion and the packages shows that the program is that of C10/C22 with a fixed list of events, which is counted. |
| C118 | M the same, with the two lines of `recursive.cpp` as events, and `print_schedule` as text. S `works`, `worksOfSize`, `larges`, `submatrices`. P induction over the halving; the text is read back line by line and number by number; C18 for the sums. |
| C119 | M the same, with an event for every vector that is passed to or returned from an object, naming both localities. S `sent`, `sentFromTo`. P the recursion only produces events within one locality (it looks its own locality up by name); sums over the schedule, C18 for their size. |
| C120 | M `Model/CommandLine.lean`: the declared options and defaults of `main`, how Boost.Program_options and HPX read arguments (assumptions listed there), `hpx_main` lines 61–76, and `main` after a rejected command line. S `SpecCommandLine.lean`: `Unsigned` (sign, zeros, decimal digits), `Says`, `Gives`, `Correct`, `Sets`, `Meaning`, the commands of README.md and evaluate.py as text. P the arguments read so far are the values of the arguments one by one, with different names; a list of digits is zeros followed by the decimal representation of its value; C50, C83. |
| C121 | M as in C119. S `passedOn`, `returned`. P recursion over the levels, sums over the schedule. |
| C122 | M `Model/TestSession`: the globals, every test as assignments, a call of `hpx_main` (any measured time) and checks. S `alone`, `inOrder`. P each test overwrites what it reads, so induction over the list of tests; C97, C89, C74 for the outcomes. |
| C123 | M the fork/join programs of C91 and C96 unchanged. S `SpecThreads`: a pool of threads (a thread takes a waiting task, works on it, and is free when it has returned; a task that waits for others occupies no thread, as with the lightweight threads of HPX), `EveryPoolRun`, `Grouped`. P a run of the pool is a run of the interleaving semantics with idle steps; a grouped program is simulated by the original one in which the tasks of a group run one after the other; with enough threads every run is a run of the pool; a race needs two busy threads. |
| C124 | M as in C123. S `UsesThreads`. P the number of busy threads is bounded by the number of tasks that can run at the same time (`Tree.width`, computed for each variant); a run that starts all of them exists, because the allocation before a parallel section does not fail and each part of the iteration of `combined` reaches an access. |
| C125 | M the commented-out lines semi.cpp:57–59 and 62 (`Semi.blocked_policy`, `Semi.blocked_matrix_multiply`); everything else as in C32. S product, outcomes. P the calls are the same grid points in an order that keeps the order within each entry if the steps divide the blocks; otherwise the last step in the last block reads behind the end of A. |
| C126 | M all multiplications as before. S `Plan`: formulas over zero, multiply-add, multiply-add of zeros and sum, with their value in any arithmetic and the list of their products; `ComputesBy` (a formula per entry), `ComputesSame` (one formula for all entries). P the orders of summation of C01, C02, C10, C24, C26, C32, C35, C37, C39 and C107 as formulas; induction over formulas for locality and homomorphisms. |
| C127 | M the IEEE doubles of C97. S `NaNProduct`, independent of the operations (C127_product: it is right). P NaN is absorbed by sum and multiply-add; C126. Not covered: what -ffast-math makes of NaNs. |
| C128 | M the nine multiplications and the IEEE doubles of C97. P from the entry formulas: adding a positive zero changes no partial sum because none is a negative zero; the limits by one pair of matrices for which the blocks of every size change all entries. S equality of the returned arrays, no tolerance. |
| C129 | M as C126, with the IEEE doubles of C97. S equations between the returned arrays; `Double.neg` changes the sign of the value. P one formula for all entries (C126); the double operations are symmetric in the factors and odd except for the sign of a zero, from the definition of rounding. |
| C130 | M as C126, with the IEEE doubles of C97. S `Monotonic`, `Scales`, in terms of the values of doubles. P rounding is monotone (by the exponent of the last bit and a power of two in between) and commutes with powers of two for multiples of the smallest normal number; induction over the formulas of C126. |
| C131 | M all multiplications, and the task model of C90. S `Parametric`, `ElementsDecideNothing`, `SameRaces`, in terms of outcomes, array elements and expressions (`Expr`). P relations on tasks, fork/join programs and sets of outcomes (Core/Param.lean), a simulation over the interleavings, then function by function (Proof/Param.lean). The model gives the programs no way to inspect an element except `zero`, `add`, `mac`; that the code has none either was checked by reading. |
| C132 | M the fork/join programs of all multiplications, the task model of C90. S `Endless`, `Stops`, `AlwaysFinishes`: infinite and maximal finite sequences of steps, without `ND` and its outcomes. P the steps of a program are well-founded (Core/Drf.lean), progress, and the outcomes of C01, C02, C24, C90 and the trees of `semi`, `kernel_tiled`, `combined`, `kernel_test`. |
| C133 | M `Exceptions`: the two exception classes with the lifetimes of the strings (Model/Exceptions.lean). S `Event`, `Happens`: what may happen to strings afterwards, and the literal texts. P the store after `what` equals the store before, in which no string was at the returned address; induction over the later events. Not modelled: running out of memory inside `what`, and what HPX does with an exception that leaves `hpx_main`. |
| C134 | M as C126, with the IEEE doubles of C97. S `ShowsFailure` (with the number of times that every product is taken), in terms of the values of doubles and explicit bounds. P a double beside a rational number that is rounded in the same way without overflow satisfies the standard model with every limit, so C85 applies to the pairs; as long as the double is finite, its value is the number beside it; the formulas of C126 say which elements are used. `C134_fast` proves the same for every formula that -ffast-math may evaluate in the sense of C105. Not covered: the assumption of -ffast-math that there are no NaN and infinities, and anything the compiler derives from it. |
| C135 | M the ten kernels of `otherExperiments` as in C99, with the IEEE doubles of C97. S `EntryRules`, `DoubleRules`, which collect the specifications of C127, C129, C130 and C134. P an order of summation is a formula in the sense of C126; a program that evaluates this formula on stored matrices agrees with the kernel by C99, and the general theorems of C127, C129, C130 and C134 apply to it. `C135_*_sums` give the formulas of the kernels, to which `C134_fast` applies. Not covered: the assumption of -ffast-math that there are no NaN and infinities. |
| C136 | M `Lifetime`: states of the calls of `distribute_recursively` with the vectors they own, and the steps between them; `single.cpp` and the packages of `static_improved.cpp` on top (Model/Lifetime.lean). S `held`, `heldSingle`, `together`, `nested` (SpecLifetime.lean): elements that exist in a state, and explicit sums. P invariants of the reachable states; a schedule with all leaves finished before any continuation; the first leaf of an execution has a running call on each level; a measure that decreases by one in each step. Not modelled: copies that HPX makes, stacks of the tasks. |
