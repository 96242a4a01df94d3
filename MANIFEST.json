{"claims": [
  {"property": "C01", "status": "proved", "theorems": ["Verif.Props.C01_naive", "Verif.Props.C01_naive_exact", "Verif.Props.C01_naive_raceFree"], "note": "All schedules, law-free and exact; race freedom."},
  {"property": "C02", "status": "proved", "theorems": ["Verif.Props.C02_naive_transposed", "Verif.Props.C02_naive_transposed_eq_naive"], "note": "All schedules; bit-identical to the plain variant."},
  {"property": "C03", "status": "proved", "theorems": ["Verif.Props.C03_naive_safe", "Verif.Props.C03_naive_returns", "Verif.Props.C03_naive_outcome", "Verif.Props.C03_naive_transposed_safe", "Verif.Props.C03_naive_transposed_returns", "Verif.Props.C03_naive_transposed_outcome"], "note": "Any vector lengths, all schedules, both variants."},
  {"property": "C04", "status": "proved", "theorems": ["Verif.Props.C04_kernel"], "note": "Law-free, all sizes and offsets."},
  {"property": "C05", "status": "proved", "theorems": ["Verif.Props.C05_kernel_total"], "note": "Arbitrary vectors and positions."},
  {"property": "C06", "status": "proved", "theorems": ["Verif.Props.C06_kernel_transposed"], "note": "Law-free."},
  {"property": "C07", "status": "proved", "theorems": ["Verif.Props.C07_kernel_blocked", "Verif.Props.C07_kernel_blocked_exact"], "note": "Law-free block order and exact version."},
  {"property": "C08", "status": "proved", "theorems": ["Verif.Props.C08_blocked_oob_result", "Verif.Props.C08_blocked_oob_input"], "note": "Both conditions of C07 are necessary."},
  {"property": "C09", "status": "proved", "theorems": ["Verif.Props.C09_calculate_submatrix", "Verif.Props.submatrixEntry_exact"], "note": "All flag combinations."},
  {"property": "C10", "status": "proved", "theorems": ["Verif.Props.C10_single", "Verif.Props.C10_single_pow2_exact"], "note": "All schedules of the continuations at every level; general sizes 2^e*s and powers of two."},
  {"property": "C100", "status": "proved", "theorems": ["Verif.Props.C100_naive", "Verif.Props.C100_naive_transposed", "Verif.Props.C100_transpose", "Verif.Props.C100_driver", "Verif.Props.C100_check_passes", "Verif.Props.C100_naive_large", "Verif.Props.C100_transpose_large", "Verif.Props.C100_driver_large", "Verif.Props.C100_sharp"], "note": "N below 2^32: the references, transpose_matrix and the program with index arithmetic modulo 2^64 have the results and outcomes of the model with natural numbers (the product, the transpose, a passed check); from 2^32 on: out_of_range in the program and the references, out-of-bounds access in transpose_matrix. The index arithmetic within the algorithms (dispatch) is that of natural numbers, see Sizes in DESIGN.md."},
  {"property": "C101", "status": "proved", "theorems": ["Verif.Props.C101_flops", "Verif.Props.C101_flops_sharp", "Verif.Props.C101_flops_error", "Verif.Props.C101_performance", "Verif.Props.C101_benchmark", "Verif.Props.C101_benchmark_zero", "Verif.Props.C101_naive", "Verif.Props.C101_looped", "Verif.Props.C101_algorithms", "Verif.Props.C101_semi", "Verif.Props.C101_single", "Verif.Props.C101_pseudodynamic", "Verif.Props.C101_combined", "Verif.Props.C101_kernel_tiled", "Verif.Props.C101_kernel_test", "Verif.Props.C101_experiments", "Verif.Props.C101_experiments_quarters", "Verif.Props.C101_blocked4", "Verif.Props.C101_ignored"], "note": "Operations counted in the expressions (type Expr) that every execution returns; doubles as in C97."},
  {"property": "C102", "status": "proved", "theorems": ["Verif.Props.C102_defined_iff", "Verif.Props.C102_memories", "Verif.Props.C102_errors", "Verif.Props.C102_runs_iff", "Verif.Props.C102_naive", "Verif.Props.C102_naive_transposed", "Verif.Props.C102_algorithms", "Verif.Props.C102_single", "Verif.Props.C102_improved", "Verif.Props.C102_improved_any", "Verif.Props.C102_improved_exact", "Verif.Props.C102_multNaive", "Verif.Props.C102_multCounter", "Verif.Props.C102_multBlocked2", "Verif.Props.C102_multBlocked4", "Verif.Props.C102_multExchanged", "Verif.Props.C102_multGPU", "Verif.Props.C102_multGPUASM", "Verif.Props.C102_multRegister", "Verif.Props.C102_multIntrinLoop", "Verif.Props.C102_multASM", "Verif.Props.C102_kernel_tiled", "Verif.Props.C102_kernel_test", "Verif.Props.C102_combined", "Verif.Props.C102_combined_undefined"], "note": "equivalence of both semantics for all fork/join programs; then the programs of C91 and C96, and undefined behaviour of combined for N > 256"},
  {"property": "C103", "status": "proved", "theorems": ["Verif.Props.C103_single", "Verif.Props.C103_pseudodynamic", "Verif.Props.C103_algorithms", "Verif.Props.C103_semi", "Verif.Props.C103_combined", "Verif.Props.C103_kernel_tiled", "Verif.Props.C103_kernel_test", "Verif.Props.C103_looped", "Verif.Props.C103_single_exact", "Verif.Props.C103_pseudodynamic_exact", "Verif.Props.C103_algorithms_exact", "Verif.Props.C103_semi_exact", "Verif.Props.C103_combined_exact", "Verif.Props.C103_kernel_tiled_exact", "Verif.Props.C103_kernel_test_exact", "Verif.Props.C103_looped_zero", "Verif.Props.C103_looped_iff", "Verif.Props.C103_looped_exact", "Verif.Props.C103_driver", "Verif.Props.C103_check_passes", "Verif.Props.C103_driver_large"], "note": "Equality of the outcomes with those of the model with natural numbers for sizes below 2^31, for each algorithm and the whole program; products as corollaries; looped: exact domain (iff) and the zero matrix when a count is a multiple of 2^64. proposal keeps natural numbers. The sizes from 2^31 to 2^32 - 1 (more than 2^65 bytes per matrix) are only covered for the references and the driver (C100)."},
  {"property": "C104", "status": "proved", "theorems": ["Verif.Props.C104_sound", "Verif.Props.C104_complete", "Verif.Props.C104_driver_passed", "Verif.Props.C104_driver_failed", "Verif.Props.C104_random_test", "Verif.Props.C104_test_passed"], "note": "Converse of C97: what follows from a passed check for whatever matrix is compared. BOOST_CHECK_SMALL may or may not accept the tolerance itself."},
  {"property": "C105", "status": "proved", "theorems": ["Verif.Props.C105_rules", "Verif.Props.C105_naive", "Verif.Props.C105_naive_transposed", "Verif.Props.C105_single", "Verif.Props.C105_single_pow2", "Verif.Props.C105_pseudodynamic", "Verif.Props.C105_algorithms", "Verif.Props.C105_looped", "Verif.Props.C105_semi", "Verif.Props.C105_combined", "Verif.Props.C105_kernel_tiled", "Verif.Props.C105_kernel_test", "Verif.Props.C105_bound", "Verif.Props.C105_bound_repeated", "Verif.Props.C105_integers", "Verif.Props.C105_driver", "Verif.Props.C105_tests", "Verif.Props.C105_source", "Verif.Props.C105_order"], "note": "Sums may be commuted, reassociated and freed from zeros, products fused or not; the distributive law is not used by the compiler in this model. C105_driver and C105_tests let the compiler choose differently for the algorithm and the reference."},
  {"property": "C106", "status": "proved", "theorems": ["Verif.Props.C106_count", "Verif.Props.C106_block_pow2", "Verif.Props.C106_count_pow2", "Verif.Props.C106_count_420", "Verif.Props.C106_combined", "Verif.Props.C106_combined_pow2", "Verif.Props.C106_combined_wrong", "Verif.Props.C106_combined_wrong_exact", "Verif.Props.C106_combined_1260", "Verif.Props.C106_race"], "note": "Each division is compiled as a division or as a product with the rounded reciprocal; the choice may depend on bounds, block and dimension. C106_combined_wrong and C106_race need the choice 'reciprocal' for the number of row blocks; they show that a wrong outcome and a race exist, not that every interleaving is wrong. Only combined is affected, as the other algorithms use one level and count no blocks. The race is shown for integer matrices with a nonzero entry in the last block."},
  {"property": "C107", "status": "proved", "theorems": ["Verif.Props.C107_block", "Verif.Props.C107_single", "Verif.Props.C107_single_ub", "Verif.Props.C107_source", "Verif.Props.C107_count", "Verif.Props.C107_single_iff", "Verif.Props.C107_pseudodynamic", "Verif.Props.C107_pseudodynamic_ub", "Verif.Props.C107_pseudodynamic_iff"], "note": "Complete: defined outcome, undefined outcome and equivalence for both variants. The equivalences quantify over all matrices of exactly N*N elements; C107_single and C107_pseudodynamic allow longer vectors. C107_source and C107_count say what source is."},
  {"property": "C108", "status": "proved", "theorems": ["Verif.Props.C108_times", "Verif.Props.C108_performance", "Verif.Props.C108_inner", "Verif.Props.C108_unknown", "Verif.Props.C108_verdict", "Verif.Props.C108_no_verdict", "Verif.Props.C108_evaluate", "Verif.Props.C108_unique"], "note": "The text is modelled for --verbose=0 and normal ends; the undeclared option --small-block-size of evaluate.py is left out. C108_times, C108_performance, C108_inner, C108_unknown: the regular expressions; C108_verdict, C108_no_verdict: the lines of the check; C108_evaluate: the runs of evaluate.py; C108_unique: a search has at most one result."},
  {"property": "C109", "status": "proved", "theorems": ["Verif.Props.C109_looped", "Verif.Props.C109_looped_exact", "Verif.Props.C109_looped_identity"], "note": "Complete case distinction for block sizes different from 0; block size 0 is C27_zero_block."},
  {"property": "C11", "status": "proved", "theorems": ["Verif.Props.C11_distribute_terminates"], "note": "Existence of an outcome and result length."},
  {"property": "C110", "status": "proved", "theorems": ["Verif.Props.C110_naive", "Verif.Props.C110_single", "Verif.Props.C110_pseudodynamic", "Verif.Props.C110_looped", "Verif.Props.C110_algorithms", "Verif.Props.C110_semi", "Verif.Props.C110_combined", "Verif.Props.C110_kernel_tiled", "Verif.Props.C110_kernel_test", "Verif.Props.C110_proposal"], "note": "All nine algorithms and both references. Matrices of exactly N*N elements. For pseudodynamic N > 0 and a schedule is assumed (C107_pseudodynamic_iff has N = 0)."},
  {"property": "C111", "status": "proved", "theorems": ["Verif.Props.C111_splits", "Verif.Props.C111_iterations", "Verif.Props.C111_busy", "Verif.Props.C111_one_worker", "Verif.Props.C111_two_workers", "Verif.Props.C111_quality"], "note": "Complete. The loads are the recorded ones (C18: they sum to N*N, and are the numbers of cells in the domain of C17)."},
  {"property": "C112", "status": "proved", "theorems": ["Verif.Props.C112_domain", "Verif.Props.C112_single", "Verif.Props.C112_pow2_single", "Verif.Props.C112_pow2_pseudodynamic", "Verif.Props.C112_pow2_fixed", "Verif.Props.C112_pow2_looped", "Verif.Props.C112_pow2_others"], "note": "Complete for the sizes stated."},
  {"property": "C113", "status": "proved", "theorems": ["Verif.Props.C113_one_range", "Verif.Props.C113_new", "Verif.Props.C113_assign", "Verif.Props.C113_redirected", "Verif.Props.C113_redirected_oob", "Verif.Props.C113_equal"], "note": "Objects with named references; the iterators of the program stay within one range, for which the value model of C28-C33 is proved faithful."},
  {"property": "C114", "status": "proved", "theorems": ["Verif.Props.C114_algorithm", "Verif.Props.C114_program", "Verif.Props.C114_unsettled", "Verif.Props.C114_localities"], "note": "Interleavings of sequentially consistent reads and writes, as everywhere; C102 has the memory model of C++."},
  {"property": "C115", "status": "proved", "theorems": ["Verif.Props.C115_pseudodynamic", "Verif.Props.C115_single", "Verif.Props.C115_reproducible", "Verif.Props.C115_pow2", "Verif.Props.C115_single_blocks", "Verif.Props.C115_localities"], "note": "The negative part uses the model of IEEE doubles of C97; N*N < 2^63 where the schedule is involved."},
  {"property": "C116", "status": "proved", "theorems": ["Verif.Props.C116_combined", "Verif.Props.C116_combined_noticed", "Verif.Props.C116_zero", "Verif.Props.C116_single_remainder", "Verif.Props.C116_pseudodynamic_odd", "Verif.Props.C116_looped", "Verif.Props.C116_block_result_zero"], "note": "Completes C104 and C97: the runs with wrong results. For combined with three or more repetitions only the necessary condition is stated."},
  {"property": "C117", "status": "proved", "theorems": ["Verif.Props.C117_names", "Verif.Props.C117_single", "Verif.Props.C117_pseudodynamic", "Verif.Props.C117_single_place", "Verif.Props.C117_place", "Verif.Props.C117_root_idle", "Verif.Props.C117_share", "Verif.Props.C117_share_exact"], "note": "HPX is an assumption: where components are created, where actions run, and that a lookup finds an object registered under the name (Model/Components.lean)"},
  {"property": "C118", "status": "proved", "theorems": ["Verif.Props.C118_single_silent", "Verif.Props.C118_pseudodynamic_silent", "Verif.Props.C118_single_lines", "Verif.Props.C118_pseudodynamic_lines", "Verif.Props.C118_pseudodynamic_work", "Verif.Props.C118_schedule_text", "Verif.Props.C118_schedule_sizes"], "note": "Lines of concurrent tasks are counted, their order is open"},
  {"property": "C119", "status": "proved", "theorems": ["Verif.Props.C119_single", "Verif.Props.C119_to", "Verif.Props.C119_from", "Verif.Props.C119_between", "Verif.Props.C119_total", "Verif.Props.C119_volume", "Verif.Props.C119_one"], "note": "Elements of vectors passed to and returned from components; ids, names and scalars are not counted."},
  {"property": "C12", "status": "proved", "theorems": ["Verif.Props.C12_block_result_zero"], "note": "Wrong-result theorem."},
  {"property": "C120", "status": "proved", "theorems": ["Verif.Props.C120_meaning", "Verif.Props.C120_accepted", "Verif.Props.C120_rejected", "Verif.Props.C120_order", "Verif.Props.C120_reachable", "Verif.Props.C120_range", "Verif.Props.C120_negative", "Verif.Props.C120_readme", "Verif.Props.C120_readme_combined", "Verif.Props.C120_evaluate"], "note": "Boost.Program_options and HPX are assumed to read the command line as listed in Model/CommandLine.lean; arguments of other forms (abbreviations, undeclared names, positional ones) are not covered. How a text is read as double is a parameter."},
  {"property": "C121", "status": "proved", "theorems": ["Verif.Props.C121_single", "Verif.Props.C121_volume", "Verif.Props.C121_pseudodynamic"], "note": ""},
  {"property": "C122", "status": "proved", "theorems": ["Verif.Props.C122_isolated", "Verif.Props.C122_second_run", "Verif.Props.C122_passes", "Verif.Props.C122_semi"], "note": "Boost.Test selects the tests and the order; starting and stopping HPX is a call of hpx_main; the static counters are unbounded."},
  {"property": "C123", "status": "proved", "theorems": ["Verif.Props.C123_threads", "Verif.Props.C123_ungrouped", "Verif.Props.C123_groups", "Verif.Props.C123_enough", "Verif.Props.C123_one", "Verif.Props.C123_naive", "Verif.Props.C123_naive_transposed", "Verif.Props.C123_algorithms", "Verif.Props.C123_single", "Verif.Props.C123_improved", "Verif.Props.C123_semi", "Verif.Props.C123_kernel_tiled", "Verif.Props.C123_kernel_test", "Verif.Props.C123_combined"], "note": "C123_threads and C123_ungrouped hold for every program of the model, the others are instances. The experiment kernels follow from C96 in the same way."},
  {"property": "C124", "status": "proved", "theorems": ["Verif.Props.C124_width", "Verif.Props.C124_naive", "Verif.Props.C124_algorithms", "Verif.Props.C124_semi", "Verif.Props.C124_single", "Verif.Props.C124_improved", "Verif.Props.C124_combined", "Verif.Props.C124_kernel_tiled", "Verif.Props.C124_kernel_test", "Verif.Props.C124_experiments"], "note": "UsesThreads states both bounds; C124_width is the general upper bound."},
  {"property": "C125", "status": "proved", "theorems": ["Verif.Props.C125_same", "Verif.Props.C125_exact", "Verif.Props.C125_oob", "Verif.Props.C125_breaks"], "note": "all executions, any arithmetic; C125_breaks is the exact set of block sizes"},
  {"property": "C126", "status": "proved", "theorems": ["Verif.Props.C126_naive", "Verif.Props.C126_naive_transposed", "Verif.Props.C126_single", "Verif.Props.C126_pseudodynamic", "Verif.Props.C126_pseudodynamic_pow2", "Verif.Props.C126_algorithms", "Verif.Props.C126_looped", "Verif.Props.C126_semi", "Verif.Props.C126_combined", "Verif.Props.C126_kernel_tiled", "Verif.Props.C126_kernel_test", "Verif.Props.C126_local", "Verif.Props.C126_hom", "Verif.Props.C126_pseudodynamic_same"], "note": "One formula for all entries (ComputesSame); pseudodynamic: whenever it is correct (C107), and for all powers of two, one formula per entry, and one for all entries without input blocks. C126_local and C126_hom hold for every program with ComputesBy."},
  {"property": "C127", "status": "proved", "theorems": ["Verif.Props.C127_product", "Verif.Props.C127_naive", "Verif.Props.C127_naive_transposed", "Verif.Props.C127_single", "Verif.Props.C127_pseudodynamic", "Verif.Props.C127_algorithms", "Verif.Props.C127_looped", "Verif.Props.C127_semi", "Verif.Props.C127_combined", "Verif.Props.C127_kernel_tiled", "Verif.Props.C127_kernel_test", "Verif.Props.C127_row", "Verif.Props.C127_column"], "note": "Source-order IEEE arithmetic; -ffast-math is not covered."},
  {"property": "C128", "status": "proved", "theorems": ["Verif.Props.C128_tiled", "Verif.Props.C128_blocked", "Verif.Props.C128_unblocked", "Verif.Props.C128_tiled_differs", "Verif.Props.C128_combined_iff", "Verif.Props.C128_kernel_tiled_iff", "Verif.Props.C128_fused", "Verif.Props.C128_algorithms_iff", "Verif.Props.C128_semi_iff", "Verif.Props.C128_kernel_test_iff"], "note": "C128_tiled, C128_blocked and C128_unblocked hold in every arithmetic; the _iff theorems are for doubles rounded after each operation. C128_tiled_differs and C128_kernel_test_iff also hold with fused operations."},
  {"property": "C129", "status": "proved", "theorems": ["Verif.Props.C129_select", "Verif.Props.C129_transpose", "Verif.Props.C129_symmetries", "Verif.Props.C129_signs", "Verif.Props.C129_naive", "Verif.Props.C129_naive_transposed", "Verif.Props.C129_single", "Verif.Props.C129_pseudodynamic", "Verif.Props.C129_pseudodynamic_signs", "Verif.Props.C129_algorithms", "Verif.Props.C129_looped", "Verif.Props.C129_semi", "Verif.Props.C129_combined", "Verif.Props.C129_kernel_tiled", "Verif.Props.C129_kernel_test"], "note": "pseudodynamic: C129_pseudodynamic without input blocks, where every entry has the same formula; with input blocks the formula depends on the package of the entry."},
  {"property": "C13", "status": "proved", "theorems": ["Verif.Props.C13_odd_loses_last"], "note": "Wrong-result theorem."},
  {"property": "C130", "status": "proved", "theorems": ["Verif.Props.C130_monotonic", "Verif.Props.C130_scales", "Verif.Props.C130_naive", "Verif.Props.C130_naive_transposed", "Verif.Props.C130_single", "Verif.Props.C130_pseudodynamic", "Verif.Props.C130_algorithms", "Verif.Props.C130_looped", "Verif.Props.C130_semi", "Verif.Props.C130_combined", "Verif.Props.C130_kernel_tiled", "Verif.Props.C130_kernel_test"], "note": "C130_monotonic and C130_scales hold for every program with ComputesBy (C126); one theorem per multiplication. pseudodynamic: whenever it is correct (C107)."},
  {"property": "C131", "status": "proved", "theorems": ["Verif.Props.C131_consequences", "Verif.Props.C131_naive", "Verif.Props.C131_naive_transposed", "Verif.Props.C131_single", "Verif.Props.C131_pseudodynamic", "Verif.Props.C131_algorithms", "Verif.Props.C131_looped", "Verif.Props.C131_semi", "Verif.Props.C131_semi_blocked", "Verif.Props.C131_combined", "Verif.Props.C131_kernel_tiled", "Verif.Props.C131_kernel_test", "Verif.Props.C131_races"], "note": "Relational parametricity of each modelled multiplication, including failing executions; C131_consequences derives the statements about outcomes, mappings, symbolic execution and closed sets. C131_races covers the parallel parts (single and static_improved in the model with all tasks at once). In the model the elements are accessible only through zero, add and mac, as in the code, where no comparison or conversion of an element occurs in the multiplications."},
  {"property": "C132", "status": "proved", "theorems": ["Verif.Props.C132_finite", "Verif.Props.C132_no_deadlock", "Verif.Props.C132_completed", "Verif.Props.C132_naive", "Verif.Props.C132_naive_transposed", "Verif.Props.C132_algorithms", "Verif.Props.C132_semi", "Verif.Props.C132_single", "Verif.Props.C132_pseudodynamic", "Verif.Props.C132_kernel_tiled", "Verif.Props.C132_combined", "Verif.Props.C132_kernel_test"], "note": "All interleavings; the scheduler itself (HPX, OpenMP) is the arbitrary choice of the next step."},
  {"property": "C133", "status": "proved", "theorems": ["Verif.Props.C133_dangling", "Verif.Props.C133_what_returns", "Verif.Props.C133_not_the_message", "Verif.Props.C133_text", "Verif.Props.C133_message_kept"], "note": "A defect in the code: the theorems show that the returned address is always dangling."},
  {"property": "C134", "status": "proved", "theorems": ["Verif.Props.C134_of", "Verif.Props.C134_naive", "Verif.Props.C134_naive_transposed", "Verif.Props.C134_single", "Verif.Props.C134_pseudodynamic", "Verif.Props.C134_algorithms", "Verif.Props.C134_looped", "Verif.Props.C134_semi", "Verif.Props.C134_combined", "Verif.Props.C134_kernel_tiled", "Verif.Props.C134_kernel_test", "Verif.Props.C134_fast"], "note": "Of -ffast-math the reorderings and fusions of C105 are covered by C134_fast; its assumption that there are no NaN and infinities is not made."},
  {"property": "C135", "status": "proved", "theorems": ["Verif.Props.C135_reordered", "Verif.Props.C135_same_order", "Verif.Props.C135_naive", "Verif.Props.C135_naive_sums", "Verif.Props.C135_transposed", "Verif.Props.C135_transposed_sums", "Verif.Props.C135_counter", "Verif.Props.C135_counter_sums", "Verif.Props.C135_blocked2", "Verif.Props.C135_blocked2_sums", "Verif.Props.C135_exchanged", "Verif.Props.C135_exchanged_sums", "Verif.Props.C135_gpu", "Verif.Props.C135_gpu_sums", "Verif.Props.C135_gpuasm", "Verif.Props.C135_gpuasm_sums", "Verif.Props.C135_register", "Verif.Props.C135_register_sums", "Verif.Props.C135_intrinLoop", "Verif.Props.C135_intrinLoop_sums", "Verif.Props.C135_asm", "Verif.Props.C135_asm_sums"], "note": "Of -ffast-math the reordering of sums and the fusing of operations are covered, its assumption that there are no NaN and infinities is not made."},
  {"property": "C136", "status": "proved", "theorems": ["Verif.Props.C136_amounts", "Verif.Props.C136_cells", "Verif.Props.C136_most", "Verif.Props.C136_most_reached", "Verif.Props.C136_least", "Verif.Props.C136_least_enough", "Verif.Props.C136_ordered", "Verif.Props.C136_ends", "Verif.Props.C136_single", "Verif.Props.C136_single_ends", "Verif.Props.C136_packages", "Verif.Props.C136_schedule"], "note": "Vectors are moved as in the source; copies that HPX makes while transporting them are not counted."},
  {"property": "C14", "status": "proved", "theorems": ["Verif.Props.C14_repetitions"], "note": "Equality of outcome sets for all parameters."},
  {"property": "C15", "status": "proved", "theorems": ["Verif.Props.C15_schedule_terminates"], "note": "create_schedule terminates within N^3 iterations for every comparison outcome"},
  {"property": "C16", "status": "proved", "theorems": ["Verif.Props.C16_schedule_disjoint"], "note": "inside and pairwise disjoint"},
  {"property": "C17", "status": "proved", "theorems": ["Verif.Props.C17_schedule_covers"], "note": "exactly one package per cell"},
  {"property": "C18", "status": "proved", "theorems": ["Verif.Props.C18_accounting", "Verif.Props.C18_accounting_exact"], "note": ""},
  {"property": "C19", "status": "proved", "theorems": ["Verif.Props.C19_monotone"], "note": "assumes N*N < 2^63 (int64 casts)"},
  {"property": "C20", "status": "proved", "theorems": ["Verif.Props.C20_min_work_size", "Verif.Props.C20_origin"], "note": "origin of every package and its smallest edge"},
  {"property": "C21", "status": "proved", "theorems": ["Verif.Props.C21_stops_for_reason"], "note": "assumes N*N < 2^63 (int64 casts)"},
  {"property": "C22", "status": "proved", "theorems": ["Verif.Props.C22_pseudodynamic", "Verif.Props.C22_pseudodynamic_entries", "Verif.Props.C22_pseudodynamic_exact", "Verif.Props.C22_pseudodynamic_pow2"], "note": "all localities, parameters, interleavings"},
  {"property": "C23", "status": "proved", "theorems": ["Verif.Props.C23_min_work_size_zero", "Verif.Props.C23_idle_locality", "Verif.Props.C23_many_localities"], "note": "two witness configurations with an empty result; general theorems for all N and all relative bounds"},
  {"property": "C24", "status": "proved", "theorems": ["Verif.Props.C24_algorithms", "Verif.Props.C24_algorithms_exact", "Verif.Props.C24_algorithms_raceFree"], "note": "any arithmetic and exact arithmetic, every interleaving; data-race freedom"},
  {"property": "C25", "status": "proved", "theorems": ["Verif.Props.C25_zero_block_result", "Verif.Props.C25_zero_block_input", "Verif.Props.C25_nondividing", "Verif.Props.C25_outcome"], "note": ""},
  {"property": "C26", "status": "proved", "theorems": ["Verif.Props.C26_looped", "Verif.Props.C26_looped_exact"], "note": "any arithmetic, equality with the transposed reference under every interleaving; plus exact arithmetic"},
  {"property": "C27", "status": "proved", "theorems": ["Verif.Props.C27_zero_block", "Verif.Props.C27_large_block", "Verif.Props.C27_nondividing", "Verif.Props.C27_not_product"], "note": ""},
  {"property": "C28", "status": "proved", "theorems": ["Verif.Props.C28_iterator_enumerates"], "note": "positions of the iterator after n increments"},
  {"property": "C29", "status": "proved", "theorems": ["Verif.Props.C29_visits_once"], "note": "any number of dimensions and levels, any parallel flags; Order ranges over all interleavings of the concurrent parts"},
  {"property": "C30", "status": "proved", "theorems": ["Verif.Props.C30_overrun", "Verif.Props.C30_overrun_general"], "note": "one-dimensional statement and its generalisation to any number of dimensions and levels"},
  {"property": "C31", "status": "proved", "theorems": ["Verif.Props.C31_bad_bounds", "Verif.Props.C31_bad_level", "Verif.Props.C31_bad_map"], "note": ""},
  {"property": "C32", "status": "proved", "theorems": ["Verif.Props.C32_semi", "Verif.Props.C32_semi_exact"], "note": "all outcomes; exact arithmetic version"},
  {"property": "C33", "status": "proved", "theorems": ["Verif.Props.C33_oob", "Verif.Props.C33_zero_block"], "note": "all outcomes"},
  {"property": "C34", "status": "proved", "theorems": ["Verif.Props.C34_combined", "Verif.Props.C34_combined_blocking", "Verif.Props.C35_combined"], "note": "all N, every interleaving; also for every valid blocking"},
  {"property": "C35", "status": "proved", "theorems": ["Verif.Props.C35_combined", "Verif.Props.C35_combined_exact", "Verif.Props.C35_product_iff"], "note": "any arithmetic and exact"},
  {"property": "C36", "status": "proved", "theorems": ["Verif.Props.C36_race", "Verif.Props.C36_elements_disjoint", "Verif.Props.C36_small_raceFree"], "note": "race reached for N>256, no race on elements, none at all for N<=256"},
  {"property": "C37", "status": "proved", "theorems": ["Verif.Props.C37_kernel_tiled", "Verif.Props.C37_kernel_tiled_exact", "Verif.Props.C37_kernel_tiled_zero", "Verif.Props.C37_kernel_tiled_raceFree"], "note": "kernel_tiled returns A*B for every N, flag and repetitions >= 1 in every interleaving; zero matrix for 0 repetitions; data-race free. Block sizes are parameters of the general theorem; the C++ constants are KernelTiled.blocking."},
  {"property": "C38", "status": "proved", "theorems": ["Verif.Props.C38_kernel_tiled_flag", "Verif.Props.C38_kernel_tiled_iff", "Verif.Props.C38_kernel_tiled_differs", "Verif.Props.C38_kernel_test_flag", "Verif.Props.C38_kernel_test_iff", "Verif.Props.C38_kernel_test_differs"], "note": "Independence of the flag for both kernels; exact condition under which the result agrees with the transposed reference; existence of differing inputs for every (safe) N >= 2."},
  {"property": "C39", "status": "proved", "theorems": ["Verif.Props.C39_kernel_test", "Verif.Props.C39_kernel_test_exact", "Verif.Props.C39_kernel_test_ub", "Verif.Props.C39_kernel_test_iff", "Verif.Props.C39_kernel_test_zero", "Verif.Props.C39_kernel_test_raceFree"], "note": "Exact characterisation of the sizes for which kernel_test is defined; product on those, UB in every execution otherwise."},
  {"property": "C40", "status": "proved", "theorems": ["Verif.Props.C40_padding", "Verif.Props.C40_completes", "Verif.Props.C40_verify", "Verif.Props.C40_verify_iff", "Verif.Props.C40_proposal_padding", "Verif.Props.C40_proposal_completes", "Verif.Props.C40_proposal_verify"], "note": "Constructors of combined, kernel_tiled and proposal."},
  {"property": "C41", "status": "proved", "theorems": ["Verif.Props.C41_position_lt", "Verif.Props.C41_position_injective", "Verif.Props.C41_position_surjective", "Verif.Props.C41_tileA", "Verif.Props.C41_tileB", "Verif.Props.C41_extract", "Verif.Props.C41_roundtrip"], "note": "Bijectivity of the tiled position map, contents of tiled copies, extraction."},
  {"property": "C42", "status": "proved", "theorems": ["Verif.Props.C42_make_tiled", "Verif.Props.C42_position_lt", "Verif.Props.C42_position_injective", "Verif.Props.C42_wrong_length"], "note": "Any dimension; uninitialised index arrays are arbitrary."},
  {"property": "C43", "status": "proved", "theorems": ["Verif.Props.C43_tile_view"], "note": ""},
  {"property": "C44", "status": "proved", "theorems": ["Verif.Props.C44_iterate_tiles", "Verif.Props.C44_partition"], "note": ""},
  {"property": "C45", "status": "proved", "theorems": ["Verif.Props.C45_never_returns", "Verif.Props.C45_square", "Verif.Props.C45_more_rows", "Verif.Props.C45_fewer_rows", "Verif.Props.C45_inverse_iff"], "note": ""},
  {"property": "C46", "status": "proved", "theorems": ["Verif.Props.C46_palindrome", "Verif.Props.C46_two"], "note": ""},
  {"property": "C47", "status": "proved", "theorems": ["Verif.Props.C47_never_returns", "Verif.Props.C47_outcome", "Verif.Props.C47_short", "Verif.Props.C47_zeros"], "note": ""},
  {"property": "C48", "status": "proved", "theorems": ["Verif.Props.C48_transpose", "Verif.Props.C48_transpose_rect", "Verif.Props.C48_involution", "Verif.Props.C48_involution_rect", "Verif.Props.C48_short"], "note": ""},
  {"property": "C49", "status": "proved", "theorems": ["Verif.Props.C49_identity", "Verif.Props.C49_enumerating", "Verif.Props.C49_random", "Verif.Props.C49_neutral", "Verif.Props.C49_algorithms"], "note": "Identity, enumerating and random matrices are characterised for every N; multiplying by the generated identity with any of the twelve programs returns the other matrix (exact arithmetic, sizes where all are applicable); the algebraic neutrality holds for every N."},
  {"property": "C50", "status": "proved", "theorems": ["Verif.Props.C50_cases", "Verif.Props.C50_unknown", "Verif.Props.C50_rejected", "Verif.Props.C50_messages", "Verif.Props.C50_returns", "Verif.Props.C50_errors", "Verif.Props.C50_worker"], "note": "Every option combination is classified; unknown names, rejected flags and normal/abnormal outcomes are characterised exactly; workers do nothing."},
  {"property": "C51", "status": "proved", "theorems": ["Verif.Props.C51_check", "Verif.Props.C51_no_check", "Verif.Props.C51_missing_result", "Verif.Props.C51_nan"], "note": "The comparison is an arbitrary predicate."},
  {"property": "C52", "status": "proved", "theorems": ["Verif.Props.C52_references", "Verif.Props.C52_check_is_A", "Verif.Props.C52_undetected"], "note": "The references agree bit for bit for every arithmetic; kernel_tiled passes for both values of the flag in exact arithmetic."},
  {"property": "C53", "status": "proved", "theorems": ["Verif.Props.C53_alloc", "Verif.Props.C53_once", "Verif.Props.C53_empty", "Verif.Props.C53_destroy"], "note": "std::align as in the standard; heap as list of disjoint blocks"},
  {"property": "C54", "status": "proved", "theorems": ["Verif.Props.C54_naive", "Verif.Props.C54_naive_exact", "Verif.Props.C54_naive_twice", "Verif.Props.C54_naive_raceFree", "Verif.Props.C54_transposed", "Verif.Props.C54_counter", "Verif.Props.C54_counter_raceFree", "Verif.Props.C54_agree"], "note": ""},
  {"property": "C55", "status": "proved", "theorems": ["Verif.Props.C55_even", "Verif.Props.C55_raceFree", "Verif.Props.C55_odd"], "note": ""},
  {"property": "C56", "status": "proved", "theorems": ["Verif.Props.C56_result", "Verif.Props.C56_product_iff", "Verif.Props.C56_wrong", "Verif.Props.C56_oob"], "note": ""},
  {"property": "C57", "status": "proved", "theorems": ["Verif.Props.C57_print", "Verif.Props.C57_print_host_rect", "Verif.Props.C57_print_transposed", "Verif.Props.C57_print_transposed_rect", "Verif.Props.C57_print_rect_raises", "Verif.Props.C57_print_rect_iff"], "note": "Output is modelled as a list of tokens (element, separator, end of line)."},
  {"property": "C58", "status": "proved", "theorems": ["Verif.Props.C58_all_agree"], "note": "All twelve programs (nine algorithms, three of them in both transposition modes)."},
  {"property": "C59", "status": "proved", "theorems": ["Verif.Props.C59_single_ub", "Verif.Props.C59_driver_ub", "Verif.Props.C59_default_options"], "note": ""},
  {"property": "C60", "status": "proved", "theorems": ["Verif.Props.C60_check_passes", "Verif.Props.C60_combined_repetitions"], "note": ""},
  {"property": "C61", "status": "proved", "theorems": ["Verif.Props.C61_help", "Verif.Props.C61_help_kernel_tiled", "Verif.Props.C61_help_kernel_test"], "note": ""},
  {"property": "C62", "status": "proved", "theorems": ["Verif.Props.C62_exit_status"], "note": ""},
  {"property": "C63", "status": "proved", "theorems": ["Verif.Props.C63_align", "Verif.Props.C63_benchmark", "Verif.Props.C63_small"], "note": ""},
  {"property": "C64", "status": "proved", "theorems": ["Verif.Props.C64_copy_double_free", "Verif.Props.C53_destroy"], "note": ""},
  {"property": "C65", "status": "proved", "theorems": ["Verif.Props.C65_exchanged", "Verif.Props.C65_exchanged_exact", "Verif.Props.C65_raceFree", "Verif.Props.C65_oob"], "note": "block sizes as in the code; matrices, C and stack arrays do not overlap"},
  {"property": "C66", "status": "proved", "theorems": ["Verif.Props.C66_gpu", "Verif.Props.C66_gpu_exact", "Verif.Props.C66_raceFree", "Verif.Props.C66_oob"], "note": "summation order stated in SpecExperiments"},
  {"property": "C67", "status": "proved", "theorems": ["Verif.Props.C67_gpuasm", "Verif.Props.C67_gpuasm_exact", "Verif.Props.C67_noFma", "Verif.Props.C67_misaligned", "Verif.Props.C67_raceFree", "Verif.Props.C67_undefined"], "note": "zeros without FMA: for arithmetics with 0+0=0"},
  {"property": "C68", "status": "proved", "theorems": ["Verif.Props.C68_register", "Verif.Props.C68_register_exact", "Verif.Props.C68_noFma", "Verif.Props.C68_noFma_result", "Verif.Props.C68_crossed_exact", "Verif.Props.C68_noFma_wrong", "Verif.Props.C68_misaligned", "Verif.Props.C68_raceFree", "Verif.Props.C68_undefined"], "note": ""},
  {"property": "C69", "status": "proved", "theorems": ["Verif.Props.C69_intrinLoop", "Verif.Props.C69_intrinLoop_exact", "Verif.Props.C69_misaligned", "Verif.Props.C69_raceFree", "Verif.Props.C69_undefined"], "note": ""},
  {"property": "C70", "status": "proved", "theorems": ["Verif.Props.C70_asm", "Verif.Props.C70_asm_exact", "Verif.Props.C70_raceFree", "Verif.Props.C70_undefined", "Verif.Props.C70_oldCompiler"], "note": "assembler loop modelled instruction by instruction"},
  {"property": "C71", "status": "proved", "theorems": ["Verif.Props.C71_agree", "Verif.Props.C71_agree_exact"], "note": ""},
  {"property": "C72", "status": "proved", "theorems": ["Verif.Props.C72_schedule", "Verif.Props.C72_one_locality", "Verif.Props.C72_ub"], "note": "N*N < 2^63 because of the casts in create_schedule."},
  {"property": "C73", "status": "proved", "theorems": ["Verif.Props.C73_random_passes", "Verif.Props.C73_all_random", "Verif.Props.C73_compares"], "note": "Exact arithmetic; one locality."},
  {"property": "C74", "status": "proved", "theorems": ["Verif.Props.C74_semi_ub"], "note": "Any arithmetic."},
  {"property": "C75", "status": "proved", "theorems": ["Verif.Props.C75_fixed"], "note": "Exact arithmetic; one locality."},
  {"property": "C76", "status": "proved", "theorems": ["Verif.Props.C76_symmetric", "Verif.Props.C76_blind"], "note": "Commutative exact arithmetic."},
  {"property": "C77", "status": "proved", "theorems": ["Verif.Props.C77_swapped", "Verif.Props.C77_invisible"], "note": "Any arithmetic."},
  {"property": "C78", "status": "proved", "theorems": ["Verif.Props.C78_result", "Verif.Props.C78_main", "Verif.Props.C78_usage", "Verif.Props.C78_check"], "note": "Env.Laws is the set of six sums with 0, 1 and 2 that are exact."},
  {"property": "C79", "status": "proved", "theorems": ["Verif.Props.C79_blocked4", "Verif.Props.C79_zero", "Verif.Props.C79_blocked4_check", "Verif.Props.C79_zero_check", "Verif.Props.C79_register_check", "Verif.Props.C79_sqrt"], "note": ""},
  {"property": "C80", "status": "proved", "theorems": ["Verif.Props.C80_same", "Verif.Props.C80_squares", "Verif.Props.C80_permutation", "Verif.Props.C80_transpose"], "note": ""},
  {"property": "C81", "status": "proved", "theorems": ["Verif.Props.C81_calls"], "note": "A recursion over the dimension; the tuples are given by membership, order and number. The function object is copied into every call (by value), as in the code."},
  {"property": "C82", "status": "proved", "theorems": ["Verif.Props.C82_output", "Verif.Props.C82_main"], "note": "Stated for every bound n; main is the case 10."},
  {"property": "C83", "status": "proved", "theorems": ["Verif.Props.C83_documented", "Verif.Props.C83_combined", "Verif.Props.C83_sizes", "Verif.Props.C83_block_result_zero"], "note": "Parsing of the command line is not modelled; the options are given as values. README commands are the case N = 8192 = 2^13."},
  {"property": "C84", "status": "proved", "theorems": ["Verif.Props.C84_check_passes"], "note": "Same domain as C60. The assumptions on the arithmetic are the structure ExactForIdentity; doubles satisfy them (C97)."},
  {"property": "C85", "status": "proved", "theorems": ["Verif.Props.C85_naive", "Verif.Props.C85_naive_transposed", "Verif.Props.C85_single", "Verif.Props.C85_single_pow2", "Verif.Props.C85_pseudodynamic", "Verif.Props.C85_algorithms", "Verif.Props.C85_looped", "Verif.Props.C85_semi", "Verif.Props.C85_combined", "Verif.Props.C85_combined_repeated", "Verif.Props.C85_kernel_tiled", "Verif.Props.C85_kernel_test", "Verif.Props.C85_agree", "Verif.Props.C85_bound", "Verif.Props.C85_no_overflow"], "note": "The standard model of floating-point arithmetic as hypothesis (SpecRounding.lean); doubles satisfy it (C97)."},
  {"property": "C86", "status": "proved", "theorems": ["Verif.Props.C86_random_passes", "Verif.Props.C86_all_random"], "note": ""},
  {"property": "C87", "status": "proved", "theorems": ["Verif.Props.C87_naive", "Verif.Props.C87_naive_transposed", "Verif.Props.C87_single", "Verif.Props.C87_single_pow2", "Verif.Props.C87_pseudodynamic", "Verif.Props.C87_algorithms", "Verif.Props.C87_looped", "Verif.Props.C87_semi", "Verif.Props.C87_combined", "Verif.Props.C87_kernel_tiled", "Verif.Props.C87_kernel_test"], "note": "Exactness of the number type on integers is a hypothesis on the arithmetic (ExactOnIntegers); doubles satisfy it up to 2^53 (C97)."},
  {"property": "C88", "status": "proved", "theorems": ["Verif.Props.C88_inverse_2", "Verif.Props.C88_naive_2", "Verif.Props.C88_inverse", "Verif.Props.C88_naive", "Verif.Props.C88_naive_compares"], "note": "One locality, as in the test suites. The conversion of literals is a parameter (Literals); see C97 for doubles."},
  {"property": "C89", "status": "proved", "theorems": ["Verif.Props.C89_tile_view", "Verif.Props.C89_iterate_tiles", "Verif.Props.C89_tile_view_counter", "Verif.Props.C89_iterate_tiles_counter", "Verif.Props.C89_iterate_tiles_seen", "Verif.Props.C89_tile_view_compares", "Verif.Props.C89_iterate_tiles_compares"], "note": "The static counter of the lambda starts at 0 in the first run; the _counter theorems are about other starts."},
  {"property": "C90", "status": "proved", "theorems": ["Verif.Props.C90_single", "Verif.Props.C90_single_product", "Verif.Props.C90_single_pow2_exact", "Verif.Props.C90_improved", "Verif.Props.C90_improved_product", "Verif.Props.C90_improved_pow2_exact", "Verif.Props.C90_improved_entries", "Verif.Props.C90_improved_exact"], "note": "Agreement with the models of C10 and C22 for all inputs on which those return; product in the domains of C10 and C22."},
  {"property": "C91", "status": "proved", "theorems": ["Verif.Props.C91_finite", "Verif.Props.C91_end", "Verif.Props.C91_run", "Verif.Props.C91_naive", "Verif.Props.C91_naive_transposed", "Verif.Props.C91_algorithms", "Verif.Props.C91_single", "Verif.Props.C91_improved", "Verif.Props.C91_improved_any", "Verif.Props.C91_improved_exact"], "note": "C91_finite and C91_end hold for every program of the model; C91_run turns any theorem of the form prog = ND.pure v into a statement about complete runs."},
  {"property": "C92", "status": "proved", "theorems": ["Verif.Props.C92_uncovered_zero"], "note": "any parameters and inputs, all schedules"},
  {"property": "C93", "status": "proved", "theorems": ["Verif.Props.C93_odd_split"], "note": "assumes N*N < 2^63 (int64 casts), as C21"},
  {"property": "C94", "status": "proved", "theorems": ["Verif.Props.C94_single", "Verif.Props.C94_pseudodynamic"], "note": "any parameters and vectors of any length"},
  {"property": "C95", "status": "proved", "theorems": ["Verif.Props.C95_single", "Verif.Props.C95_single_error", "Verif.Props.C95_improved", "Verif.Props.C95_pseudodynamic_error"], "note": "Equality of the outcome sets for all inputs, including failing ones."},
  {"property": "C96", "status": "proved", "theorems": ["Verif.Props.C96_naive", "Verif.Props.C96_counter", "Verif.Props.C96_blocked2", "Verif.Props.C96_blocked4", "Verif.Props.C96_exchanged", "Verif.Props.C96_gpu", "Verif.Props.C96_gpuasm", "Verif.Props.C96_register", "Verif.Props.C96_intrinLoop", "Verif.Props.C96_asm", "Verif.Props.C96_kernel_tiled", "Verif.Props.C96_kernel_test", "Verif.Props.C96_combined"], "note": "EveryRun: no infinite run, no race, every maximal run finishes all tasks with the stated memory."},
  {"property": "C97", "status": "proved", "theorems": ["Verif.Props.C97_nearest", "Verif.Props.C97_standard_model", "Verif.Props.C97_integers", "Verif.Props.C97_integers_sharp", "Verif.Props.C97_no_overflow", "Verif.Props.C97_all_random", "Verif.Props.C97_inverse", "Verif.Props.C97_naive", "Verif.Props.C97_identity", "Verif.Props.C97_driver"], "note": "Operations are the exact results, rounded (SpecDouble, Model/Double); NaN payloads and exception flags are left out; whether an operation is fused may depend on its operands but not on the place in the program. BOOST_CHECK_CLOSE is modelled for zero differences only, which is all the tests need."},
  {"property": "C98", "status": "proved", "theorems": ["Verif.Props.C98_block_count", "Verif.Props.C98_block_zero", "Verif.Props.C98_block_count_sharp", "Verif.Props.C98_ceil", "Verif.Props.C98_iterate", "Verif.Props.C98_combined", "Verif.Props.C98_relative_zero", "Verif.Props.C98_relative", "Verif.Props.C98_schedule"], "note": "Doubles as in C97. The products of the numbers of blocks are natural numbers."},
  {"property": "C99", "status": "proved", "theorems": ["Verif.Props.C99_rounds", "Verif.Props.C99_bound", "Verif.Props.C99_integers", "Verif.Props.C99_exact", "Verif.Props.C99_doubles", "Verif.Props.C99_naive_order", "Verif.Props.C99_naive", "Verif.Props.C99_naive_integers", "Verif.Props.C99_transposed_order", "Verif.Props.C99_transposed", "Verif.Props.C99_transposed_integers", "Verif.Props.C99_counter_order", "Verif.Props.C99_counter", "Verif.Props.C99_counter_integers", "Verif.Props.C99_blocked2_order", "Verif.Props.C99_blocked2", "Verif.Props.C99_blocked2_integers", "Verif.Props.C99_exchanged_order", "Verif.Props.C99_exchanged", "Verif.Props.C99_exchanged_integers", "Verif.Props.C99_gpu_order", "Verif.Props.C99_gpu", "Verif.Props.C99_gpu_integers", "Verif.Props.C99_gpuasm_order", "Verif.Props.C99_gpuasm", "Verif.Props.C99_gpuasm_integers", "Verif.Props.C99_register_order", "Verif.Props.C99_register", "Verif.Props.C99_register_integers", "Verif.Props.C99_intrinLoop_order", "Verif.Props.C99_intrinLoop", "Verif.Props.C99_intrinLoop_integers", "Verif.Props.C99_asm_order", "Verif.Props.C99_asm", "Verif.Props.C99_asm_integers"], "note": "Order of summation of every kernel, error bound and exactness on integers for every order; C99_doubles instantiates with the IEEE doubles of C97. multBlocked4 (C56) and the variants without FMA (C67_noFma, C68_noFma_result) do not compute the product."}
]}
