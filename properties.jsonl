{"id": "C01", "title": "Reference multiplication returns the product under every thread schedule", "statement": "naive_matrix_multiply(N, A, B) on two row-major N x N matrices returns exactly the row-major matrix whose (i,j) entry is the left-to-right accumulation over k of A(i,k)*B(k,j) starting from 0; in exact arithmetic that is the matrix product A*B. The result does not depend on how the OpenMP runtime interleaves the rows, and no execution reports an error.", "quantifier": "for every N, all matrices A and B, every element type with arbitrary (also non-associative) + and *, and every interleaving of the individual reads and writes of the parallel row tasks", "why_tests_cant": "There are infinitely many sizes and inputs, and a test observes only a handful of thread interleavings.", "anchors": ["src/reference_kernels/naive.hpp: naive_matrix_multiply"]}
{"id": "C02", "title": "Transposed reference multiplication returns A times B-transposed under every schedule", "statement": "naive_matrix_multiply_transposed(N, A, Bt) returns the matrix whose (i,j) entry is the left-to-right accumulation over k of A(i,k)*Bt(j,k); it equals naive_matrix_multiply applied to the transposed second argument, bit for bit.", "quantifier": "for every N, all A, Bt, any arithmetic, every interleaving", "why_tests_cant": "Infinitely many inputs and interleavings; equality of two programs on all inputs.", "anchors": ["src/reference_kernels/naive.hpp: naive_matrix_multiply_transposed", "src/util/transpose_matrix.hpp: transpose_matrix"]}
{"id": "C03", "title": "Reference multiplication never touches memory outside its arguments, whatever sizes are passed", "statement": "For vectors A and B of arbitrary length, naive_matrix_multiply and naive_matrix_multiply_transposed either return (only possible when both vectors hold at least N*N elements) or std::out_of_range is thrown in one of the rows; they never perform an out-of-bounds access. If a vector is too short (and N > 0) every completed execution throws.", "quantifier": "for every N, every length of A and B, every interleaving", "why_tests_cant": "Memory safety has to hold for every length and schedule, a test only samples a few.", "anchors": ["src/reference_kernels/naive.hpp: naive_matrix_multiply"]}
{"id": "C04", "title": "Block kernel computes the requested block of the product", "statement": "kernel::kernel(A,B,C,N,x,y,bs) with the block inside the matrix (x+bs<=N, y+bs<=N) and C holding bs*bs elements overwrites C with the bs x bs block of A*B whose top-left corner is (x,y), entry by entry in the same accumulation order as the reference; the old contents of C do not matter.", "quantifier": "for every N, x, y, bs with the block inside the matrix, all A, B, C, any arithmetic", "why_tests_cant": "Unbounded sizes and offsets.", "anchors": ["src/reference_kernels/kernel.hpp: kernel::kernel"]}
{"id": "C05", "title": "Block kernel swallows out-of-range without corrupting memory", "statement": "kernel::kernel always returns normally, for arbitrary vector lengths and block positions: it never accesses memory out of bounds, never changes the length of C, and every element of C afterwards is either its old value or the accumulation of products the formula prescribes for that element. If it swallowed an exception the caller gets a partially filled block without any error indication in the result.", "quantifier": "for every N, x, y, bs and all vectors A, B, C of any length", "why_tests_cant": "Error path depends on unbounded combinations of lengths and offsets.", "anchors": ["src/reference_kernels/kernel.hpp: kernel::kernel (try/catch)"]}
{"id": "C06", "title": "Unchecked transposed block kernel is in bounds and correct for blocks inside the matrix", "statement": "kernel::kernel_transposed with the block inside the matrix and correctly sized vectors performs no out-of-bounds access and overwrites C with the block of A*Bt^T, bit-identical to the reference.", "quantifier": "for every N, x, y, bs with the block inside, all A, Bt, C, any arithmetic", "why_tests_cant": "Out-of-bounds reads often go unnoticed in tests; sizes unbounded.", "anchors": ["src/reference_kernels/kernel.hpp: kernel::kernel_transposed"]}
{"id": "C07", "title": "Cache-blocked kernel adds the right block when the block sizes divide", "statement": "kernel::kernel_transposed_blocked with block_input > 0 dividing N, block_result divisible by 4 and the block inside the matrix is memory safe and adds to every element of C the blockwise accumulated dot product; in exact arithmetic C becomes old C plus the block of A*Bt^T.", "quantifier": "for every N, x, y, block_result, block_input satisfying the divisibility conditions, all A, Bt, C", "why_tests_cant": "Unbounded block configurations; the 4x2 register blocking has to be right for all of them.", "anchors": ["src/reference_kernels/kernel.hpp: kernel::kernel_transposed_blocked"]}
{"id": "C08", "title": "Cache-blocked kernel is undefined when its block sizes do not divide", "statement": "With N > 0, block_input > 0 and correctly sized vectors, kernel_transposed_blocked performs an out-of-bounds access whenever block_result is not a multiple of 4 (block_result > 0), and whenever block_input does not divide N and the block touches the last row of A (x+block_result = N). So the divisibility conditions of C07 are necessary, not merely convenient.", "quantifier": "for every such configuration", "why_tests_cant": "An out-of-bounds read usually does not make a test fail.", "anchors": ["src/reference_kernels/kernel.hpp: kernel::kernel_transposed_blocked"]}
{"id": "C09", "title": "Submatrix action returns the block of the product for every flag combination", "statement": "multiplier::calculate_submatrix(x,y,bs) returns the bs x bs block at (x,y) of A*B (transposed=false) or A*B^T (transposed=true), whichever of the three kernels it dispatches to, provided the block lies inside the matrix and, in the one case that uses the blocked kernel (transposed, block_input != 0, bs >= 4), bs is a multiple of 4 and block_input divides N.", "quantifier": "for every N, A, B, x, y, bs, block_input, transposed satisfying the side condition", "why_tests_cant": "Dispatch conditions times unbounded sizes.", "anchors": ["src/variants/components/multiplier.cpp: calculate_submatrix"]}
{"id": "C10", "title": "Single-node recursive multiplication returns the product under every task schedule", "statement": "single::matrix_multiply (and the driver's algorithm=single) returns the product for every N whose repeated halving stays even until a size <= block_result is reached (in particular for all powers of two with block_result >= 1) and, where the cache-blocked kernel is selected (transposed, block_input != 0, leaf size >= 4), whose leaf size is a multiple of 4 and which is a multiple of block_input; independent of the order in which the four asynchronous quadrant tasks of each level complete and of how their write-back continuations interleave.", "quantifier": "for every N, block_result, block_input, transposed in the stated domain, all A, B, every completion order and interleaving at every recursion level", "why_tests_cant": "Exponentially many schedules and unbounded recursion depth.", "anchors": ["src/variants/single.cpp: single::matrix_multiply", "src/variants/components/recursive.cpp: distribute_recursively, extract_submatrix"]}
{"id": "C11", "title": "Recursive distribution always terminates and returns blockSize^2 values", "statement": "distribute_recursively(x,y,blockSize) has a result for every blockSize and block_result (also 0), and whenever it returns normally the result has exactly blockSize*blockSize elements.", "quantifier": "for all parameters, every schedule", "why_tests_cant": "Termination for all inputs cannot be tested.", "anchors": ["src/variants/components/recursive.cpp: distribute_recursively"]}
{"id": "C12", "title": "block-result 0 does not disable blocking but yields the zero matrix", "statement": "The option text says block-result can be set to 0 to disable blocking. With block_result = 0, single::matrix_multiply returns the all-zero N x N matrix for every N, all inputs and every schedule, so it is not the product whenever the product is non-zero.", "quantifier": "for every N, all A, B, every schedule", "why_tests_cant": "A universally quantified wrong result; a test shows one instance.", "anchors": ["src/variants/components/recursive.cpp: distribute_recursively", "src/matrix_multiply_application/matrix_multiply.cpp: option block-result"]}
{"id": "C13", "title": "Splitting an odd size loses the last row and column", "statement": "If N is odd and larger than block_result, the last element (N-1,N-1) of the result of single::matrix_multiply is 0 for all inputs and every schedule that completes normally; the power-of-two restriction in the help text is therefore necessary.", "quantifier": "for every odd N > block_result, all A, B, every schedule", "why_tests_cant": "Quantified over all inputs and schedules.", "anchors": ["src/variants/components/recursive.cpp: distribute_recursively, extract_submatrix"]}
{"id": "C14", "title": "Repetitions of the single-node algorithm do not change the result", "statement": "For any repetitions r >= 1 single::matrix_multiply returns the same matrix as for r = 1; for r = 0 it returns the zero matrix.", "quantifier": "for every r, N and inputs in the domain of C10, every schedule", "why_tests_cant": "Unbounded number of repetitions.", "anchors": ["src/variants/single.cpp: single::matrix_multiply"]}
{"id": "C15", "title": "The load-balancing schedule computation always terminates", "statement": "create_schedule(num_localities) terminates for every matrix size, number of localities >= 1 and all tuning parameters, within N^3 iterations.", "quantifier": "for every N, num_localities >= 1, min_work_size, max_work_difference and every outcome of the floating-point comparison", "why_tests_cant": "Termination of a while loop for all parameters.", "anchors": ["src/variants/static_improved.cpp: create_schedule, fulfills_constraints"]}
{"id": "C16", "title": "Scheduled work packages stay inside the matrix and never overlap", "statement": "In every schedule returned, all packages lie inside the N x N result and no two packages (on the same or different localities) share a cell, so the concurrent write-back tasks never write the same element.", "quantifier": "for every N, number of localities and all parameters", "why_tests_cant": "All reachable schedules of an unbounded loop.", "anchors": ["src/variants/static_improved.cpp: create_schedule"]}
{"id": "C17", "title": "Scheduled work packages cover the whole result", "statement": "If N = 2^e * q with q <= min_work_size, every cell of the N x N result belongs to exactly one package of the schedule.", "quantifier": "for every e, q, number of localities and all parameters with N = 2^e*q and q <= min_work_size", "why_tests_cant": "All reachable schedules; cover of all cells.", "anchors": ["src/variants/static_improved.cpp: create_schedule"]}
{"id": "C18", "title": "Work accounting is conserved", "statement": "During schedule computation the recorded loads always sum to N*N and no subtraction on them wraps around; in the domain of C17 each locality's recorded load equals the number of result cells assigned to it.", "quantifier": "for every iteration of every run, all parameters", "why_tests_cant": "Loop invariant over unbounded executions; wrap-around would be silent.", "anchors": ["src/variants/static_improved.cpp: create_schedule (total_work)"]}
{"id": "C19", "title": "Rebalancing never makes the imbalance worse", "statement": "Each redistribution step keeps the largest recorded load from growing and the smallest from shrinking; hence in the final schedule no locality has more recorded load than N*N and the spread is at most the initial one.", "quantifier": "for every step of every run, all parameters, N*N < 2^63 (the casts to int64_t keep the value)", "why_tests_cant": "Loop invariant over unbounded executions.", "anchors": ["src/variants/static_improved.cpp: create_schedule"]}
{"id": "C20", "title": "The minimum work size is respected", "statement": "Every package is either the whole matrix or the quarter (half the edge, rounded down, at one of the four positions) of a package whose edge was larger than min_work_size, which itself arose in this way; so no package has edge below (min_work_size+1)/2 (integer division), unless it is the whole matrix.", "quantifier": "for every schedule, all parameters", "why_tests_cant": "All reachable schedules.", "anchors": ["src/variants/static_improved.cpp: create_schedule"]}
{"id": "C21", "title": "The scheduler only stops for a reason", "statement": "When schedule computation ends, either the balance constraints hold for the final loads, or no package on any maximally loaded locality is both larger than min_work_size and splittable without increasing the difference to the least loaded locality.", "quantifier": "for every run, all parameters, N*N < 2^63 (the casts to int64_t keep the value)", "why_tests_cant": "All executions.", "anchors": ["src/variants/static_improved.cpp: create_schedule, fulfills_constraints"]}
{"id": "C22", "title": "Distributed multiplication returns the product for every number of localities and every schedule", "statement": "pseudodynamic/static_improved::matrix_multiply returns the full product in the domain of C17 when every package size is in the domain of C10, for any number of localities, any balancing parameters, any repetitions >= 1 and any completion order and interleaving of the distributed tasks and insert continuations.", "quantifier": "for every N = 2^e (block_result >= 1), localities, parameters, repetitions >= 1, inputs, schedules", "why_tests_cant": "Unbounded localities and interleavings.", "anchors": ["src/variants/static_improved.cpp: matrix_multiply, insert_submatrix", "src/variants/pseudodynamic.cpp"]}
{"id": "C23", "title": "With min-work-size 0 the scheduler drops cells, possibly the entire result", "statement": "With min_work_size = 0 the scheduler splits 1x1 packages into empty ones. With max_work_difference = 0 and a relative bound that is never met, on one computing locality with N = 1 and on two computing localities (three in total) with N = 2 the schedule contains no cell at all and the computed matrix is zero for all inputs. In general, with max_work_difference <= 1 and any relative bound: if a locality is left with recorded load 0, the most loaded localities get no cell and some cell of the result is in no package; this is the case whenever N*N + 1 is less than twice the number of computing localities, and then this cell is 0 in every result.", "quantifier": "for all inputs, every schedule; the general part for every N > 0 with N*N < 2^63, every number of localities and every outcome of the floating-point comparison", "why_tests_cant": "Shows the precondition of C17 is necessary; needs all schedules.", "anchors": ["src/variants/static_improved.cpp: create_schedule (min_work_size, emplace_back)"]}
{"id": "C24", "title": "Algorithm 'algorithms' returns the product when its block sizes divide N", "statement": "algorithms::matrix_multiply with block_result > 0 and block_input > 0 both dividing N is memory safe and returns A*Bt^T, for every interleaving of the parallel block tasks.", "quantifier": "for every N, block_result | N, block_input | N, all A, Bt, every interleaving", "why_tests_cant": "Unbounded sizes and schedules.", "anchors": ["src/variants/algorithms.hpp: algorithms::matrix_multiply, dim_index_iterator, index_iterator"]}
{"id": "C25", "title": "Algorithm 'algorithms' has no valid behaviour for non-dividing block sizes", "statement": "With correctly sized inputs and N > 0: block_result = 0 divides by zero; block_input = 0 never terminates; block_result not dividing N or block_input not dividing N makes some task access memory out of bounds. So no completed execution exists outside the domain of C24.", "quantifier": "for every N > 0 and every block_result, block_input outside the domain, all inputs, every interleaving", "why_tests_cant": "Undefined behaviour and non-termination are not observable by tests.", "anchors": ["src/variants/algorithms.hpp: algorithms::matrix_multiply"]}
{"id": "C26", "title": "Algorithm 'looped' is bit-identical to the transposed reference when its blocks divide N", "statement": "looped::matrix_multiply with block_result > 0, block_input > 0 dividing N returns exactly (same rounding, for any arithmetic) the result of naive_matrix_multiply_transposed.", "quantifier": "for every N, block sizes dividing N, all A, Bt, any arithmetic", "why_tests_cant": "Bit-identity over all inputs and sizes.", "anchors": ["src/variants/looped.hpp: looped::matrix_multiply, iterate_indices, dim_index_iterator"]}
{"id": "C27", "title": "Algorithm 'looped' is wrong or undefined whenever a block size does not divide N", "statement": "If block_result > N or block_input > N looped::matrix_multiply returns the zero matrix without any error; if block_result or block_input is 0 it divides by zero; and whenever block_result or block_input does not divide N > 0 it does not return the product for all inputs (for the all-ones matrices it either accesses memory out of bounds or returns a matrix whose entries sum to less than N^3).", "quantifier": "for every N and block sizes outside the domain of C26, all inputs for the zero-matrix part", "why_tests_cant": "Universally quantified wrong result.", "anchors": ["src/variants/looped.hpp: iterate_indices (inner_index_count)"]}
{"id": "C28", "title": "The index iterator enumerates a grid completely and without duplicates", "statement": "Starting at the minimum and incrementing, the first prod_d ceil((max_d-min_d)/step_d) positions of the iterator are exactly the grid points min_d + t_d*step_d < max_d, each once, dimension 0 fastest; further increments stay on the last point.", "quantifier": "for every number of dimensions, all bounds with min < max and steps > 0", "why_tests_cant": "Arbitrary dimension and extents.", "anchors": ["src/variants/index_iterator.hpp: dim_index_iterator", "src/variants/looped.hpp: dim_index_iterator", "src/variants/algorithms.hpp: dim_index_iterator"]}
{"id": "C29", "title": "Blocked index iteration visits every index exactly once", "statement": "iterate_indices<dim> with any number of blocking levels whose block sizes divide each other (inner divides outer, outermost divides the extent, final steps divide the innermost block) calls the function exactly once for every point of the step grid, for every choice of parallel dimensions and every order in which parallel blocks run.", "quantifier": "for every dimension, number of levels, block sizes in the divisibility chain, parallel flags, every order of the parallel parts", "why_tests_cant": "Arbitrary nesting and dimension; all schedules.", "anchors": ["src/variants/index_iterator.hpp: iterate_indices, loop_nest, blocking_pseudo_execution_policy"]}
{"id": "C30", "title": "Blocked index iteration over-runs its bounds when blocks do not divide the extent", "statement": "If a block size does not divide the extent, iterate_indices still covers all requested indices but also calls the function outside [min,max); e.g. extent 6 with block 4 and step 1 visits 0..7.", "quantifier": "for every extent, block size (one blocking level), step 1: the visited indices are exactly 0..ceil(extent/block)*block-1", "why_tests_cant": "All extents and blocks.", "anchors": ["src/variants/index_iterator.hpp: iterate_indices (recursive_max)"]}
{"id": "C31", "title": "Malformed iteration requests abort instead of iterating", "statement": "iterate_indices with bounds of the wrong length and add_blocking with a block or flag vector of the wrong length abort the program (throw without active exception), they never call the user function.", "quantifier": "for every dimension and all malformed arguments", "why_tests_cant": "All malformed inputs.", "anchors": ["src/variants/index_iterator.hpp: iterate_indices, add_blocking, map_dims"]}
{"id": "C32", "title": "Algorithm 'semi' returns the product when 4 and block_input divide N", "statement": "semi::matrix_multiply with 4 | N and block_input > 0 dividing N is memory safe and returns A*Bt^T.", "quantifier": "for every such N, block_input, all A, Bt", "why_tests_cant": "Unbounded sizes.", "anchors": ["src/variants/semi.cpp: semi::matrix_multiply"]}
{"id": "C33", "title": "Algorithm 'semi' accesses memory out of bounds when 4 or block_input does not divide N", "statement": "For every N > 0 and block_input > 0 such that 4 or block_input does not divide N (also for N = 2 as used by the shipped unit test) every execution of semi::matrix_multiply performs an out-of-bounds access; for block_input = 0 it does not terminate if N >= 4 and accesses memory out of bounds if 0 < N < 4.", "quantifier": "for every such N, block_input and all inputs", "why_tests_cant": "The shipped test runs exactly such a case and passes.", "anchors": ["src/variants/semi.cpp: semi::matrix_multiply", "src/tests/test_semi.cpp"]}
{"id": "C34", "title": "Algorithm 'combined' returns the product for every matrix size", "statement": "combined with repetitions = 1 returns A*B for every N (padding included), for every interleaving of the parallel last-level-cache blocks at the granularity of single element accesses, and performs no out-of-bounds or misaligned access.", "quantifier": "for every N, all A, B, every interleaving", "why_tests_cant": "Every N including all padding remainders; all schedules.", "anchors": ["src/variants/combined.cpp: combined::combined, combined::matrix_multiply", "src/variants/index_iterator.hpp: iterate_indices"]}
{"id": "C35", "title": "Algorithm 'combined' multiplies its result by the number of repetitions", "statement": "combined with repetitions = r returns r*(A*B) (the accumulator is not cleared between repetitions): zero for r = 0, and for r >= 2 not the product unless r*(A*B) = A*B.", "quantifier": "for every N, r, all A, B, every interleaving", "why_tests_cant": "All r and inputs.", "anchors": ["src/variants/combined.cpp: combined::matrix_multiply (repetitions loop)"]}
{"id": "C36", "title": "Algorithm 'combined' contains a data race on a local flag", "statement": "As soon as the padded problem has more than one last-level-cache block (N > 256) and repetitions >= 1, two parallel tasks of one run access the same captured bool without synchronisation and one of them writes; all other accesses of different tasks to shared mutable data are to different elements.", "quantifier": "for every N > 256 (existence of conflicting accesses), and for all pairs of tasks (disjointness of everything else)", "why_tests_cant": "Data races are schedule dependent and usually benign in tests.", "anchors": ["src/variants/combined.cpp: combined::matrix_multiply (first)"]}
{"id": "C37", "title": "Reference kernel_tiled returns the product for every size and every schedule", "statement": "kernel_tiled::matrix_multiply returns A*B for every N and every repetitions >= 1 (zero matrix for 0), is free of data races, out-of-bounds and misaligned accesses, for every interleaving of the parallel tiles.", "quantifier": "for every N, repetitions, all A, B, every interleaving", "why_tests_cant": "Every N including all padding remainders; all schedules.", "anchors": ["src/reference_kernels/kernel_tiled.cpp: kernel_tiled::kernel_tiled, matrix_multiply"]}
{"id": "C38", "title": "kernel_tiled and kernel_test ignore the transposed flag", "statement": "The result of kernel_tiled and kernel_test is independent of the transposed argument; with the driver default transposed = true they therefore differ from the transposed reference unless B is symmetric in the relevant sense (concretely there are inputs where they differ).", "quantifier": "for every N and inputs (independence); existence (difference)", "why_tests_cant": "Driver only ever multiplies with the identity, where the difference is invisible.", "anchors": ["src/reference_kernels/kernel_tiled.cpp", "src/reference_kernels/kernel_test.cpp", "src/matrix_multiply_application/matrix_multiply.cpp"]}
{"id": "C39", "title": "kernel_test is safe exactly for sizes close below a multiple of 512", "statement": "kernel_test::matrix_multiply with repetitions >= 1 avoids out-of-bounds and misaligned accesses exactly when N = 0 or N is a multiple of 4 with N mod 512 = 0 or N mod 512 >= 449; for those N it returns A*B for every interleaving, for all other N every execution hits undefined behaviour.", "quantifier": "for every N, repetitions >= 1, all inputs, every interleaving", "why_tests_cant": "Characterisation over all N; UB is not observable by tests.", "anchors": ["src/reference_kernels/kernel_test.cpp: kernel_test::matrix_multiply"]}
{"id": "C40", "title": "Padding produces the smallest admissible sizes", "statement": "The padded dimensions computed by combined, kernel_tiled and proposal are the smallest multiples of the last-level block sizes that are >= N, and the compile-time blocking setup passes its own consistency check.", "quantifier": "for every N", "why_tests_cant": "All N.", "anchors": ["src/variants/combined.cpp: combined::combined, verify_blocking_setup", "src/reference_kernels/kernel_tiled.cpp", "src/variants/proposal.cpp"]}
{"id": "C41", "title": "Tiled copies are lossless", "statement": "The tiled copies of A, B and the un-tiling of C used by combined and kernel_tiled address every element of the padded matrices exactly once (distinct coordinates go to distinct in-range positions), so copying into the tiled layout and back is the identity.", "quantifier": "for every padded size that is a multiple of the tile size, every element", "why_tests_cant": "All sizes and elements.", "anchors": ["src/variants/combined.cpp", "src/reference_kernels/kernel_tiled.cpp"]}
{"id": "C42", "title": "make_tiled is a lossless permutation", "statement": "make_tiled<dim>(org, tiling_info) with positive tile sizes dividing the strides and org.size() equal to the product of the strides performs only in-range accesses and returns a permutation of org that puts the element with coordinates (t_d*tile_d + i_d) at tile number t, offset i, both row-major. A tiling_info of the wrong length raises memory_layout_exception.", "quantifier": "for every dimension, tile sizes and strides, all contents", "why_tests_cant": "Arbitrary dimension and sizes.", "anchors": ["src/memory_layout/tile_array.hpp: make_tiled, tile_dim, tile_dim_indices", "src/memory_layout/loop_nest.hpp"]}
{"id": "C43", "title": "tile_view reads the right element", "statement": "For a matrix tiled by make_tiled<2>, a tile_view at tile (a,b) returns for inner coordinates (i,j) the original element (a*t0+i, b*t1+j), for both access operators, and its size() is the number of elements in a tile.", "quantifier": "for every size, tile size dividing it, tile and inner coordinate, all contents", "why_tests_cant": "All sizes and coordinates.", "anchors": ["src/memory_layout/tile_view.hpp: tile_view", "src/memory_layout/tile_array.hpp: make_tiled"]}
{"id": "C44", "title": "iterate_tiles visits every tile once in row-major order", "statement": "iterate_tiles<2> calls the function exactly once for every tile, in row-major order of the tile index, with views that partition the tiled buffer.", "quantifier": "for all sizes and tile sizes dividing them", "why_tests_cant": "All sizes.", "anchors": ["src/memory_layout/tile_iterator.hpp: iterate_tiles"]}
{"id": "C45", "title": "undo_tiling has undefined behaviour on every call", "statement": "undo_tiling never returns a value: every call either raises memory_layout_exception, divides by zero, accesses memory out of bounds or flows off the end of a non-void function (undefined behaviour). For positive strides and fitting tiles the buffer it fills is the inverse of make_tiled for all contents exactly if both strides are equal or there is a single row: with more rows than columns it writes out of bounds, with fewer rows than columns (and at least two) the last element is lost.", "quantifier": "for all arguments (no return); for every two-dimensional fitting tiling (inverse)", "why_tests_cant": "Undefined behaviour may look like success in a test.", "anchors": ["src/memory_layout/tile_array.hpp: undo_tiling", "src/memory_layout/util.hpp: flat_index"]}
{"id": "C46", "title": "flat_index agrees with row-major order only for palindromic extents", "statement": "memory_layout::flat_index(index, strides) equals the row-major position for all in-range indices if the strides are the same read backwards up to the leading one; for two dimensions it equals row-major for every index exactly when both extents are equal, or there is at most one row, or there is no column.", "quantifier": "for all extents of any dimension (sufficient condition); for all two-dimensional extents (exact condition)", "why_tests_cant": "All extents.", "anchors": ["src/memory_layout/util.hpp: flat_index"]}
{"id": "C47", "title": "Algorithm 'proposal' never returns the product", "statement": "proposal::matrix_multiply has no defined result: it never returns; with vectors of N*N elements construction succeeds and the call accesses memory out of bounds for N <= 256 and flows off the end of undo_tiling for N > 256 (undefined behaviour both), shorter vectors raise std::out_of_range in the constructor; the statement that would otherwise determine the result overwrites it with zeros.", "quantifier": "for every N and all inputs", "why_tests_cant": "UB not observable by tests.", "anchors": ["src/variants/proposal.cpp: proposal::matrix_multiply", "src/memory_layout/tile_array.hpp: undo_tiling"]}
{"id": "C48", "title": "transpose_matrix transposes and is an involution", "statement": "transpose_matrix(N, M) returns the transpose, applying it twice returns the original; the rectangular overload transposes a stride_result x stride_org matrix and composing it with swapped strides is the identity. Inputs that are too short lead to an out-of-bounds read.", "quantifier": "for every N (or stride pair), all matrices", "why_tests_cant": "All sizes and contents.", "anchors": ["src/util/transpose_matrix.hpp: transpose_matrix"]}
{"id": "C49", "title": "Generated test matrices are what they claim", "statement": "create_identity_matrix(N) is the identity: multiplying any matrix by it with any of the verified algorithms returns that matrix (exact arithmetic); create_enumerating_matrix(N) holds i*N+j at (i,j).", "quantifier": "for every N", "why_tests_cant": "All sizes.", "anchors": ["src/util/create_identity_matrix.hpp", "src/util/pattern_matrices.hpp"]}
{"id": "C50", "title": "Driver selects exactly the requested algorithm and rejects invalid combinations", "statement": "For every algorithm name and flags: algorithms/looped/semi raise an exception when B is not transposed, combined raises when it is, an unknown name makes the program print an error and exit with status 1 without a result, and otherwise exactly the named algorithm produces C.", "quantifier": "for every string, flags and sizes", "why_tests_cant": "Arbitrary strings and flag combinations.", "anchors": ["src/matrix_multiply_application/matrix_multiply.cpp: hpx_main, main"]}
{"id": "C51", "title": "The driver's check accepts exactly results of the right length within tolerance", "statement": "The built-in check passes if and only if C has N*N elements and every element differs from the reference by less than the tolerance; in particular a missing result (repetitions = 0 with algorithm single) fails for N > 0 and NaN never passes.", "quantifier": "for all C, N and inputs, any comparison semantics for the tolerance", "why_tests_cant": "All results.", "anchors": ["src/matrix_multiply_application/matrix_multiply.cpp: main (check)"]}
{"id": "C52", "title": "The driver's check cannot detect a wrong transposition", "statement": "Because the driver always uses the identity for B, the transposed and non-transposed references give the same matrix for every A, so the check passes for an algorithm that ignores the transposed flag.", "quantifier": "for every N and A", "why_tests_cant": "All inputs.", "anchors": ["src/matrix_multiply_application/matrix_multiply.cpp: hpx_main (B), main (check)"]}
{"id": "C53", "title": "The aligned allocator hands out aligned, in-bounds storage once", "statement": "aligned_allocator::alloc<T>(size, alignment) with alignment a positive power of two returns, for any address returned by new[], a pointer that is a multiple of alignment and such that size elements fit inside the allocation; a second alloc on the same object aborts.", "quantifier": "for every base address, size, alignment", "why_tests_cant": "All base addresses.", "anchors": ["src/aligned_allocator.hpp: aligned_allocator::alloc"]}
{"id": "C54", "title": "Experiment kernels naive, transposed and counter compute the product", "statement": "In otherExperiments, multNaive and multTransposed accumulate A*B (resp. A*B^T) in place on top of the old contents of C (so running them twice adds the product twice), multCounter overwrites C with A*B^T; for every n, without out-of-bounds access, and for the parallel ones for every interleaving of the parallel rows.", "quantifier": "for every n, all A, B, C, every interleaving", "why_tests_cant": "All sizes and schedules.", "anchors": ["otherExperiments/multNaive.cpp: multNaive", "otherExperiments/multTransposed.cpp: multTransposed", "otherExperiments/multCounter.cpp: multCounter"]}
{"id": "C55", "title": "Experiment kernel multBlocked2 is correct for even sizes and unsafe for odd ones", "statement": "multBlocked2 overwrites C with A*B^T for every even n and every interleaving, and accesses memory out of bounds in every execution for every odd n (unless A has room for a further row).", "quantifier": "for every n, all inputs, every interleaving", "why_tests_cant": "All sizes.", "anchors": ["otherExperiments/multBlocked.cpp: multBlocked2"]}
{"id": "C56", "title": "Experiment kernel multBlocked4 only sums every fourth product", "statement": "multBlocked4 (n a multiple of 4) writes to C(i,j) only the sum of the products with k divisible by 4, so it is A*B^T exactly if the omitted products sum to zero for every entry, and for every n there are inputs where it is wrong; if 4 does not divide n, every execution accesses memory out of bounds.", "quantifier": "for every n multiple of 4, all inputs, every interleaving (exact result); existence (not the product)", "why_tests_cant": "All sizes and inputs.", "anchors": ["otherExperiments/multBlocked.cpp: multBlocked4"]}
{"id": "C57", "title": "Matrix printing shows the right elements only for square shapes", "statement": "print_matrix(N, m), print_matrix_host(rows, cols, m) and print_matrix_transposed(N, m) print the elements in (transposed) row-major order; print_matrix_transposed(N, M, m) prints the transpose of an M x N matrix; the rectangular print_matrix(N, M, m) prints every N x M matrix correctly exactly if N = M, N <= 1 or M = 0, and raises std::out_of_range for N > M >= 1.", "quantifier": "for every shape and contents", "why_tests_cant": "All shapes.", "anchors": ["src/util/util.hpp"]}
{"id": "C58", "title": "All algorithms agree on their common domain", "statement": "On N divisible by 512 that are powers of two, with admissible block sizes, the reference, single, pseudodynamic, algorithms, looped, semi, combined (one repetition), kernel_tiled and kernel_test return the same matrix in exact arithmetic (with B transposed where the algorithm expects it), for every schedule.", "quantifier": "for every such N, parameters, inputs, schedules", "why_tests_cant": "Equality of nine programs on all inputs.", "anchors": ["src/reference_kernels/", "src/variants/"]}
{"id": "C59", "title": "The single-node algorithm is undefined outside its divisibility conditions, including the default options", "statement": "With B transposed, block_input > 0 and a leaf size s >= 4 (so that the cache-blocked kernel runs), every execution of single::matrix_multiply accesses memory out of bounds whenever 4 does not divide s or block_input does not divide N, whatever the matrix contents. In particular the driver started without any options (N = 4, both block sizes 128, transposed) has undefined behaviour.", "quantifier": "for every N > 0 of the form 2^e*s, all inputs, block sizes, repetitions >= 1 and schedules; for every environment of the driver", "why_tests_cant": "All sizes, contents and schedules; the out-of-bounds read usually returns garbage instead of failing.", "anchors": ["src/reference_kernels/kernel.hpp: kernel_transposed_blocked", "src/variants/components/recursive.cpp", "src/matrix_multiply_application/matrix_multiply.cpp: option defaults"]}
{"id": "C60", "title": "The driver's check passes on the domain of every algorithm and detects repeated accumulation", "statement": "In exact arithmetic and for a reflexive comparison, for every algorithm and all parameters in its domain of correctness the driver ends with status 0, leaves A as result and the requested check passes; for combined with r repetitions the result is r*A and the check passes exactly if r*a is close to a for every element a of A.", "quantifier": "for all sizes, parameters, random numbers, schedules", "why_tests_cant": "End-to-end statement over all option combinations.", "anchors": ["src/matrix_multiply_application/matrix_multiply.cpp"]}
{"id": "C61", "title": "Asking for help together with a reference kernel crashes", "statement": "With --help the driver ends with status 0 and no result for every algorithm name except kernel_tiled and kernel_test; for those two the kernel runs on vectors that were never filled: std::out_of_range for kernel_tiled and an out-of-bounds read for kernel_test, for every N > 0 (so also for the default N = 4).", "quantifier": "for every N > 0 and all other options", "why_tests_cant": "All option combinations; undefined behaviour need not show up in a test.", "anchors": ["src/matrix_multiply_application/matrix_multiply.cpp: hpx_main (help), main (kernel_test, kernel_tiled)"]}
{"id": "C62", "title": "The exit status never reports a failed check", "statement": "Whenever the driver ends normally (without --help), its exit status is 0 for a known algorithm, no matter whether the check passed, failed or was not made, and 1 exactly for unknown names.", "quantifier": "for all options, inputs and schedules", "why_tests_cant": "All outcomes.", "anchors": ["src/matrix_multiply_application/matrix_multiply.cpp: main"]}
{"id": "C63", "title": "The benchmark's align rounds up, and its buffers are large enough from n = 8 on", "statement": "align(alignment, size, ptr, space) of the benchmark computes, for a power of two as alignment, the next multiple of alignment at or after ptr, and returns the null pointer exactly if padding + size > space. The benchmark passes the number of doubles as space: for n >= 8 the aligned pointer exists for every address returned by new[], is a multiple of 64 and n*n doubles fit behind it inside the block; for every n < 8 there are addresses for which the null pointer is returned although the doubles would fit.", "quantifier": "for every address, size, power-of-two alignment and space below 2^64; for every n", "why_tests_cant": "All 2^64 addresses.", "anchors": ["otherExperiments/benchmark.cpp: align, main"]}
{"id": "C64", "title": "Copying a used aligned_allocator frees the block twice", "statement": "aligned_allocator has the implicit copy constructor, so destroying an object after alloc and also its copy deletes the same block twice, for every size, alignment and address; without a copy the destructor returns exactly the block that was obtained.", "quantifier": "for every size, alignment and base address", "why_tests_cant": "Double free need not show up in a test.", "anchors": ["src/aligned_allocator.hpp: aligned_allocator, ~aligned_allocator"]}
{"id": "C65", "title": "multExchanged stores the product for multiples of 128 and is undefined otherwise", "statement": "For n a multiple of 128, multExchanged stores A*B with every entry summed in ascending order of the summation index, independently of the old C, of the uninitialised stack arrays and of the interleaving of the parallel block rows, and the block rows do not race; for every other n every execution accesses memory out of bounds.", "quantifier": "for every n, all matrices, all stack contents, all interleavings, any arithmetic", "why_tests_cant": "All sizes, all schedules and all stack contents.", "anchors": ["otherExperiments/multExchanged.cpp: multExchanged"]}
{"id": "C66", "title": "multGPU stores A times B transposed for multiples of 128", "statement": "For n a multiple of 128, multGPU stores A*B^T, each entry summed in blocks of 128 with four interleaved partial sums (exactly the sum in exact arithmetic), independently of old C and stack contents and of the schedule, without races; for every other n every execution accesses memory out of bounds.", "quantifier": "for every n, all matrices, all stack contents, all interleavings", "why_tests_cant": "All sizes, schedules, stack contents; rounding order.", "anchors": ["otherExperiments/multGPU.cpp: multGPU"]}
{"id": "C67", "title": "multGPUASM is correct only with FMA and lucky stack alignment", "statement": "Compiled with __FMA__ and if the automatic arrays AA and BB happen to lie at addresses divisible by 32, multGPUASM stores A*B^T for n a multiple of 256; without __FMA__ it stores zeros for all inputs; if n is a positive multiple of 256 and AA or BB is not 32-byte aligned every execution makes a misaligned access; if 256 does not divide n no execution ends regularly.", "quantifier": "for every n, all matrices, all addresses, stack contents and interleavings", "why_tests_cant": "Stack addresses and compiler flags vary; a test sees one combination.", "anchors": ["otherExperiments/multGPUASM.cpp: multGPUASM"]}
{"id": "C68", "title": "multRegister is correct only with FMA and lucky stack alignment", "statement": "Compiled with __FMA__ and if result and BB happen to lie at addresses divisible by 32, multRegister stores A*B in ascending order for n a multiple of 256; without __FMA__ the wrong registers are updated and each entry becomes a sum of up to two entries of the product belonging to other rows of the group of eight; rows 5, 6, 7 of each group are zero, so the result is wrong whenever the product has a nonzero entry there; for n a positive multiple of 256 a misaligned result or BB is undefined in every execution; if 256 does not divide n no execution ends regularly.", "quantifier": "for every n, all matrices, all addresses, stack contents and interleavings", "why_tests_cant": "Stack addresses and compiler flags vary; the non-FMA branch is not compiled on current machines.", "anchors": ["otherExperiments/multRegister.cpp: multRegister"]}
{"id": "C69", "title": "multIntrinLoop stores the product for aligned matrices of size a multiple of 128", "statement": "For n a multiple of 128 and A, B, C at addresses divisible by 32, multIntrinLoop stores A*B in ascending order, whatever the stack, the old C and the schedule, without races; if n > 0 and one of the matrices is not so aligned every execution makes a misaligned access; if 128 does not divide n no execution ends regularly.", "quantifier": "for every n, all matrices, addresses, stack contents and interleavings", "why_tests_cant": "All sizes, addresses and schedules.", "anchors": ["otherExperiments/multIntrinLoop.cpp: multIntrinLoop"]}
{"id": "C70", "title": "The inline assembler kernel multASM computes A times B transposed for multiples of 4", "statement": "If __GNUC__ > 4, 4 divides n < 2^31 and A, B are at addresses divisible by 32, the assembler loop of multASM (32-bit counter, signed comparison, aligned loads, multiplication followed by addition) computes A*B^T with four partial sums, and the rows do not race; if 4 does not divide n, or n > 0 and a matrix is not aligned, no execution ends regularly; with an older compiler C is set to zero for all inputs.", "quantifier": "for every n, all matrices, addresses and interleavings", "why_tests_cant": "All sizes and addresses; assembler code.", "anchors": ["otherExperiments/multASM.cpp: multASM"]}
{"id": "C71", "title": "The blocked experiment kernels agree", "statement": "On their common domain multExchanged, multRegister and multIntrinLoop return bit for bit the result of multNaive on a zero matrix; in exact arithmetic multGPU, multGPUASM and multASM with the transposed second matrix return it as well.", "quantifier": "for every n divisible by 256, all matrices, addresses, stack contents and interleavings", "why_tests_cant": "Equality for all inputs and schedules.", "anchors": ["otherExperiments/mult*.cpp"]}
{"id": "C72", "title": "With one computing locality the distributed multiplication is the single-node multiplication", "statement": "On one or two localities (only one of them computes) create_schedule returns the whole matrix as the only piece of work for all balancing parameters, and pseudodynamic_matrix_multiply has exactly the outcomes of the algorithm single with the same block sizes, including all cases of undefined behaviour; excepted is N = 1 with min_work_size = 0. N*N < 2^63.", "quantifier": "for every N, all input vectors, block sizes, repetitions, balancing parameters and interleavings", "why_tests_cant": "Equality of outcome sets for all inputs, including undefined behaviour.", "anchors": ["src/variants/static_improved.cpp: create_schedule, matrix_multiply", "src/variants/single.cpp"]}
{"id": "C73", "title": "The random tests of the repository pass in every execution, in exact arithmetic", "statement": "Inside the domain of the algorithm a test with random matrices makes N*N comparisons and all succeed, for every random engine and every comparison that accepts equal numbers. In every arithmetic the comparisons are those of each element of the result with the element of the naive product. This covers all random_matrices tests in src/tests except semi with N = 2.", "quantifier": "for all random numbers, all test parameters in the domain and all interleavings", "why_tests_cant": "A test run checks one sequence of random numbers and one schedule.", "anchors": ["src/tests/test_hpx_main.cpp: hpx_main", "src/tests/test_*.cpp"]}
{"id": "C74", "title": "The tests of semi with N = 2 read out of bounds", "statement": "If 4 does not divide N > 0, a test of semi (random or with constant matrices) accesses memory out of bounds in every execution; identity_2, apply_inverse_2 and random_matrices_2 of test_semi.cpp are such tests.", "quantifier": "for every N not divisible by 4, all matrices, all block sizes > 0 and all interleavings", "why_tests_cant": "The undefined behaviour may go unnoticed in a test run.", "anchors": ["src/tests/test_semi.cpp", "src/variants/semi.cpp"]}
{"id": "C75", "title": "A test with constant matrices compares every entry of the product", "statement": "Inside the domain of the algorithm such a test makes exactly N*N comparisons, in row-major order, comparison (i,j) being that of the exact product entry (i,j) with entry (i,j) of the reference; the result does not depend on the schedule.", "quantifier": "for all matrices, all test parameters in the domain and all interleavings", "why_tests_cant": "All matrices and schedules.", "anchors": ["src/tests/test_hpx_main.cpp", "src/tests/test_*.cpp"]}
{"id": "C76", "title": "Random tests with transposed B cannot detect a transposed result", "statement": "create_random_matrix returns the same vector in both calls of a test, so the reference A*A^T is symmetric; hence the checks of the test pass for a result matrix if and only if they pass for its transpose.", "quantifier": "for every random engine (restarted in each call), every size and every result matrix", "why_tests_cant": "It is a statement about the tests themselves.", "anchors": ["src/util/create_random_matrix.hpp", "src/tests/test_*.cpp: random_matrices"]}
{"id": "C77", "title": "hpx_main of the tests swaps the block sizes of single and pseudodynamic", "statement": "With block_input = 0 the test main runs single with block_result = 0 and returns the zero matrix for all inputs; with equal block sizes the swap has no effect, neither for single nor for pseudodynamic.", "quantifier": "for all test parameters, matrices and interleavings", "why_tests_cant": "The existing tests use equal block sizes, for which the swap is invisible.", "anchors": ["src/tests/test_hpx_main.cpp:39-99"]}
{"id": "C78", "title": "benchmark program: expected result of every good kernel", "statement": "The main function of the benchmark fills A with 2 and B with the identity; with __FMA__, __GNUC__ > 4 and 32-byte aligned stack arrays every implementation except blocked4 leaves the matrix with all entries 2 in C and the check printed is sqrt((2n)*(2n)), whatever the addresses and contents of the allocated blocks; without an argument nothing is computed and an unknown name is reported.", "quantifier": "for every n that is a positive multiple of 256 below 2^31 (n = 4096 in the code), all addresses, initial memory contents and interleavings; the matrix for any arithmetic satisfying six exact sums with 0, 1 and 2, the check in exact arithmetic", "why_tests_cant": "The program prints a number without comparing it to anything; addresses and stack contents vary between runs.", "anchors": ["otherExperiments/benchmark.cpp: main", "otherExperiments/benchmark.cpp: align"]}
{"id": "C79", "title": "benchmark program: what is printed for the wrong kernels", "statement": "blocked4 leaves 2 in every fourth column only and prints sqrt(n*n); gpuasm without __FMA__ and asm with __GNUC__ <= 4 leave the zero matrix and print sqrt(0); register without __FMA__ leaves rows of 2, 4, 4, 4, 2, 0, 0, 0 in each group of eight and prints sqrt(7*n*n). If sqrt is exact on squares, the good kernels print 2n and blocked4 prints n.", "quantifier": "for every n that is a positive multiple of 256 (of 4, at least 8, for blocked4), all addresses, memory contents and interleavings", "why_tests_cant": "Nothing compares the printed number with the right one, and the other branches of the conditional compilation are not built.", "anchors": ["otherExperiments/benchmark.cpp:62-153", "otherExperiments/multBlocked.cpp", "otherExperiments/multRegister.cpp"]}
{"id": "C80", "title": "benchmark program: the check is blind to permutations", "statement": "B and BTransposed (and A and ATransposed) hold the same numbers after initialisation, and the check depends only on the multiset of entries of C: any rearrangement of the entries of C, in particular the transpose, gives the same number.", "quantifier": "for every n and every result matrix in exact arithmetic; the equality of the matrices for any arithmetic", "why_tests_cant": "It is a statement about the limits of the check itself.", "anchors": ["otherExperiments/benchmark.cpp:41-60", "otherExperiments/benchmark.cpp:142-151"]}
{"id": "C81", "title": "loop template: calls made", "statement": "Looper<dim, T>(min, max).iterate_simple(f) calls f once for every tuple of dim numbers in [min, max), in lexicographic order, (max - min)^dim times in all; every call sees the state f had at the beginning, and the first exception ends the iteration.", "quantifier": "for all dimensions, bounds, function objects with any state and any effects", "why_tests_cant": "The dimension is a template parameter and the function object is arbitrary; a test fixes both.", "anchors": ["learning/MetaProgrammingCPP.cpp: execute_looped", "learning/MetaProgrammingCPP.cpp: Looper::iterate_simple"]}
{"id": "C82", "title": "loop template: output of the example program", "statement": "The example program prints the pairs of numbers below the bound in lexicographic order as (i, j), separated by commas, without a comma at the beginning or the end, and ends the line.", "quantifier": "for every bound (10 in the code)", "why_tests_cant": "The program is not run by any test; the statement covers all bounds.", "anchors": ["learning/MetaProgrammingCPP.cpp: main"]}
{"id": "C83", "title": "documented command lines", "statement": "The commands shown in README.md and the parameter sets of evaluate.py (B transposed, as by default; without the unknown option of evaluate.py) end with status 0 and the right result for single, pseudodynamic, kernel_test and kernel_tiled (likewise algorithms, looped and semi); the README command for combined ends with an exception instead, because it lacks --transposed=0. The padded sizes 8400, 8192, 8192 shown for N = 8192 are those the constructors compute. With --block-result=0, which the help text describes as disabling result blocking, single returns the zero matrix with status 0.", "quantifier": "for every power of two from 512 on, all random numbers, numbers of localities, repetitions and interleavings, in floating-point arithmetic", "why_tests_cant": "The tests do not run the application program, and one run of a command shows one interleaving and one sequence of random numbers.", "anchors": ["README.md", "evaluate.py: run", "src/matrix_multiply_application/matrix_multiply.cpp: main", "src/matrix_multiply_application/matrix_multiply.cpp: hpx_main"]}
{"id": "C84", "title": "driver check passes in floating-point arithmetic", "statement": "Since B is the identity, no rounding occurs: on the domain of every algorithm the program returns the matrix A itself, bit for bit, and the check, if requested, passes; there is no other outcome.", "quantifier": "for all admissible sizes, block sizes, flags, repetitions, localities and interleavings, all random numbers, and every arithmetic in which adding zero or a product with zero changes nothing and 0 + x * 1 = x (doubles in all rounding modes, fused or not)", "why_tests_cant": "Floating-point addition is not associative, so agreement of differently ordered sums in one run says nothing about other inputs.", "anchors": ["src/matrix_multiply_application/matrix_multiply.cpp: hpx_main", "src/matrix_multiply_application/matrix_multiply.cpp: main"]}
{"id": "C85", "title": "bounds for rounding errors", "statement": "In floating-point arithmetic each entry computed by any of the algorithms differs from the exact entry of the product by at most ((1+u)^n - 1) * W + (1+u)^n * m * eta, where W is the sum of the absolute values of the products, m the number of products (including the padding) and n the number of roundings: N + 1 for naive and looped, at most N + 2 for single and pseudodynamic, block_input + 1 + N / block_input for algorithms and semi, 65 + K/64 for combined (one repetition; with r repetitions r times the product is approximated with 65 + r*K/64 roundings and r*K products) and kernel_tiled and 17 + K/16 for kernel_test with the padded length K. The result is finite if W leaves room, and two algorithms agree up to the sum of their bounds.", "quantifier": "for all sizes in the domain, all matrices of finite numbers without overflow, all interleavings and localities, every arithmetic with relative error u and underflow eta (products fused or not)", "why_tests_cant": "Tests compare with a fixed tolerance for matrices with entries in [0, 1); they cannot bound the error for other matrices.", "anchors": ["src/reference_kernels/naive.hpp", "src/variants/components/recursive.cpp", "src/variants/static_improved.cpp", "src/variants/algorithms.hpp", "src/variants/looped.hpp", "src/variants/semi.cpp", "src/variants/combined.cpp", "src/reference_kernels/kernel_tiled.cpp", "src/reference_kernels/kernel_test.cpp"]}
{"id": "C86", "title": "random tests pass in double precision", "statement": "All unit tests with random matrices except random_matrices_2 of test_semi.cpp (undefined behaviour, C74) pass with the rounding errors of double precision: no difference exceeds a fifth of the tolerance 1E-8.", "quantifier": "for all random numbers from -1 to 1, all interleavings, every arithmetic with u, eta <= 2^-52 that reaches 4096 without overflow; in general for every test in the domain whose tolerance is at least 4 * ((N + 70) * u * N + (N + 256) * eta)", "why_tests_cant": "A passing run shows one sequence of random numbers; whether the tolerance suffices for others is not visible.", "anchors": ["src/tests/test_hpx_main.cpp: hpx_main", "src/tests/test_single.cpp", "src/tests/test_pseudodynamic.cpp", "src/tests/test_algorithms.cpp", "src/tests/test_looped.cpp", "src/tests/test_semi.cpp", "src/tests/test_combined.cpp"]}
{"id": "C87", "title": "products of integer matrices are exact", "statement": "If the entries of both matrices are integers of the exact range of the number type (up to 2^53 for double, possibly with a common scale per matrix) and no entry of the product has a sum of absolute values of products above that range, then every algorithm returns exactly the mathematical product, whatever the order of its additions; combined with r repetitions returns exactly r times the product if r times those sums stay in the range.", "quantifier": "for all sizes and block sizes in the domain of each algorithm, all integer matrices with such sums, all localities and interleavings, every arithmetic exact on integers up to the limit", "why_tests_cant": "The tests use random fractions with a tolerance; that blocked and reordered sums lose nothing on integers is a statement about all integer matrices.", "anchors": ["src/reference_kernels/naive.hpp", "src/variants/components/recursive.cpp", "src/variants/static_improved.cpp", "src/variants/algorithms.hpp", "src/variants/looped.hpp", "src/variants/semi.cpp", "src/variants/combined.cpp", "src/reference_kernels/kernel_tiled.cpp", "src/reference_kernels/kernel_test.cpp"]}
{"id": "C88", "title": "inverse matrix tests pass in double precision", "statement": "The tests apply_inverse_2 (transposed or not, and that of test_naive.cpp) compute the identity exactly, so the relative check BOOST_CHECK_CLOSE against 0 passes; the tests apply_inverse_4 and apply_inverse_8 pass although the literals of the inverse are rounded: no difference exceeds 1E-9, a tenth of the tolerance. The tests of test_naive.cpp compare, in every arithmetic, each element of the computed product with that of the identity matrix. apply_inverse_2 of test_semi.cpp is excluded (undefined behaviour, C74).", "quantifier": "for all interleavings on one locality, every arithmetic exact on integers up to 20 (size 2) resp. with u, eta <= 2^-52 that reaches 4096 without overflow, and every conversion of decimal literals with error at most u (sizes 4 and 8)", "why_tests_cant": "A run shows one compiler, one rounding mode and one schedule; a relative check against 0 fails if a single rounding error occurs.", "anchors": ["src/tests/test_single.cpp: apply_inverse_2, apply_inverse_4, apply_inverse_8", "src/tests/test_pseudodynamic.cpp", "src/tests/test_algorithms.cpp", "src/tests/test_looped.cpp", "src/tests/test_semi.cpp", "src/tests/test_combined.cpp", "src/tests/test_naive.cpp"]}
{"id": "C89", "title": "tests of the tiled layout pass", "statement": "The test cases view (test_tile_view.cpp) and iterate (test_iterate_tiles.cpp) pass: the former makes 64 checks and the latter 8260 (the indices of all 4096 tiles in the order of its counters, the elements of the four corner tiles, and that the four corner tiles were seen), and all of them hold. For any content of the matrix, each check of an element compares one element of a corner tile, in row-major order, with its position in the matrix. The last four checks hold, after calls for any tiles, if and only if all four corners were among them. This needs that the static counter with which they fill the matrix starts at 0: for a start that the check distinguishes from 0, a check fails.", "quantifier": "for every arithmetic, conversion of integers and check that accepts equal integers below 65536, and all contents of the uninitialised index arrays", "why_tests_cant": "A run of the tests shows one content of the uninitialised memory.", "anchors": ["src/tests/test_tile_view.cpp", "src/tests/test_iterate_tiles.cpp"]}
{"id": "C90", "title": "recursion is correct with all levels in flight", "statement": "If single::matrix_multiply or static_improved::matrix_multiply returns C when the recursive calls of each level finish before the continuations start, then it returns C under every interleaving of the element accesses of all kernels, continuations and insertions of all levels and work packages, and there is no data race among them. So it returns the matrix product in the domains of C10 and C22.", "quantifier": "for all N, matrices, block sizes, repetitions, numbers of localities, comparison outcomes in create_schedule, contents of uninitialised memory, and all interleavings", "why_tests_cant": "With four tasks per level the number of interleavings explodes; a test run sees one schedule of one thread pool.", "anchors": ["src/variants/components/recursive.cpp: distribute_recursively, extract_submatrix", "src/variants/single.cpp: matrix_multiply", "src/variants/static_improved.cpp: matrix_multiply, insert_submatrix", "src/variants/components/multiplier.cpp: calculate_submatrix"]}
{"id": "C91", "title": "complete runs are finite and return the product", "statement": "No fork/join program of the model has an infinite run. In every run of the reference multiplications, of algorithms, of single and of static_improved there is no data race, and when no task can make a step any more, all tasks have returned and the result vector holds the product.", "quantifier": "for all sizes, matrices and parameters in the domains of C01, C02, C24, C10, C22, all contents of uninitialised memory, and all schedules, also unfair ones", "why_tests_cant": "A test observes finitely many schedules and cannot observe the absence of infinite ones.", "anchors": ["src/reference_kernels/naive.hpp", "src/variants/algorithms.hpp", "src/variants/components/recursive.cpp", "src/variants/single.cpp", "src/variants/static_improved.cpp"]}
{"id": "C92", "title": "Cells that no work package covers stay zero", "statement": "In every completed execution of pseudodynamic/static_improved::matrix_multiply the result has N*N elements, and every cell that belongs to no package of the schedule is 0.", "quantifier": "for every N, all vectors A and B of any length, all parameters, numbers of localities and repetitions, every schedule", "why_tests_cant": "The tests only use sizes that are halved without remainder, so every cell is covered; and a test sees only a few interleavings of the insertions.", "anchors": ["src/variants/static_improved.cpp"]}
{"id": "C93", "title": "Distributing an odd size loses the last row and column", "statement": "If N is odd and larger than min_work_size, at least two localities compute (three localities in total) and max_work_difference <= N*N, the last row and the last column of the result of pseudodynamic/static_improved::matrix_multiply are 0 in every completed execution, whatever the inputs. So the condition on N in C17 cannot be dropped.", "quantifier": "for every odd N > min_work_size with N*N < 2^63, all inputs, all other parameters, every schedule", "why_tests_cant": "The tests never distribute an odd size over several localities, and a test sees only a few interleavings.", "anchors": ["src/variants/static_improved.cpp"]}
{"id": "C94", "title": "The recursive and the distributed multiplication have exactly one outcome", "statement": "single::matrix_multiply and pseudodynamic/static_improved::matrix_multiply have exactly one outcome, whatever the completion order of the tasks, also for sizes and block sizes outside the domains of C10 and C22 and for vectors of any length. If B is not transposed the outcome is always a matrix of N*N elements: these algorithms then never fail and never access memory out of bounds.", "quantifier": "for every N, all vectors A and B of any length, all parameters, at least one locality, every schedule", "why_tests_cant": "Determinism for all schedules and all (also malformed) inputs cannot be observed in finitely many runs.", "anchors": ["src/variants/components/recursive.cpp", "src/variants/single.cpp", "src/variants/static_improved.cpp", "src/reference_kernels/kernel.hpp"]}
{"id": "C95", "title": "Task-by-task execution of the recursive and distributed multiplication fails exactly like the sequential description", "statement": "If all tasks of the recursive multiplication are in flight at once (single::matrix_multiply) or all packages of all localities are computed and inserted concurrently (pseudodynamic/static_improved::matrix_multiply), the set of outcomes, results and failures alike, is exactly the set of outcomes of the model in which the futures are awaited one by one, for all inputs, also malformed ones. The only possible failure is an access out of bounds, and only if B is declared transposed.", "quantifier": "for every N, all vectors A and B of any length, all parameters, at least one locality, every schedule and every content of uninitialised memory", "why_tests_cant": "Failing executions are undefined behaviour, and the number of interleavings of concurrent tasks is far too large to be enumerated.", "anchors": ["src/variants/components/recursive.cpp", "src/variants/single.cpp", "src/variants/static_improved.cpp"]}
{"id": "C96", "title": "Every complete run of the parallel loops of the kernels ends with the proved result", "statement": "For the parallel loops of multNaive, multCounter, multBlocked2, multBlocked4, multExchanged, multGPU, multGPUASM, multRegister, multIntrinLoop, multASM, kernel_tiled, kernel_test and combined (N <= 256), in the domains of C34, C37, C39, C54-C56 and C65-C70: no run is infinite, no state of a run has a data race, and every run that cannot be continued has finished all tasks and left exactly the matrix stated there.", "quantifier": "for every size of the domain, all matrices, every schedule, run to its end", "why_tests_cant": "Termination and the absence of races and deadlocks in all interleavings are not observable in finitely many runs.", "anchors": ["otherExperiments/multNaive.cpp", "otherExperiments/multCounter.cpp", "otherExperiments/multBlocked.cpp", "otherExperiments/multExchanged.cpp", "otherExperiments/multGPU.cpp", "otherExperiments/multGPUASM.cpp", "otherExperiments/multRegister.cpp", "otherExperiments/multIntrinLoop.cpp", "otherExperiments/multASM.cpp", "src/reference_kernels/kernel_tiled.cpp", "src/reference_kernels/kernel_test.cpp", "src/variants/combined.cpp"]}
{"id": "C97", "title": "IEEE double precision satisfies the assumptions of the floating-point claims", "statement": "The type double (IEEE 754 binary64, rounding to nearest, ties to even, with signed zeros, infinities and NaN) meets the assumptions on the arithmetic of C83-C88, whether c += x * y is compiled to two operations or to a fused one: every sum, product and fused operation is a nearest double, the relative error is at most 2^-53 (2^-1075 absolute on underflow) up to the largest double, integers up to 2^53 are exact and not beyond, also with common scales, and 0 + x * 1 = x. Hence, with doubles and the comparisons of the sources (BOOST_CHECK_SMALL with 1E-8 resp. 1E-5, BOOST_CHECK_CLOSE for exact results, std::abs(first - second) < 1E-10), all random tests and all tests with inverse matrices except those of semi with N = 2 pass in every execution, and the driver returns A bit for bit and passes its check; matrices up to 2^20 rows with entries up to 2^500 do not overflow.", "quantifier": "for all doubles, all random numbers from -1 to 1 (driver: all finite numbers except -0), every choice of fused and separate operations, all schedules, one locality for the tests, any number for the driver", "why_tests_cant": "A test run uses one random seed, one compilation and one schedule; the bounds hold for all of them.", "anchors": ["src/util/create_random_matrix.hpp", "src/tests/test_single.cpp", "src/tests/test_pseudodynamic.cpp", "src/tests/test_algorithms.cpp", "src/tests/test_looped.cpp", "src/tests/test_semi.cpp", "src/tests/test_combined.cpp", "src/tests/test_naive.cpp", "src/matrix_multiply_application/matrix_multiply.cpp", "CMakeLists.txt"]}
{"id": "C98", "title": "Sizes that pass through doubles are exact below 2^53", "statement": "iterate_indices computes its numbers of blocks as static_cast<size_t>(std::ceil(double / double)). For index ranges below 2^53 and every non-zero block size of the type the result is the smallest number of blocks that covers the range, although the quotient (and a block size from 2^53 on) is rounded; the whole iteration, e.g. that of the algorithm combined, makes the same calls in the same order as with exact integer division. A block size of 0 gives infinity or NaN, whose conversion is undefined. The bound is sharp: a range of 2^53 + 1 with block size 1 gives 2^53 blocks. In the scheduler of the pseudodynamic algorithm, a relative work difference that the comparison of doubles accepts is below the bound also exactly, if N * N <= 2^53; so the final schedule meets the user's bounds or cannot be improved by a split. A bound that is zero, negative or NaN is never undercut.", "quantifier": "for all index ranges, block sizes and numbers of dimensions with entries below 2^53, all policies, all bounds, all matrix sizes with N * N <= 2^53 and all numbers of localities", "why_tests_cant": "Errors of rounding quotients occur for isolated pairs of large numbers; a test can try few of the 2^117 pairs.", "anchors": ["src/variants/index_iterator.hpp", "src/variants/static_improved.cpp", "src/variants/combined.cpp"]}
{"id": "C99", "title": "Kernels of otherExperiments: rounding errors and exact integers, also when the compiler reorders sums", "statement": "Each of the ten correct kernels of otherExperiments sums up every entry in one order that depends neither on the entry nor on the numbers, and adds every product exactly once. Therefore their results differ from the exact product at most by the standard error bound with n + 1 roundings (multNaive, multTransposed, multCounter, the 2 x 2 blocked kernel, multExchanged, multRegister, multIntrinLoop), 33 + 4 (n / 128) (multGPU), 65 + 4 (n / 256) (multGPUASM) and n / 4 + 5 (multASM), and products of matrices of integers whose sums of absolute values do not exceed 2^53 are exact. The Makefile enables -ffast-math, by which the compiler may sum up in another order: for every choice of an order for every entry the result of integer matrices stays exact, in exact arithmetic it is the product, and the error stays within the bound of n + 1 roundings as long as no empty sums are added; for doubles up to 2^500 and n up to 2^20 without further assumptions.", "quantifier": "for all matrix sizes (subject to the kernel's divisibility), all matrices, all arithmetics that satisfy the standard model resp. are exact on integers, all orders of summation for each entry, all contents of uninitialised arrays", "why_tests_cant": "The number of orders of summation grows faster than exponentially with n and the compiler's choice differs between versions and flags; a test sees one of them.", "anchors": ["otherExperiments/Makefile", "otherExperiments/multNaive.cpp", "otherExperiments/multTransposed.cpp", "otherExperiments/multCounter.cpp", "otherExperiments/multBlocked.cpp", "otherExperiments/multExchanged.cpp", "otherExperiments/multGPU.cpp", "otherExperiments/multGPUASM.cpp", "otherExperiments/multRegister.cpp", "otherExperiments/multIntrinLoop.cpp", "otherExperiments/multASM.cpp"]}
{"id": "C100", "title": "Matrix sizes and 64-bit unsigned arithmetic", "statement": "With all size_t and uint64_t index arithmetic taken modulo 2^64, the references naive_matrix_multiply (and its transposed version) and transpose_matrix compute what they should, and the program behaves exactly as with unbounded numbers (the algorithms it calls are taken with unbounded numbers in both cases), for every N below 2^32. The bound is sharp: from N = 2^32 on the product N * N wraps around, so all vectors are too short, and then the program always terminates with std::out_of_range (whichever algorithm and options are chosen, before any algorithm runs), every execution of the references raises std::out_of_range, and transpose_matrix, which does not check its indices, accesses elements outside of its vectors. A wrong result is never returned.", "quantifier": "for all N (below 2^32 and from 2^32 on), all matrices, all options without help, all interleavings of the OpenMP threads, if memory suffices", "why_tests_cant": "A matrix with N close to 2^32 occupies 2^67 bytes; for N = 2^32 tests see one value of infinitely many.", "anchors": ["src/reference_kernels/naive.hpp", "src/util/transpose_matrix.hpp", "src/util/util.hpp", "src/matrix_multiply_application/matrix_multiply.cpp"]}
{"id": "C101", "title": "The reported number of operations and performance", "statement": "The programs report 2 X Y K operations, computed with doubles, and repetitions times this number divided by 10^9 and by the duration. The reported number is exact for square matrices up to N = 208064 and not for N = 208065; for all sizes up to 2^53 it has at most two relative errors of 2^-53, the performance at most five. benchmark.cpp divides by full milliseconds and reports an infinite performance below one. The number compares as follows with the operations that every execution needs to compute the entries of its result (a multiplication and an addition per product): the references, looped, the non-blocked single, multNaive, multTransposed, multCounter, multBlocked2, multExchanged, multRegister and multIntrinLoop need exactly 2 N^3; algorithms, semi and the blocked single need one more addition for each block of block_input products; pseudodynamic is in between for every schedule; combined and kernel_tiled need 2 K + K / 64 per entry and repetition with K = N rounded up to a multiple of 256, kernel_test 2 K + K / 16 with multiples of 512; multGPU, multGPUASM and multASM need four more additions per block of 128, 256 or n products. Two reports are wrong: multBlocked4 needs only a quarter of the reported operations, and algorithms, looped, semi (which print a note) and proposal (which does not) ignore the number of repetitions, by which the reported performance is multiplied.", "quantifier": "for all matrix sizes, block sizes, numbers of repetitions and localities of the domains of the claims on the algorithms, all durations from 2^-100 to 2^100 seconds, all schedules", "why_tests_cant": "The number of operations is not observable from the result; rounding differs for every size.", "anchors": ["src/matrix_multiply_application/matrix_multiply.cpp", "src/variants/combined.cpp", "src/reference_kernels/kernel_tiled.cpp", "otherExperiments/benchmark.cpp"]}
{"id": "C102", "title": "The results hold in the memory model of C++", "statement": "In the memory model of C++ (reads of non-atomic objects yield the value of a visible side effect, accesses are ordered by the program order within a task and by starting and waiting for tasks, a data race makes the behaviour undefined) a fork/join program has an execution with a data race if and only if some interleaving of its accesses reaches a race; otherwise its results and errors are exactly those of the interleavings. Hence the reference multiplications, algorithms, single and static_improved with all tasks in flight, multNaive, multCounter, multBlocked2, multBlocked4, multExchanged, multGPU, multGPUASM, multRegister, multIntrinLoop, multASM, kernel_tiled, kernel_test and combined for N <= 256 have defined behaviour on the domains of C91 and C96, no execution fails, complete executions exist and each of them ends with the proved result. The behaviour of combined is undefined for every N > 256 whatever the matrices.", "quantifier": "for all sizes, matrices, block sizes and contents of uninitialised memory, and for all executions that the memory model permits (not only interleavings)", "why_tests_cant": "Executions that are not interleavings depend on compiler and processor and are hardly ever observed; undefined behaviour need not show at all.", "anchors": ["src/reference_kernels/naive.hpp", "src/variants/algorithms.hpp", "src/variants/components/recursive.cpp", "src/variants/static_improved.cpp", "src/variants/combined.cpp: combined::matrix_multiply (first)", "src/reference_kernels/kernel_tiled.cpp", "otherExperiments"]}
{"id": "C103", "title": "Wrap-around of 64-bit arithmetic within the algorithms", "statement": "With all size_t and uint64_t arithmetic taken modulo 2^64 (indices, loop variables, sizes of padded matrices, the work accounting of the schedule, the counts of the block iterator), the algorithms single, pseudodynamic, algorithms, semi, combined, kernel_tiled and kernel_test and the whole program have exactly the results, errors and undefined behaviour they have with unbounded numbers, for all matrix and block sizes below 2^31. looped needs more: its number of blocks (N/block_result)^2 * (N/block_input) and its number of steps per block block_result^2 * block_input are computed modulo 2^64. It returns the product for all inputs if and only if both block sizes divide N and neither count reaches 2^64 (so always if N^3 < 2^64); if one of them is a multiple of 2^64 (N = 2^22 with blocks of size 1, or with a single block) it silently returns the zero matrix. From N = 2^32 on the program ends with std::out_of_range.", "quantifier": "for all N, block_result, block_input below 2^31, all matrices, repetitions, numbers of localities, schedules and interleavings, if memory suffices", "why_tests_cant": "Matrices large enough for a wrap-around do not fit into the memory of a test machine.", "anchors": ["src/reference_kernels/kernel.hpp", "src/variants/components/recursive.cpp", "src/variants/static_improved.cpp", "src/variants/index_iterator.hpp", "src/variants/looped.hpp: inner_index_count", "src/variants/algorithms.hpp", "src/variants/semi.cpp", "src/variants/combined.cpp", "src/reference_kernels/kernel_tiled.cpp", "src/reference_kernels/kernel_test.cpp", "src/matrix_multiply_application/matrix_multiply.cpp"]}
{"id": "C104", "title": "What a passed check says", "statement": "If the check of the application passes, then C has N*N elements, all of them finite and each less than 1E-10 (as a double) away from the element of A, the difference taken exactly, not as rounded by the check; and an infinite, undefined or more distant element makes the check fail. If a test case with random matrices with entries from -1 to 1 and N up to 1024 passes, then the matrix the algorithm has returned in that run has finite elements, each less than 1.2E-8 away from the exact product, although the reference it was compared with is rounded too. In general fabs(x - y) < t holds for doubles only if x and y are finite and their exact difference is below t, and it does hold if the exact difference is at most some double below t.", "quantifier": "all algorithms, options, sizes (tests: up to 1024), drawn numbers, fused or separate multiplications and additions, all interleavings, all matrices to be compared", "why_tests_cant": "The tests are themselves the subject: a check that accepts wrong results goes unnoticed as long as the results are right.", "anchors": ["src/matrix_multiply_application/matrix_multiply.cpp:372-440", "src/tests/test_single.cpp", "src/tests/test_pseudodynamic.cpp", "src/tests/test_algorithms.cpp", "src/tests/test_looped.cpp", "src/tests/test_semi.cpp", "src/tests/test_combined.cpp"]}
{"id": "C105", "title": "The program compiled with -ffast-math", "statement": "SConstruct compiles the release program and the tests with -ffast-math, which lets the compiler add up the products of every entry in any order and grouping, drop and insert zeros, and fuse multiplications with additions or not, differently for every entry. The formula an algorithm asks for can be turned by these rules into exactly the sums of the same products; every algorithm (single, pseudodynamic, algorithms, looped, semi, combined, kernel_tiled, kernel_test, naive) inside its domain asks for the products A(i,k)*B(k,j), k < N, each once (combined: once per repetition) and otherwise only for products of zeros. Hence whatever the compiler does to the sums, the error of each entry is at most that of N+1 roundings, products of integer matrices are exact while the absolute values of the products of each entry sum up to at most 2^53, the driver program returns A and its check passes, and all tests with random matrices pass except random_matrices_2 of test_semi.cpp. The flag does matter: there are inputs for which two admissible orders give different doubles.", "quantifier": "all sizes, block sizes, repetitions, matrices of finite doubles (tests: from -1 to 1), interleavings, and all orders, groupings and fusions chosen per entry", "why_tests_cant": "A test sees the one order that one compiler version has chosen for one machine; other compilers and vector widths choose others.", "anchors": ["SConstruct:26", "src/variants/single.cpp", "src/variants/pseudodynamic.cpp", "src/variants/algorithms.hpp", "src/variants/looped.hpp", "src/variants/semi.cpp", "src/variants/combined.cpp", "src/reference_kernels/kernel_tiled.cpp", "src/reference_kernels/kernel_test.cpp", "src/reference_kernels/naive.hpp", "src/matrix_multiply_application/matrix_multiply.cpp:357-429", "src/tests/test_single.cpp", "src/tests/test_pseudodynamic.cpp", "src/tests/test_algorithms.cpp", "src/tests/test_looped.cpp", "src/tests/test_semi.cpp", "src/tests/test_combined.cpp"]}
{"id": "C106", "title": "Numbers of blocks when -ffast-math replaces divisions by reciprocals", "statement": "-ffast-math includes -freciprocal-math, so the compiler may replace the divisions that count the blocks in iterate_indices, ceil(double(max - min) / double(block)), by multiplications with 1 / double(block). For ranges below 2^52 the count is then the least number of blocks that covers the range, or, only if the blocks fill the range exactly, one more. It is right if the block size or the number of blocks is a power of two, but 1260 * (1/420) gives four blocks instead of three. combined uses blocks of 420 rows on a range padded to a multiple of 420. So for all N below 2^51 for which the count of these blocks is right, for example for N up to 840 and all N with a number of row blocks that is a power of two, its result does not depend on how the divisions are compiled; for all other N, for example from 841 to 1260, there are interleavings with a wrong result, in which the entries of the last block (the last 420 padded rows and 256 padded columns) are too large by the factor 1 + ceil(N/256), and two tasks write the same elements concurrently.", "quantifier": "all range and block sizes below the bounds, all choices of division or reciprocal per division, all matrices, all sizes N < 2^51, all numbers of repetitions", "why_tests_cant": "The tests run one binary of one compiler; whether a division becomes a multiplication by the reciprocal depends on the compiler, its version and what it inlines, and only some sizes are affected (of the sizes of test_combined.cpp only 1024).", "anchors": ["SConstruct:26", "src/variants/index_iterator.hpp:256-268", "src/variants/combined.cpp:15-25", "src/variants/combined.cpp:187-326"]}
{"id": "C107", "title": "Exact result of the recursive and the distributed multiplication for every size", "statement": "Halve N, rounding down, until the size is at most block_result; let s be that size. For all sizes, block sizes and matrices every execution of single::matrix_multiply has the same outcome. If B is transposed, block_input is not 0, s is at least 4, and s is not a multiple of 4 or the last input block of the last row reached ends outside the matrices, it accesses memory out of bounds. Otherwise it returns a vector of N*N elements: as extract_submatrix uses twice the half size as row length, an odd size shifts the entries to the front of the vector, and a stated function says which entry of the product lies at which position; (2^e*s)^2 positions, where e is the number of halvings, hold distinct entries and all others hold zero. If block_input does not divide N, the entries contain products of the rows that follow. For pseudodynamic::matrix_multiply the same holds for each package of the schedule, and the cells of no package are zero. Consequently, in exact arithmetic (any nontrivial semiring) single-node results are the product for all matrices if and only if N can be halved without remainder down to a size s <= block_result and, if B is transposed, block_input is not 0 and s >= 4, block_input divides N and 4 divides s; distributed results if and only if the packages cover the matrix and this holds for every package.", "quantifier": "for every N, block_result, block_input, number of repetitions > 0, all matrices, both layouts of B, every schedule parameter and number of localities, every interleaving, any arithmetic", "why_tests_cant": "A test shows for single sizes that a result is right or wrong; it cannot show that a condition on the sizes is exactly the right one, nor what all wrong results look like.", "anchors": ["src/variants/components/recursive.cpp: distribute_recursively, extract_submatrix", "src/variants/single.cpp: single::matrix_multiply", "src/variants/components/multiplier.cpp: calculate_submatrix", "src/reference_kernels/kernel.hpp: kernel::kernel_transposed_blocked", "src/variants/static_improved.cpp: matrix_multiply, insert_submatrix", "src/variants/pseudodynamic.cpp: pseudodynamic::matrix_multiply"]}
{"id": "C108", "title": "What the driver writes and what evaluate.py reads", "statement": "With --verbose=0, for every algorithm that ends normally, searching the output for 'total time: (.*?)s' and 'average time per run: (.*?)s' gives the measured time and this time divided by the repetitions. On the root locality 'performance: (.*?)Gflops' gives repetitions * 2N^3 / 1E9 / time as computed by the driver for every algorithm except combined and kernel_tiled, also when the performance of the reference is written; for these two it gives the inner performance, computed with the padded sizes (for combined also with the time of the innermost loops only). With an unknown name that does not itself contain these texts nothing is found. With --check the output contains 'check passed' exactly if the result is accepted and 'error: check failed!' exactly if it is not; otherwise it contains neither. The ten runs of evaluate.py compute the right result on any number of localities, and the three numbers read are those of the run.", "quantifier": "for all sizes, repetitions, measured times, outcomes, locality names and messages of caught exceptions that do not contain the texts looked for, and every way of writing doubles with digits, signs, a point, an exponent, inf and nan", "why_tests_cant": "The output depends on measured times and on the machine; a test sees one output, and that a first match is never an earlier line has to hold for all of them.", "anchors": ["src/matrix_multiply_application/matrix_multiply.cpp: hpx_main, main", "src/variants/combined.cpp: matrix_multiply", "src/reference_kernels/kernel_tiled.cpp: matrix_multiply", "src/variants/static_improved.cpp: matrix_multiply", "evaluate.py: run"]}
{"id": "C109", "title": "Exact result of 'looped' for every size and all block sizes", "statement": "For block sizes different from 0 looped::matrix_multiply has exactly the following outcome. If block_result divides N it returns, without any error, the matrix whose entry (i,j) is the sum of A[i][k]*B[k][j] over k < N - N % block_input only: the number of input blocks is rounded down, so the last N % block_input terms are missing (with the identity as B, as in the driver, the last N % block_input columns of the result are zero). If block_result does not divide N, it returns the zero matrix if a block is larger than the matrix; the sums over the first block_input terms in the leading block_result x block_result block and zeros elsewhere if exactly one block fits in each dimension; and accesses memory out of bounds in all other cases.", "quantifier": "for every N, block_result > 0, block_input > 0 and all matrices, any arithmetic", "why_tests_cant": "Which part of the sums is missing depends on the order of the iterator and on rounding in all dimensions; tests with dividing block sizes never see it.", "anchors": ["src/variants/looped.hpp: iterate_indices, dim_index_iterator, matrix_multiply"]}
{"id": "C110", "title": "Exactly the parameters with which each algorithm returns the product", "statement": "In exact arithmetic (any nontrivial semiring) every execution returns the product of all pairs of N x N matrices if and only if: naive: always; single: N = 0, or at least one repetition, N can be halved without remainder to a size s <= block_result and, if B is transposed, block_input is not 0 and s >= 4, block_input divides N and 4 divides s; pseudodynamic (N > 0, schedule exists): at least one repetition, the packages cover the matrix and the condition of single holds for each; algorithms: block_result > 0, and N = 0 or block_input > 0 and both divide N; looped: both block sizes are positive and divide N; semi: N = 0, or block_input > 0 and block_input and 4 divide N; combined: N = 0, or the number of repetitions equals 1 in the semiring; kernel_tiled: N = 0 or at least one repetition; kernel_test: N = 0, or N is a safe size (C39) and there is at least one repetition; proposal: never.", "quantifier": "for every N, all parameters, any nontrivial semiring, every interleaving; equivalences over all matrices", "why_tests_cant": "An equivalence over all parameters and all matrices; a test can only sample one side.", "anchors": ["src/variants/*.hpp", "src/variants/*.cpp", "src/reference_kernels/naive.hpp"]}
{"id": "C111", "title": "Parallelism and quality of the schedules", "statement": "Let splits be the number of squares that are split if a square of size N and all parts larger than min_work_size are split into quarters of half the size; for N <= 2^d*min_work_size it is at most (4^d-1)/3. create_schedule makes at most that many iterations; after k iterations there are exactly 3k+1 packages on at most k+1 localities. Hence for N <= 2^d*min_work_size a schedule has at most 4^d packages and at most (4^d+2)/3 localities compute, however many there are: only the first one for N <= min_work_size, at most two for N <= 2*min_work_size (with the default value up to N = 512). When the computation ends, the constraints of the user hold, or all packages of the most loaded localities are at most min_work_size, or the largest load is less than twice the smallest one and, with L localities, less than 2*N*N/L.", "quantifier": "for every N (N*N < 2^63 for the quality), all balancing parameters and every number of localities", "why_tests_cant": "Bounds for all sizes and numbers of localities.", "anchors": ["src/variants/static_improved.cpp: create_schedule, fulfills_constraints"]}
{"id": "C112", "title": "The program with the default block sizes, in particular for powers of two", "statement": "The documentation says that N should be a power of 2. With everything except n-value, algorithm, check and verbose left at its default, in exact arithmetic: single multiplies all matrices of size N if and only if N <= 3 or N = 2^a*m with a >= 7 and m < 32. For N = 2^k: single and pseudodynamic (on any number of localities) end with A as result and a passing check for k <= 1 and k >= 7, and access memory out of bounds for k = 2,...,6 (N = 4, the default, to 64); algorithms and semi do so from k = 7 on and access memory out of bounds for every smaller k; looped returns the zero matrix for k <= 6, and a check then passes exactly if all random numbers are close to zero; combined always raises an exception; kernel_tiled always works; kernel_test works exactly from k = 9 on; proposal never returns. Whenever an algorithm multiplies all matrices of size N (C110), the program with it ends with status 0, A as result and a passing check.", "quantifier": "for every N respectively k, all random numbers, every semiring (with 0 \u2260 1 for the two recursive algorithms), every number of localities, with and without check and at every verbosity", "why_tests_cant": "Statement about infinitely many sizes; the undefined behaviour for small ones need not be visible in a run.", "anchors": ["src/matrix_multiply_application/matrix_multiply.cpp: main (options), hpx_main", "src/variants/components/multiplier.cpp: calculate_submatrix", "README.md: Usage"]}
{"id": "C113", "title": "Iterator objects that refer to the vectors of their user", "statement": "dim_index_iterator holds references to the vectors min, max and step, and its operator= assigns through them. Within one range this is invisible: after any sequence of copies, assignments and increments of iterators over the same three vectors of equal lengths, the vectors are unchanged, no access is out of bounds, and every iterator stands where the increments in its history (its own and those of the iterators it was copied or assigned from) lead; so it behaves as a value. Between ranges it is not: x = y overwrites the three vectors of x with those of y, changes no other vector, and every other iterator z over the vectors of x moves in the range of y from then on, although z does not occur in the assignment; if z has more dimensions than the range of y and that is exhausted, the next increment of z reads past the end of a vector. Construction from vectors of different lengths, and only that, ends the program (throw without exception). Comparing two iterators yields true if and only if the current index of the first is a prefix of that of the second, and reads past the end of the second if and only if that is a proper prefix of the first.", "quantifier": "for all vectors, any number of iterators and every finite sequence of operations", "why_tests_cant": "Statement about all histories of aliased objects; the program itself uses one range at a time, so no run of it shows the aliasing.", "anchors": ["src/variants/index_iterator.hpp: dim_index_iterator"]}
{"id": "C114", "title": "The program computes a function of its input", "statement": "For all options, all random numbers, any arithmetic (also floating point, where sums in a different order differ) and any positive number of localities, all executions of the driver program end in the same way, whatever the interleaving of the threads and tasks: with the same report (exit status, result matrix to the last bit, verdict of the check) or with the same error. This includes all sizes and block sizes for which an algorithm is wrong or undefined. The only exception is kernel_test with a size that is not safe (C39): there every execution ends with an access out of bounds or a misaligned one. The number of localities matters only for pseudodynamic. For combined, whose threads race on a flag (C36), this is a statement about interleavings of its reads and writes.", "quantifier": "for all options, every matrix, any arithmetic, every number of localities and every interleaving", "why_tests_cant": "A test sees one schedule at a time; the statement compares all of them for all options.", "anchors": ["src/matrix_multiply_application/matrix_multiply.cpp: main, hpx_main", "src/variants/*.cpp", "src/variants/*.hpp", "src/reference_kernels/*.cpp"]}
{"id": "C115", "title": "Which settings the last bit of a result depends on", "statement": "single and pseudodynamic add the products of an entry in an order that depends on the settings, so in floating point the result may. Let N = 2^e q. If no package and no result block of at most q rows is split (q <= min_work_size, q <= block_result) and, where input blocks are used (B transposed, block_input not 0), block_input divides N and q is a multiple of four, then every entry is added in one fixed order (blockwise if input blocks are used, left to right otherwise): the results of both algorithms agree to the last bit for all numbers of localities, balancing parameters, block_result, repetitions (at least one) and orders of the tasks, in any arithmetic. For N = 2^e >= 4 this means min_work_size >= 4 and block_result >= 4. Below four this fails: for every power of two N >= 4 and every block_input with 2 <= block_input < N that divides N there are matrices of doubles whose product differs in every entry between block_result in {1,2,3} and block_result >= 4, and matrices for which pseudodynamic with min_work_size in {1,2,3}, max_work_difference <= 1 and N^2 + 1 < 2 (localities - 1) has a result that differs from that with one or two localities and from that with min_work_size >= 4.", "quantifier": "for all sizes, settings, numbers of localities and task orders; the positive part for every matrix in any arithmetic, the negative part for IEEE doubles with and without fused operations", "why_tests_cant": "The repository compares with a tolerance or with an identity matrix, which hides the order of the additions; the claim compares all pairs of settings bit by bit.", "anchors": ["src/variants/components/multiplier.cpp: calculate_submatrix", "src/variants/components/recursive.cpp: distribute_recursively", "src/variants/static_improved.cpp: create_schedule, matrix_multiply", "src/variants/single.cpp", "src/variants/pseudodynamic.cpp"]}
{"id": "C116", "title": "Wrong results are noticed by the check of the application", "statement": "With doubles drawn from [-1,1], call an element tiny if its absolute value is below 1E-10. combined with r repetitions returns, for every r, the matrix whose elements are those of A added up r times with rounding; for r != 1 the check passes only if all elements of A are tiny, and for r = 0 and r = 2 exactly then. single with a size that cannot be halved without remainder down to block_result (an odd one above it, for instance) passes the check only if the last element of A is tiny; pseudodynamic with an odd size that is distributed (at least three localities, min_work_size < N, max_work_difference <= N*N, N*N < 2^63) only if the last row and the last column of A are tiny. looped with a block_result that divides N returns A bit for bit except for zeros in the last N % block_input columns, and passes the check exactly if A is tiny there. single with block_result = 0 passes exactly if all elements are tiny. In general a zero in the place of an element that is not tiny makes the check fail, whatever the algorithm.", "quantifier": "for all sizes, options, drawn numbers, numbers of localities and interleavings, with and without fused operations, in IEEE doubles", "why_tests_cant": "No test runs the application; whether a wrong result is reported depends on the drawn numbers, the rounding and the parameters.", "anchors": ["src/matrix_multiply_application/matrix_multiply.cpp: main", "src/variants/combined.cpp: matrix_multiply", "src/variants/looped.cpp: matrix_multiply", "src/variants/components/recursive.cpp: distribute_recursively", "src/variants/static_improved.cpp: create_schedule"]}
{"id": "C117", "title": "Components are found by name, and the work is done where the schedule says", "statement": "single and pseudodynamic create their components on localities, register them under names and find them again by name. If a lookup of a name may return any object that is registered under it (pseudodynamic registers a recursive for every package and repetition under the same name), the program has exactly the same outcomes as if every call reached the right object, for all inputs. Names of different localities and of different types differ. Every block is computed on the locality to which the schedule gives the package it belongs to (single: on the calling locality); with more than one locality the root computes nothing. The number of elements computed on a locality is, for each of its packages and repetitions, the square of 2^h * (n / 2^h), h the number of halvings; if the size can be halved down to min_work_size and block_result, it is exactly the load that the scheduler has counted for it.", "quantifier": "for all matrices, sizes, parameters, repetitions, all lists of localities with any numbers in any order, all choices of the objects that lookups return, all interleavings", "why_tests_cant": "The tests run on one locality with one package; which of several objects with the same name is found depends on the timing in a distributed run.", "anchors": ["src/variants/static_improved.cpp: matrix_multiply", "src/variants/single.cpp: matrix_multiply", "src/variants/components/recursive.cpp: distribute_recursively", "src/variants/components/multiplier.cpp: calculate_submatrix"]}
{"id": "C118", "title": "What the recursion and the scheduler report with verbose >= 1", "statement": "With verbose = 0 the recursion writes nothing. With verbose >= 1 single writes in each repetition exactly 4^k lines 'work on' for every block size N / 2^k down to the one at which the halving stops, (4^(h+1) - 1) / 3 in total, and (4^h - 1) / 3 lines 'handling large matrix', h the number of halvings; 4^h blocks are computed. For pseudodynamic these numbers are the sums over the packages of the schedule, and every line 'work on' names the locality of its package and a block of it. The printed schedule says how many localities there are and which sizes their packages have, in order, and nothing else: two schedules have the same text exactly if these agree. The squares of the printed sizes add up to at most N * N, and to N * N if N can be halved down to min_work_size.", "quantifier": "for all matrices, sizes, parameters, repetitions, lists of localities, schedules and interleavings", "why_tests_cant": "The tests run with verbose = 0 and do not look at the output; the numbers of lines are exponential in the depth of the recursion.", "anchors": ["src/variants/components/recursive.cpp: distribute_recursively", "src/variants/static_improved.cpp: print_schedule", "src/variants/static_improved.cpp: matrix_multiply"]}
{"id": "C119", "title": "How much data travels between the localities", "statement": "single sends no vector to another locality, and neither does pseudodynamic with one locality. With more localities the root sends both matrices to every other locality exactly once, however many repetitions there are; every other locality sends in each repetition exactly the blocks of its packages back to the root; two localities other than the root exchange nothing, since the recursion inside of a package stays on its locality. All in all (localities - 1) * (|A| + |B|) + repetitions * (sum of the squares of the package sizes) elements are sent; that is at most (localities - 1) * (|A| + |B|) + repetitions * N * N, with equality if N can be halved down to min_work_size.", "quantifier": "for all matrices, sizes, parameters, repetitions, lists of localities with any numbers in any order, all choices of the objects that lookups return and all interleavings", "why_tests_cant": "The tests run on one locality, and a superfluous transfer does not change the result.", "anchors": ["src/variants/static_improved.cpp: matrix_multiply", "src/variants/single.cpp: matrix_multiply", "src/variants/components/recursive.cpp: distribute_recursively"]}
{"id": "C120", "title": "What a command line means", "statement": "A command line of arguments --name=value, --help and --hpx:... is accepted if and only if no option is given twice and every value has the form of its type (numbers: an optional sign, leading zeros and a number below 2^64; truth values: on, yes, 1, true, off, no, 0, false in upper or lower case; the name of the algorithm: not empty). Then there is exactly one choice of options that has the given values and the default values for everything else, and the program runs with this choice; no option is read with a wrong type. Otherwise the program ends with status 0 without computing anything. The order of the arguments is irrelevant. Every choice of options with values below 2^64 can be requested. A negative number -m is accepted and means 2^64 - m. The commands in README.md give the right product of size 8192 (that for combined ends with an exception), and those of evaluate.py, without the option that does not exist, request the options of C108.", "quantifier": "for all lists of arguments of these forms, all texts as values, all ways of reading doubles and all environments", "why_tests_cant": "No test starts the program; there are infinitely many texts and orders of arguments.", "anchors": ["src/matrix_multiply_application/matrix_multiply.cpp: main (lines 243-317)", "src/matrix_multiply_application/matrix_multiply.cpp: hpx_main (lines 57-76)", "README.md", "evaluate.py: run"]}
{"id": "C121", "title": "How much data the recursion copies", "statement": "Counting the elements of all vectors that are passed to or returned from an object (on the same locality or not), single passes both matrices once and returns in each repetition the sum over all levels k of the recursion of 4^k * (N / 2^k)^2 elements, and those of the last level twice, since the computing object returns them as well. If N is divided d times without remainder this is (d + 2) * N^2, and never more than that with d the number of halvings: the result is copied once per level. pseudodynamic passes both matrices once to each computing locality, and in each repetition returns this number for every package of the schedule.", "quantifier": "for all matrices, sizes, parameters, repetitions, lists of localities, all choices of the objects that lookups return and all interleavings", "why_tests_cant": "Superfluous copies do not change the result; the tests do not count them.", "anchors": ["src/variants/components/recursive.cpp: distribute_recursively", "src/variants/single.cpp: matrix_multiply", "src/variants/static_improved.cpp: matrix_multiply"]}
{"id": "C122", "title": "the tests do not influence each other; what the whole test program does", "statement": "Although the tests pass their parameters to hpx_main through 17 global variables, they do not influence each other: for any list of test cases in any order, and any values of the global variables before (for example those left by an aborted test or the measured times), the outcomes of the checks are those of the test cases run on their own, one after another. The exceptions are the two tests of the tiled layout, which fill their matrix with a static counter: they have these outcomes if they run at most once, and a second run in the same process has a failing check. With IEEE doubles, every selection of the 78 test cases without the 2 x 2 tests of test_semi.cpp passes all its checks in every order, and every selection with one of these, in particular the complete test program, reads out of bounds.", "quantifier": "for all lists of test cases, all orders, all initial values of the global variables, all measured times, all numbers drawn in [-1, 1], every decision of the compiler to contract multiplications and additions, all interleavings", "why_tests_cant": "A run of the test program shows one order; whether a test passes only because an earlier one has set a variable is not visible in it.", "anchors": ["src/tests/test_hpx_main.cpp: hpx_parameters, hpx_main", "src/tests/test_single.cpp", "src/tests/test_pseudodynamic.cpp", "src/tests/test_algorithms.cpp", "src/tests/test_looped.cpp", "src/tests/test_semi.cpp", "src/tests/test_combined.cpp", "src/tests/test_naive.cpp", "src/tests/test_tile_view.cpp", "src/tests/test_iterate_tiles.cpp", "src/tests/tests.cpp"]}
{"id": "C123", "title": "number of threads and grouping of loop iterations do not matter", "statement": "The results do not depend on how many threads execute the program, nor on how the iterations of parallel loops are distributed over them. For every fork/join program whose every interleaving is free of data races and ends with a result P: on any number of threads, and with the iterations of its parallel loops handed out in arbitrary groups, the run is finite, never uses more threads, has no data race, does not get stuck, and ends with P. Conversely, if there are as many threads as tasks can run at the same time, correctness on these threads implies correctness of every interleaving. This applies to the reference multiplications, algorithms, single, pseudodynamic, semi, kernel_tiled and kernel_test. A repetition of combined is free of data races on k threads exactly if k = 1 or N <= 256 (two threads suffice for the race), and computes the product on any number of threads.", "quantifier": "for all programs, all numbers of threads > 0, all groupings of parallel iterations in any order, all ways in which free threads choose tasks, all interleavings, all inputs in the domains of the variants", "why_tests_cant": "The tests run with a fixed number of threads of one machine and with the chunk sizes that the runtime happens to choose.", "anchors": ["src/tests/tests.cpp:10-18 --hpx:threads", "README.md:58-103 --hpx:threads=4", "otherExperiments/multRegister.cpp:14, multExchanged.cpp:14, multGPUASM.cpp:283 omp_set_num_threads(2)", "src/reference_kernels/naive.hpp", "src/variants/algorithms.hpp: for_each_n", "src/variants/combined.cpp: first", "src/variants/recursive.cpp: wait_all"]}
{"id": "C124", "title": "how many threads each variant can keep busy", "statement": "The number of threads that can be busy at the same time is exactly: N for the reference multiplications, ceil(N / block_result)^2 for algorithms, 4^h for single where h is the number of halvings until the size is at most block_result, the sum of 4^h over the work packages for pseudodynamic, ceil(N / 256)^2 for combined (ceil(N / L3_X) * ceil(N / L3_Y) for other block sizes), for kernel_tiled likewise and ceil(N / 256)^2 for kernel_test, and the number of iterations of the outer loop for the parallel experiment kernels. For every smaller number of threads there is a moment at which all of them are busy, and more threads are never busy. semi never uses more than one thread, for any input, although it is built on the parallel index iterator.", "quantifier": "for all sizes and block sizes, all numbers of threads, all reachable states of all runs, all contents of the memory", "why_tests_cant": "A missing parallelisation does not change any result; that a number of threads is never exceeded is a statement about all states of all runs.", "anchors": ["src/variants/semi.cpp:24-107", "src/variants/combined.cpp:177-182", "src/reference_kernels/kernel_tiled.cpp", "src/reference_kernels/kernel_test.cpp", "src/variants/algorithms.hpp:134-160", "src/variants/recursive.cpp:37-94", "src/variants/static_improved.cpp:246-273", "src/reference_kernels/naive.hpp", "otherExperiments/"]}
{"id": "C125", "title": "why the blocking of semi is switched off", "statement": "semi.cpp contains two commented-out lines that add a blocking level {4, 4, 4} (serial, or parallel in rows and columns), with the remark that blocking leads to errors. With such a line switched on: if 4 divides N and block_input is 1, 2 or 4, every execution returns exactly what semi returns without blocking (the product in exact arithmetic); for all other N > 0 and block_input > 0 every execution accesses memory out of bounds. In particular for the default block_input = 128, with which semi works without blocking whenever 128 divides N: the innermost step is then larger than the block.", "quantifier": "for every N, block_input > 0, all A and B, every choice of the parallel dimensions (rows and columns for the first part, any for the second), every interleaving", "why_tests_cant": "the line is a comment, and tests can only try single sizes and schedules; the claim characterises all block sizes for which the line may be enabled", "anchors": ["src/variants/semi.cpp:57-63", "src/variants/index_iterator.hpp:168-362"]}
{"id": "C126", "title": "every entry of a result is a fixed formula in one row and one column", "statement": "For each of the nine multiplications (naive with both layouts of B, single, pseudodynamic, algorithms, looped, semi, combined, kernel_tiled, kernel_test), with sizes and block sizes for which it works, there is a formula for the entries (i, j) of the result (the same for all entries, except that for pseudodynamic with input blocks it may depend on the entry) that depends neither on the elements of the matrices nor on the arithmetic nor on the interleaving. It takes each of the N products of row i of A and column j of B exactly once and no other product (combined: once per repetition; combined, kernel_tiled and kernel_test also products of the zeros of the padding). The number of partial sums and of products of zeros in the formula is known: N/block_input partial sums where input blocks are used, none otherwise; 4*ceil(N/256) blocks of 64 for combined and kernel_tiled, 32*ceil(N/512) blocks of 16 for kernel_test. It follows that entry (i, j) depends only on row i and column j, to the last bit, in any arithmetic, and that a change of the numbers that respects zero, sum and multiply-add can be made before or after the multiplication.", "quantifier": "for all sizes in the domain of the algorithm, all block sizes, numbers of repetitions, localities and schedules, all matrices, any arithmetic, every interleaving", "why_tests_cant": "A test runs with some matrices in one arithmetic; that the way an entry is computed is the same for all values, and that no other element is looked at, is a statement about all of them.", "anchors": ["src/reference_kernels/naive.hpp", "src/variants/components/recursive.cpp", "src/variants/static_improved.cpp", "src/variants/algorithms.hpp", "src/variants/looped.hpp", "src/variants/semi.cpp", "src/variants/combined.cpp", "src/reference_kernels/kernel_tiled.cpp", "src/reference_kernels/kernel_test.cpp"]}
{"id": "C127", "title": "a NaN is not lost and does not spread", "statement": "With IEEE doubles in the order of the source, with or without fused multiply-add, in all nine multiplications: if one of the products of an entry (i, j) is not a number (a factor is NaN, or zero meets infinity, e.g. an infinite element meets a zero of the unit matrix), the entry is NaN; neither the blocking nor the padding loses it. If a single element of A becomes NaN, its row of the result becomes NaN and all other rows stay the same, to the last bit; the same for B and columns. (The repository is compiled with -ffast-math, which allows a compiler to assume that there are no NaNs; the claim is about the source.)", "quantifier": "for all matrices of doubles, all sizes in the domain of the algorithm, all block sizes, numbers of repetitions (at least one), localities and schedules, every choice of fused operations and every interleaving", "why_tests_cant": "The tests only use finite numbers, and a NaN can sit at any place of any matrix.", "anchors": ["src/reference_kernels/naive.hpp", "src/variants/components/recursive.cpp", "src/variants/static_improved.cpp", "src/variants/algorithms.hpp", "src/variants/looped.hpp", "src/variants/semi.cpp", "src/variants/combined.cpp", "src/reference_kernels/kernel_tiled.cpp", "src/reference_kernels/kernel_test.cpp", "CMakeLists.txt:51"]}
{"id": "C128", "title": "which multiplications agree to the last bit", "statement": "In every arithmetic: combined (one repetition) and kernel_tiled return the same matrix; algorithms, semi and single return the same matrix for equal block_input; the naive multiplication, looped and single without input blocks return the same matrix, in both layouts of the second matrix. With IEEE doubles in the order of the source without fused multiply-add: combined and kernel_tiled agree bit by bit with the naive multiplication for all matrices of size N exactly if N <= 65, although they pad and use blocks of 64; algorithms and semi exactly if N = 0, block_input = 1 or block_input = N; kernel_test, for its safe sizes, only if N = 0. With fused multiply-add, for N <= 64, the only possible difference between combined and the naive multiplication is a negative zero in the latter where the former has a positive zero.", "quantifier": "for all sizes and block sizes in the domain of the algorithm, all matrices of doubles (infinities and NaN included), all numbers of repetitions (at least one) and all interleavings", "why_tests_cant": "The tests compare with a tolerance. Whether two orders of summation agree for all doubles of a size, and that 65 is the exact limit, cannot be found by sampling.", "anchors": ["src/reference_kernels/naive.hpp:7-39", "src/variants/combined.cpp:130-260", "src/reference_kernels/kernel_tiled.cpp:120-340", "src/variants/algorithms.hpp:200-240", "src/variants/semi.cpp", "src/variants/looped.hpp", "src/variants/components/recursive.cpp", "src/reference_kernels/kernel_test.cpp"]}
{"id": "C129", "title": "symmetries of the multiplication that survive rounding", "statement": "For each multiplication and sizes for which it works, with IEEE doubles, with or without fused multiply-add, to the last bit: (1) permuting, repeating or leaving out rows of A and columns of B moves the entries of the result in the same way and changes none of them; (2) the product of B transposed and A transposed is the transpose of the product of A and B, and the product of A with its transpose is symmetric, despite rounding, blocking and padding; (3) negating both matrices leaves the result unchanged; (4) negating one matrix negates every entry of the result, except that zeros may have either sign. For pseudodynamic, (1) and (2) hold without input blocks; (3) and (4) hold whenever it is correct.", "quantifier": "for all sizes, block sizes and numbers of repetitions in the domain of the algorithm, all matrices of doubles (infinities and NaN included), all selections of rows and columns, all interleavings", "why_tests_cant": "The unit tests use fixed matrices and compare with a tolerance; exact symmetry for all doubles depends on the order of summation being the same for every entry, which no finite number of runs shows.", "anchors": ["src/reference_kernels/naive.hpp:7-39", "src/variants/combined.cpp:130-260", "src/reference_kernels/kernel_tiled.cpp:120-340", "src/reference_kernels/kernel_test.cpp", "src/variants/algorithms.hpp:200-240", "src/variants/semi.cpp", "src/variants/looped.hpp", "src/variants/components/recursive.cpp"]}
{"id": "C130", "title": "order and powers of two survive rounding", "statement": "For each multiplication and sizes for which it works, with IEEE doubles, all multiply-adds fused or none: (1) for matrices of finite elements without negative ones, increasing elements of A or B never decreases an entry of the rounded result, and no entry is NaN or negative (infinity is possible); (2) multiplying A by a power of two and B by another one multiplies every entry of the result by their product exactly, provided the elements are multiples of 2^-g and 2^-h with g+h <= 1022 before and after scaling (nothing underflows) and the entry is finite in both results; signs of zeros are kept. Other factors than powers of two, negative elements and underflow are shown by examples to break the claims.", "quantifier": "for all sizes, block sizes and numbers of repetitions in the domain of the algorithm, all matrices of doubles as described, all exponents, all interleavings", "why_tests_cant": "The claims compare two runs for all pairs of matrices and all powers of two; sampled runs cannot show that no rounding step reverses the order or depends on the scale.", "anchors": ["src/reference_kernels/naive.hpp:7-39", "src/variants/combined.cpp:130-260", "src/reference_kernels/kernel_tiled.cpp:120-340", "src/reference_kernels/kernel_test.cpp", "src/variants/algorithms.hpp:200-240", "src/variants/semi.cpp", "src/variants/looped.hpp", "src/variants/components/recursive.cpp", "src/variants/static_improved.cpp"]}
{"id": "C131", "title": "The elements decide nothing: accesses, failures, data races and formulas are the same for all matrices of a size", "statement": "What a multiplication does depends on the sizes and parameters only, never on the elements of the matrices, for all parameters, also those with which it fails, runs forever or computes nonsense. For any two kinds of numbers and any relation between them that zero, addition and multiply-add respect: if two pairs of vectors of the same lengths are related element by element, then every execution on one pair has a counterpart on the other pair with the same failure or with related results of the same length. Hence matrices of the same sizes fail in the same ways whatever their elements are (also NaN or infinity); a mapping that respects the operations can be applied before or after the multiplication; one execution with symbols in place of the elements yields expressions whose values are the results for all matrices; a set of numbers closed under the operations and containing all elements of the matrices contains all elements of the results; and whether a data race is possible is the same for all matrices and all initial contents of the shared memory.", "quantifier": "for all sizes, vector lengths, block sizes, repetitions, numbers of localities, scheduler settings, values of the blocking macros, for all pairs of arithmetics and all relations they respect, all vectors, all interleavings", "why_tests_cant": "A test shows that no failure happened for the elements it used; that no other elements lead to another control flow, another failure or a race needs an argument about all elements, and it is needed to conclude anything from a test with random matrices.", "anchors": ["src/reference_kernels/naive.hpp:6-40", "src/reference_kernels/kernel.hpp:11-149", "src/variants/single.cpp:14-46", "src/variants/components/recursive.cpp:16-94", "src/variants/static_improved.cpp:197-275", "src/variants/algorithms.hpp:130-245", "src/variants/looped.hpp:148-284", "src/variants/semi.cpp:20-116", "src/variants/combined.cpp:61-373", "src/reference_kernels/kernel_tiled.cpp:64-546", "src/reference_kernels/kernel_test.cpp:26-252"]}
{"id": "C132", "title": "Every schedule ends: no livelock, no deadlock", "statement": "(Extends C91 and C96 to semi, to combined for all sizes, and to completion from every state.) No interleaving of the steps of the tasks of a fork/join program goes on forever. Where no task can make a further step, either all tasks have returned or one of them has failed; from every state reached on the way the execution can still be completed. For the programs in their domains the second alternative does not occur: for naive (both variants), algorithms, semi, single with its asynchronous recursion, pseudodynamic with its asynchronous packages, every maximal execution has all tasks returned and the product in C; the parallel loops of kernel_tiled, combined and kernel_test (sizes inside the padding) always finish, whatever C contains at the start.", "quantifier": "all matrices, sizes, block sizes, repetitions in the domains of the earlier properties; all contents of memory; all infinite and all maximal finite interleavings", "why_tests_cant": "A test that terminates says nothing about other schedules; nontermination under a rare schedule shows up as a hang without a verdict.", "anchors": ["src/reference_kernels/naive.hpp: naive_matrix_multiply, naive_matrix_multiply_transposed", "src/variants/algorithms.hpp: algorithms::matrix_multiply", "src/variants/semi.cpp: matrix_multiply", "src/variants/single.cpp: matrix_multiply", "src/variants/components/recursive.cpp: distribute_recursively", "src/variants/static_improved.cpp: matrix_multiply", "src/reference_kernels/kernel_tiled.cpp: matrix_multiply", "src/reference_kernels/kernel_test.cpp: matrix_multiply", "src/variants/combined.cpp: matrix_multiply"]}
{"id": "C133", "title": "The text of the program's own exceptions is gone before it can be read", "statement": "what() of matrix_multiplication_exception and memory_layout_exception composes the right text (class name, colon, message) in a temporary string, and returns the address of this text after the temporary has been destroyed: no string exists at the returned address, wherever the strings are put and whether or not appending moves the text. If a text is found there later, another string has been created there since. The call leaves all other strings as they were, and the message stays intact in the exception, so that returning the address of a member would have been right.", "quantifier": "all messages, all states of the memory, all placements of the temporaries, all later creations, changes and destructions of strings", "why_tests_cant": "Reading released memory usually still gives the old text, so a test that prints what() passes; whether it does depends on the allocator and on what happened in between.", "anchors": ["src/util/matrix_multiplication_exception.hpp:10-15", "src/memory_layout/memory_layout_exception.hpp:10-15"]}
{"id": "C134", "title": "an entry is right within the bound, or visibly not finite", "statement": "With IEEE doubles in the order of the source, with or without fused multiply-add, no entry is silently wrong. An entry of the result that is finite comes only from finite elements of its row and column, and differs from the exact sum S of the products by at most ((1+2^-53)^n - 1) * W + (1+2^-53)^n * m * 2^-1075, where W is the sum of the absolute values of the products and n, m are the numbers of roundings and products of the algorithm (as in C85; combined with r repetitions takes every product r times: r*S and r*W, 65 + r*K/64 roundings and r*K products with the padded length K). Unlike C85 and C97 no overflow has to be excluded beforehand: a finite result certifies that none has happened on the way. Conversely an entry that is infinite or NaN comes from an element of its row or column that is not finite, or from products that are too large: (1+2^-53)^n * (W + m * 2^-1075) is larger than the largest double. Overflow and NaN in other rows and columns do not matter. With -ffast-math, where the compiler may evaluate any of the formulas that C105 allows instead (other orders, fused or separate operations, added zeros removed), the same holds for every such result with r*N + 1 roundings and r*N products, where r is how often the program takes every product.", "quantifier": "for all matrices of doubles including infinities and NaN, all sizes in the domain of the algorithm, all block sizes, repetitions (at least one), localities and schedules, every choice of fused operations and every interleaving, and every result that C105 allows with -ffast-math", "why_tests_cant": "Overflow in an intermediate sum that disappears again (an infinity divided or clamped away, a block skipped) shows only for special magnitudes; tests use small random numbers. The claim is about all bit patterns of all elements.", "anchors": ["src/reference_kernels/naive.hpp", "src/variants/components/recursive.cpp", "src/variants/static_improved.cpp", "src/variants/algorithms.hpp", "src/variants/looped.hpp", "src/variants/semi.cpp", "src/variants/combined.cpp", "src/reference_kernels/kernel_tiled.cpp", "src/reference_kernels/kernel_test.cpp", "CMakeLists.txt:51"]}
{"id": "C135", "title": "Kernels of otherExperiments with doubles: visible failures, NaN, signs, symmetry, order and powers of two", "statement": "The ten correct kernels of otherExperiments follow the same rules for doubles as the multiplications of the application. With the arithmetic of the source, whichever multiply-adds are fused: an entry that is finite comes from finite elements and is within the error bound of its number of roundings (n + 1; 33 + 4 (n / 128) for multGPU, 65 + 4 (n / 256) for multGPUASM, n / 4 + 5 for multASM) and an entry that is not finite comes from an element that is not finite or from products that are too large (as C134); an entry with a NaN product, including infinity times zero, is NaN (C127); (-A)(-B) = AB to the last bit and (-A)B = -(AB) except for signs of zeros, larger factors without negative elements give products that are at least as large, and powers of two can be multiplied before or after (C129, C130; all multiply-adds fused or none); rows and columns can be selected before or after, the product of the transposed matrices in the other order is the transposed product, and A times A transposed is symmetric, to the last bit (C129). The old content of the result matrix (of multNaive and multTransposed: zeros) and of uninitialised arrays on the stack does not matter. If the compiler chooses another order of summation for each entry, in which every product is added once, all of this remains except the rules that compare entries with each other (selection and transposition), which need the same order for all entries. Run with symbols, the kernels give for every entry a sum of exactly the products of its row and column, so C134 applies to every result that C105 allows with -ffast-math.", "quantifier": "for all matrices of doubles including infinities and NaN, all sizes (subject to the kernel's divisibility), all contents of uninitialised arrays, every choice of fused operations, every order of summation for each entry, every interleaving of the parallel loops", "why_tests_cant": "The benchmark only compares sums of one small constant input; infinities, NaN, subnormal numbers, all orders of summation a compiler might choose and all thread schedules cannot be enumerated.", "anchors": ["otherExperiments/Makefile", "otherExperiments/multNaive.cpp", "otherExperiments/multTransposed.cpp", "otherExperiments/multCounter.cpp", "otherExperiments/multBlocked.cpp", "otherExperiments/multExchanged.cpp", "otherExperiments/multGPU.cpp", "otherExperiments/multGPUASM.cpp", "otherExperiments/multRegister.cpp", "otherExperiments/multIntrinLoop.cpp", "otherExperiments/multASM.cpp"]}
{"id": "C136", "title": "how much memory the recursion holds at the same time", "statement": "Counting the elements of the vectors of a call of distribute_recursively that exist at the same time (the vector C of every running call, the vectors in calculate_submatrix, the returned results that wait for their continuation), with blocks of size n, n/2, ... down to block_result on h+1 levels: no schedule ever holds more than the sum over k = 0..h of 4^k * (n / 2^k)^2 elements, at most (h+1)*n^2, and exactly (h+1)*n^2 if n is halved h times without remainder; there are schedules in which that many exist. Every complete execution holds at some moment at least the sum of (n / 2^k)^2 (one block per level, between n^2 and 4/3*n^2), and executing the calls one after the other never needs more. So the memory needed depends on the scheduler by up to a factor that grows with the depth of the recursion. single holds, beside the matrices of its caller, the two copies of the inputs, its C and these elements: up to (h+4)*N^2. pseudodynamic holds for its packages up to the sum of the amounts of the packages, never more than (h+1)*N^2 with the h of the whole matrix. Every execution has exactly 4^(h+1) - 2 steps (begin and end of each call, continuations); then only the result exists. The memory that the model of C90 sets aside for a call is exactly the largest amount.", "quantifier": "for all sizes, block sizes (also odd sizes and block_result 0), numbers of repetitions, schedules of work packages and all interleavings of the calls and continuations", "why_tests_cant": "how many results wait at the same time depends on the scheduler of HPX; a measurement shows the memory of one schedule, neither the largest nor the smallest amount", "anchors": ["src/variants/components/recursive.cpp:16-94", "src/variants/components/multiplier.cpp:16-35", "src/variants/single.cpp:14-46", "src/variants/static_improved.cpp:246-273"]}
