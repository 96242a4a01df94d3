import Verif.Model.Naive
import Verif.Model.Recursive
import Verif.Model.StaticImproved
import Verif.Model.Algorithms
import Verif.Model.Looped
import Verif.Model.Semi
import Verif.Model.Combined
import Verif.Model.Proposal
import Verif.Model.Util
/-
Model of the unit tests in /repo/src/tests: `hpx_main` of test_hpx_main.cpp and the bodies of the
test cases in test_single.cpp, test_pseudodynamic.cpp, test_algorithms.cpp, test_looped.cpp,
test_semi.cpp and test_combined.cpp.  Not modelled: Boost.Test itself (a check is a predicate of the
two numbers), starting and stopping HPX, the variables `check`, `duration`, `verbose` and
`is_root_node` (written, but not read by the programs under test or only for output).
-/
namespace Verif.Tests
open Kernel
variable {α : Type} [Arith α]

/-- The global variables of test_hpx_main.cpp:15–37 that the tests set, except the matrices. -/
structure Case where
  algorithm : String
  N : Nat
  transposed : Bool
  block_input : Nat
  block_result : Nat
  repetitions : Nat := 1
  min_work_size : Nat := 0
  max_work_difference : Nat := 0
  deriving DecidableEq, Repr

/-- What the tests get from their environment: the numbers drawn by a default-constructed random
engine, the check of two numbers (`BOOST_CHECK_SMALL(fabs(C[i] - C_reference[i]), 1E-8)` or
`BOOST_CHECK_CLOSE(C[i], C_reference[i], 1E-10)`), the number of localities and the uninitialised
arrays of memory_layout. -/
structure Env (α : Type) where
  rand : Nat → α
  close : α → α → Bool
  localities : Nat
  junk : Nat → Array Nat

/-- test_hpx_main.cpp:39–99 `hpx_main`; `C` is the global variable, the result is its new value.
Lines 45–46 and 49–52 pass `block_input` as `block_result` of the constructor and vice versa
(single.hpp:23, pseudodynamic.hpp:28).  `max_relative_work_difference` is `0.0` in all tests, so the
comparison `… < max_relative_work_difference` of a non-negative number is false. -/
def hpx_main (e : Env α) (c : Case) (A B C : Array α) : ND (Array α) :=
  if c.algorithm = "single" then
    Recursive.single_matrix_multiply c.N A B c.transposed c.block_input c.block_result
      c.repetitions
  else if c.algorithm = "pseudodynamic" then
    StaticImproved.pseudodynamic_matrix_multiply
      ⟨c.min_work_size, c.max_work_difference, fun _ _ => false⟩ c.N A B c.transposed
      c.block_input c.block_result c.repetitions e.localities
  else if c.algorithm = "algorithms" then
    if ¬ c.transposed then
      throw (.exception "algorithm \"algorithms\" requires B to be transposed")
    else Algorithms.matrix_multiply c.N A B c.block_input c.block_result
  else if c.algorithm = "looped" then
    if ¬ c.transposed then
      throw (.exception "algorithm \"looped\" requires B to be transposed")
    else ND.ofM (Looped.matrix_multiply c.N A B c.block_result c.block_input)
  else if c.algorithm = "semi" then
    if ¬ c.transposed then
      throw (.exception "algorithm \"semi\" requires B to be transposed")
    else Semi.matrix_multiply c.N A B c.block_input
  else if c.algorithm = "combined" then
    if c.transposed then
      throw (.exception "algorithm \"combined\" doens't allow B to be transposed")
    else Combined.matrix_multiply Combined.blocking c.N A B c.repetitions
  else if c.algorithm = "proposal" then
    ND.ofM (Proposal.run Proposal.blocking e.junk c.N A B)
  else pure C

/-- The loop over the checks at the end of every test case, e.g. test_single.cpp:249–251; the result
is the list of the outcomes of all checks. -/
def checks (e : Env α) (N : Nat) (C C_reference : Array α) : M (List Bool) :=
  forStep 0 (N * N) 1 [] fun i l => do
    let x ← rd C i
    let y ← rd C_reference i
    pure (l ++ [e.close x y])

/-- The reference of the tests with random matrices, e.g. test_single.cpp:243–247. -/
def reference (c : Case) (A B : Array α) : ND (Array α) :=
  if ¬ c.transposed then Naive.naive_matrix_multiply c.N A B
  else Naive.naive_matrix_multiply_transposed c.N A B

/-- Test cases `random_matrices_*`, e.g. test_single.cpp:208–252.  Both calls of
`create_random_matrix` construct a default engine (create_random_matrix.hpp:12). -/
def random_matrices (e : Env α) (c : Case) : ND (List Bool) := do
  let A ← ND.ofM (Util.create_random_matrix e.rand c.N)
  let B ← ND.ofM (Util.create_random_matrix e.rand c.N)
  let C ← hpx_main e c A B #[]
  let C_reference ← reference c A B
  ND.ofM (checks e c.N C C_reference)

/-- Test cases `apply_inverse_*` and `identity_2`, e.g. test_single.cpp:23–69 and 484–532: constant
matrices `A` and `B`, `B` is transposed if the algorithm wants it that way. -/
def fixed_matrices (e : Env α) (c : Case) (A B C_reference : Array α) : ND (List Bool) := do
  let B ← ND.ofM (if c.transposed then Util.transpose_matrix c.N B else pure B)
  let C ← hpx_main e c A B #[]
  ND.ofM (checks e c.N C C_reference)

/-- The sizes and block sizes of the tests with random matrices, e.g. test_single.cpp:208–482. -/
def sizes : List (Nat × Nat) := [(2, 1), (4, 1), (8, 1), (256, 128), (512, 128), (1024, 128)]

/-- The algorithms under test and whether `B` is transposed: test_single.cpp and
test_pseudodynamic.cpp (lines 23–482 and 484–926), test_algorithms.cpp:23–485,
test_looped.cpp:23–485, test_semi.cpp:23–534, test_combined.cpp:23–482. -/
def modes : List (String × Bool) :=
  [("single", false), ("single", true), ("pseudodynamic", false), ("pseudodynamic", true),
   ("algorithms", true), ("looped", true), ("semi", true), ("combined", false)]

/-- All test cases with random matrices.  In every test case the two block sizes are equal, the
number of repetitions is 1 and the balancing parameters are 0. -/
def random_cases : List Case :=
  modes.flatMap fun m => sizes.map fun s =>
    { algorithm := m.1, N := s.1, transposed := m.2, block_input := s.2, block_result := s.2 }

/-- All test cases with constant matrices (`identity_2` of test_semi.cpp has the parameters of
`apply_inverse_2`). -/
def fixed_cases : List Case :=
  modes.flatMap fun m => [2, 4, 8].map fun N =>
    { algorithm := m.1, N := N, transposed := m.2, block_input := 1, block_result := 1 }

end Verif.Tests
