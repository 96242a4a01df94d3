import Verif.Model.TestsInverse
import Verif.Model.TestsTiles
/-
Model of a run of the test program as a whole (/repo/src/tests): the test cases in some order, one
after another in the same process, with the global variables of test_hpx_main.cpp and the static
counters of the two tests of the tiled layout.  Simplified: starting and stopping HPX is a call of
`hpx_main` (tests.cpp:10–32 passes only the number of threads), the counters are unbounded.
-/
namespace Verif.TestSession
open Tests
variable {α : Type} [Arith α]

/-- What the test program gets from its environment: the numbers drawn by a default-constructed random
engine, the checks, the number of localities, the uninitialised arrays of memory_layout, the
floating-point number of a literal `m * 10^-d`, the conversion of an `int`, and the outcome of the
comparison `double(d) / double(m) < max_relative_work_difference` (static_improved.cpp:61–67). -/
structure Env (α : Type) where
  rand : Nat → α
  /-- `BOOST_CHECK_SMALL(fabs(x - y), 1E-8)` -/
  small8 : α → α → Bool
  /-- `BOOST_CHECK_SMALL(fabs(x - y), 1E-5)` -/
  small5 : α → α → Bool
  /-- `BOOST_CHECK_CLOSE(x, y, 1E-10)` -/
  close10 : α → α → Bool
  /-- `BOOST_CHECK_CLOSE(x, y, 1E-15)` -/
  close15 : α → α → Bool
  /-- `BOOST_CHECK_EQUAL(x, y)` -/
  equal : α → α → Bool
  localities : Nat
  junk : Nat → Array Nat
  lit : Int → Nat → α
  cast : Nat → α
  relOk : α → Nat → Nat → Bool

/-- test_hpx_main.cpp:14–37: the global variables of namespace `hpx_parameters`. -/
structure Globals (α : Type) where
  A : Array α
  B : Array α
  C : Array α
  C_reference : Array α
  N : Nat
  algorithm : String
  verbose : Nat
  check : Bool
  transposed : Bool
  block_input : Nat
  block_result : Nat
  duration : α
  repetitions : Nat
  is_root_node : Bool
  min_work_size : Nat
  max_work_difference : Nat
  max_relative_work_difference : α

/-- The variables that live longer than a test case: the global variables and the static counters of
test_tile_view.cpp:28 and test_iterate_tiles.cpp:16. -/
structure State (α : Type) where
  g : Globals α
  view_counter : Nat
  iterate_counter : Nat

/-- The test cases with their parameters (`c.N` and so on are the constants of the test case). -/
inductive Test where
  /-- `apply_inverse_*`, e.g. test_single.cpp:23–206 -/
  | inverse (c : Case)
  /-- `identity_2`, test_semi.cpp:23–69 -/
  | identity (c : Case)
  /-- `random_matrices_*`, e.g. test_single.cpp:208–482 -/
  | random (c : Case)
  /-- test_naive.cpp:16–108 -/
  | naive (N : Nat)
  /-- test_tile_view.cpp:22–79 -/
  | view
  /-- test_iterate_tiles.cpp:10–97 -/
  | iterate
  deriving DecidableEq, Repr

/-- The test cases of all files of /repo/src/tests. -/
def all_tests : List Test :=
  fixed_cases.map .inverse ++ random_cases.map .random ++
    [.identity ⟨"semi", 2, true, 1, 1, 1, 0, 0⟩, .naive 2, .naive 4, .naive 8, .view, .iterate]

/-- What all test cases that start HPX assign besides the matrices, e.g. test_single.cpp:36–53. -/
def set_parameters (c : Case) (g : Globals α) : Globals α :=
  let g := { g with algorithm := c.algorithm }
  let g := { g with verbose := 0 }
  let g := { g with check := true }
  let g := { g with transposed := c.transposed }
  let g := { g with block_input := c.block_input }
  let g := { g with block_result := c.block_result }
  let g := { g with duration := Arith.zero }
  let g := { g with repetitions := c.repetitions }
  let g := { g with is_root_node := false }
  let g := { g with min_work_size := c.min_work_size }
  let g := { g with max_work_difference := c.max_work_difference }
  { g with max_relative_work_difference := Arith.zero }

/-- `B = util::transpose_matrix(N, B)` in the tests with `B` transposed, e.g. test_single.cpp:492. -/
def transpose_B (c : Case) (g : Globals α) : M (Globals α) :=
  if c.transposed then do
    let B ← Util.transpose_matrix g.N g.B
    pure { g with B := B }
  else pure g

/-- The assignments of `apply_inverse_*`, e.g. test_single.cpp:27–53 and 486–510. -/
def set_inverse (e : Env α) (c : Case) (g : Globals α) : M (Globals α) := do
  let g := { g with N := c.N }
  let g := { g with A := inverse_vecA e.lit c.N }
  let g := { g with B := inverse_vecB e.lit c.N }
  let g ← transpose_B c g
  let g := { g with C := #[] }
  let C_reference ← Util.create_identity_matrix (e.lit 1 0) g.N
  let g := { g with C_reference := C_reference }
  pure (set_parameters c g)

/-- The assignments of `identity_2`, test_semi.cpp:27–54. -/
def set_identity (e : Env α) (c : Case) (g : Globals α) : M (Globals α) := do
  let g := { g with N := c.N }
  let g := { g with A := #[e.lit 2 0, e.lit 5 0, e.lit 1 0, e.lit 3 0] }
  let g := { g with B := #[e.lit 1 0, e.lit 0 0, e.lit 0 0, e.lit 1 0] }
  let g ← transpose_B c g
  let g := { g with C := #[] }
  let g := { g with C_reference := g.A }
  pure (set_parameters c g)

/-- The assignments of `random_matrices_*`, e.g. test_single.cpp:212–235. -/
def set_random (e : Env α) (c : Case) (g : Globals α) : M (Globals α) := do
  let g := { g with N := c.N }
  let A ← Util.create_random_matrix e.rand g.N
  let g := { g with A := A }
  let B ← Util.create_random_matrix e.rand g.N
  let g := { g with B := B }
  let g := { g with C := #[] }
  let g := { g with C_reference := #[] }
  pure (set_parameters c g)

/-- test_hpx_main.cpp:44–88: the new value of `C`. -/
def multiply (e : Env α) (g : Globals α) : ND (Array α) :=
  if g.algorithm = "single" then
    Recursive.single_matrix_multiply g.N g.A g.B g.transposed g.block_input g.block_result
      g.repetitions
  else if g.algorithm = "pseudodynamic" then
    StaticImproved.pseudodynamic_matrix_multiply
      ⟨g.min_work_size, g.max_work_difference, e.relOk g.max_relative_work_difference⟩ g.N g.A g.B
      g.transposed g.block_input g.block_result g.repetitions e.localities
  else if g.algorithm = "algorithms" then
    if ¬ g.transposed then
      throw (.exception "algorithm \"algorithms\" requires B to be transposed")
    else Algorithms.matrix_multiply g.N g.A g.B g.block_input g.block_result
  else if g.algorithm = "looped" then
    if ¬ g.transposed then
      throw (.exception "algorithm \"looped\" requires B to be transposed")
    else ND.ofM (Looped.matrix_multiply g.N g.A g.B g.block_result g.block_input)
  else if g.algorithm = "semi" then
    if ¬ g.transposed then
      throw (.exception "algorithm \"semi\" requires B to be transposed")
    else Semi.matrix_multiply g.N g.A g.B g.block_input
  else if g.algorithm = "combined" then
    if g.transposed then
      throw (.exception "algorithm \"combined\" doens't allow B to be transposed")
    else Combined.matrix_multiply Combined.blocking g.N g.A g.B g.repetitions
  else if g.algorithm = "proposal" then
    ND.ofM (Proposal.run Proposal.blocking e.junk g.N g.A g.B)
  else pure g.C

/-- test_hpx_main.cpp:42 and 90: the measured time, any number. -/
def elapsed : ND α := fun o => ∃ t, o = .ok t

/-- test_hpx_main.cpp:39–103 `hpx_main`. -/
def hpx_main (e : Env α) (g : Globals α) : ND (Globals α) := do
  let C ← multiply e g
  let g := { g with C := C }
  let t ← elapsed
  pure { g with duration := t }

/-- e.g. test_single.cpp:243–247: the reference computed after HPX has stopped. -/
def set_reference (g : Globals α) : ND (Globals α) := do
  let C_reference ←
    (if ¬ g.transposed then Naive.naive_matrix_multiply g.N g.A g.B
      else Naive.naive_matrix_multiply_transposed g.N g.A g.B : ND (Array α))
  pure { g with C_reference := C_reference }

/-- The environment of the models of the single tests. -/
def Env.single (e : Env α) (close : α → α → Bool) : Tests.Env α :=
  ⟨e.rand, close, e.localities, e.junk⟩

/-- The check of `apply_inverse_*`: the tests `apply_inverse_2` use `BOOST_CHECK_CLOSE`
(test_single.cpp:67, test_pseudodynamic.cpp:67, test_algorithms.cpp:68, test_looped.cpp:68,
test_semi.cpp:117, test_combined.cpp:67), the others, also `apply_inverse_2_transposed`
(test_single.cpp:521), `BOOST_CHECK_SMALL`. -/
def Env.inverse_check (e : Env α) (c : Case) : α → α → Bool :=
  if c.N = 2 ∧ ¬ (c.transposed = true ∧ (c.algorithm = "single" ∨ c.algorithm = "pseudodynamic")) then
    e.close10
  else e.small8

/-- One test case, started in the state `s`: the outcomes of its checks and the state that it leaves. -/
def run (e : Env α) (t : Test) (s : State α) : ND (List Bool × State α) :=
  match t with
  | .inverse c => do
    let g ← ND.ofM (set_inverse e c s.g)
    let g ← hpx_main e g
    let l ← ND.ofM (checks (e.single (e.inverse_check c)) g.N g.C g.C_reference)
    pure (l, { s with g := g })
  | .identity c => do
    let g ← ND.ofM (set_identity e c s.g)
    let g ← hpx_main e g
    let l ← ND.ofM (checks (e.single e.close10) g.N g.C g.C_reference)
    pure (l, { s with g := g })
  | .random c => do
    let g ← ND.ofM (set_random e c s.g)
    let g ← hpx_main e g
    let g ← set_reference g
    let l ← ND.ofM (checks (e.single e.small8) g.N g.C g.C_reference)
    pure (l, { s with g := g })
  | .naive N => do
    let l ← apply_inverse_naive (e.single e.small5) e.lit N
    pure (l, s)
  | .view => do
    let r ← ND.ofM (counting ⟨e.cast, e.close15, e.junk⟩ s.view_counter (256 * 256))
    let l ← ND.ofM (view_checks ⟨e.cast, e.close15, e.junk⟩ r.1)
    pure (l, { s with view_counter := r.2 })
  | .iterate => do
    let r ← ND.ofM (counting ⟨e.cast, e.equal, e.junk⟩ s.iterate_counter (256 * 256))
    let l ← ND.ofM (iterate_checks ⟨e.cast, e.equal, e.junk⟩ r.1)
    pure (l, { s with iterate_counter := r.2 })

/-- A run of the test program: the test cases `ts` in this order (which depends on the linker and on
the options of Boost.Test), the result is the outcomes of the checks of each of them.  An error ends
the run. -/
def session (e : Env α) : List Test → State α → ND (List (List Bool))
  | [], _ => pure []
  | t :: ts, s => do
    let r ← run e t s
    let l ← session e ts r.2
    pure (r.1 :: l)

end Verif.TestSession
