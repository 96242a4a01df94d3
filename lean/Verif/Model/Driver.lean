import Verif.Model.Naive
import Verif.Model.Recursive
import Verif.Model.StaticImproved
import Verif.Model.Algorithms
import Verif.Model.Looped
import Verif.Model.Semi
import Verif.Model.Combined
import Verif.Model.Proposal
import Verif.Model.KernelTiled
import Verif.Model.KernelTest
import Verif.Model.Util
/-
Model of /repo/src/matrix_multiply_application/matrix_multiply.cpp.  Not modelled here: parsing of the
command line (CommandLine.lean), text printed to the console (printing a matrix is executed, because it may raise),
time measurement, the start and the shutdown of HPX (`hpx::init` runs `hpx_main` and returns its
result, `hpx::finalize` returns 0).
-/
namespace Verif.Driver
open Kernel
variable {α : Type} [Arith α]

/-- The options, matrix_multiply.cpp:248–293 (`max-relative-work-difference` is in `Env.relOk`). -/
structure Opts where
  N : Nat := 4
  transposed : Bool := true
  repetitions : Nat := 1
  verbose : Nat := 0
  block_result : Nat := 128
  block_input : Nat := 128
  check : Bool := false
  algorithm : String := "single"
  min_work_size : Nat := 256
  max_work_difference : Nat := 10000
  help : Bool := false

/-- What the program gets from its environment: the literal `1.0`, the random numbers (line 86), the
comparison of lines 394–413 (`close first second` is `std::abs(first - second) < 1E-10`),
`fabs(x - y)` of line 423, whether this is the root locality (line 81), the number of localities,
the test of the relative work difference and the uninitialised arrays of memory_layout. -/
structure Env (α : Type) where
  one : α
  rand : Nat → α
  close : α → α → Bool
  absDiff : α → α → α
  root : Bool
  localities : Nat
  relOk : Nat → Nat → Bool
  junk : Nat → Array Nat

/-- The global variables that are read after HPX has stopped (matrix_multiply.cpp:34–50). -/
structure Globals (α : Type) where
  o : Opts
  A : Array α
  B : Array α
  C : Array α
  is_root_node : Bool
  non_hpx_algorithm : Bool

/-- matrix_multiply.cpp:34–55: the global variables before `hpx_main` runs. -/
def Globals.init : Globals α where
  o := { N := 0, transposed := false, repetitions := 0, verbose := 0, block_result := 0,
         block_input := 0, check := false, algorithm := "", min_work_size := 0,
         max_work_difference := 0 }
  A := #[]
  B := #[]
  C := #[]
  is_root_node := false
  non_hpx_algorithm := false

/-- Print a matrix (matrix_multiply.cpp:93, 123, 125, 237, 334, 348, 389, 426); only the exception
matters. -/
def printed (p : Util.Print α Unit) : ND Unit := ND.ofM p.out.1

/-- `if (verbose >= 2) print(…)`, matrix_multiply.cpp:91–94, 120–127, 235–238, 332–335, 346–349,
387–390. -/
def printIf (verbose : Nat) (p : Util.Print α Unit) : ND Unit :=
  if verbose ≥ 2 then printed p else pure ()

/-- matrix_multiply.cpp:88–89: `A.resize(N * N); std::generate(…)`. -/
def createA (e : Env α) (N : Nat) : M (Array α) :=
  forStep 0 (N * N) 1 (zeros (N * N)) fun i A => wr A i (e.rand i)

/-- matrix_multiply.cpp:96–118: `B`. -/
def createB (e : Env α) (N : Nat) (transposed : Bool) : M (Array α) :=
  if ¬ transposed then
    forStep 0 N 1 (zeros (N * N)) fun i B =>
      forStep 0 N 1 B fun j B =>
        if i = j then wrAt B (i * N + j) e.one else wrAt B (i * N + j) Arith.zero
  else
    forStep 0 N 1 (zeros (N * N)) fun i B =>
      forStep 0 N 1 B fun j B =>
        if i = j then wrAt B (j * N + i) e.one else wrAt B (j * N + i) Arith.zero

/-- matrix_multiply.cpp:120–127 -/
def printB (N : Nat) (transposed : Bool) (B : Array α) : Util.Print α Unit :=
  if ¬ transposed then Util.print_matrix N B else Util.print_matrix_transposed N B

/-- matrix_multiply.cpp:134–156: algorithm "single". -/
def single (o : Opts) (A B : Array α) : ND (Array α) :=
  let mult := calculate_submatrix ⟨o.N, A, B, o.transposed, o.block_input⟩
  forStep 0 o.repetitions 1 #[] fun _ _ =>
    Recursive.distribute_recursively mult o.block_result 0 0 o.N

/-- matrix_multiply.cpp:134–225: the selection of the algorithm; `none`: no algorithm was run
(lines 222–225). -/
def dispatch (e : Env α) (o : Opts) (A B : Array α) : ND (Option (Array α)) := do
  if o.algorithm = "single" then
    let C ← single o A B
    pure (some C)
  else if o.algorithm = "pseudodynamic" then
    let C ← StaticImproved.matrix_multiply ⟨o.min_work_size, o.max_work_difference, e.relOk⟩
      o.N A B o.transposed o.block_input o.block_result o.repetitions e.localities
    pure (some C)
  else if o.algorithm = "algorithms" then
    if ¬ o.transposed then
      throw (.exception "algorithm \"algorithms\" requires B to be transposed")
    else
      let C ← Algorithms.matrix_multiply o.N A B o.block_input o.block_result
      pure (some C)
  else if o.algorithm = "looped" then
    if ¬ o.transposed then
      throw (.exception "algorithm \"looped\" requires B to be transposed")
    else
      let C ← ND.ofM (Looped.matrix_multiply o.N A B o.block_result o.block_input)
      pure (some C)
  else if o.algorithm = "semi" then
    if ¬ o.transposed then
      throw (.exception "algorithm \"semi\" requires B to be transposed")
    else
      let C ← Semi.matrix_multiply o.N A B o.block_input
      pure (some C)
  else if o.algorithm = "combined" then
    if o.transposed then
      throw (.exception "algorithm \"combined\" doens't allow B to be transposed")
    else
      let C ← Combined.matrix_multiply Combined.blocking o.N A B o.repetitions
      pure (some C)
  else if o.algorithm = "proposal" then
    let C ← ND.ofM (Proposal.run Proposal.blocking e.junk o.N A B)
    pure (some C)
  else pure none

/-- matrix_multiply.cpp:57–241 `hpx_main`; the result is the contents of the global variables. -/
def hpx_main (e : Env α) (o : Opts) : ND (Globals α) :=
  if o.help then pure { (Globals.init : Globals α) with o := o }
  else do
    let A ← ND.ofM (createA e o.N)
    printIf o.verbose (Util.print_matrix o.N A)
    let B ← ND.ofM (createB e o.N o.transposed)
    printIf o.verbose (printB o.N o.transposed B)
    match ← dispatch e o A B with
    | none => pure ⟨o, A, B, #[], e.root, true⟩
    | some C => do
      printIf o.verbose (Util.print_matrix o.N C)
      pure ⟨o, A, B, C, e.root, false⟩

/-- matrix_multiply.cpp:320–355: the algorithms that run after HPX; `none`: the name is not valid. -/
def kernels (g : Globals α) : ND (Option (Array α)) := do
  if g.o.algorithm = "kernel_test" then
    let C ← KernelTest.matrix_multiply g.o.N g.A g.B g.o.transposed g.o.repetitions
    printIf g.o.verbose (Util.print_matrix g.o.N C)
    pure (some C)
  else if g.o.algorithm = "kernel_tiled" then
    let C ← KernelTiled.matrix_multiply KernelTiled.blocking g.o.N g.A g.B g.o.transposed
      g.o.repetitions
    printIf g.o.verbose (Util.print_matrix g.o.N C)
    pure (some C)
  else if g.non_hpx_algorithm then pure none
  else pure (some g.C)

/-- matrix_multiply.cpp:393–413: `std::equal` with four random access iterators and a predicate. -/
def std_equal (close : α → α → Bool) (C Cref : Array α) : Bool :=
  decide (C.size = Cref.size) && (List.range C.size).all fun k =>
    match C[k]?, Cref[k]? with
    | some first, some second => close first second
    | _, _ => false

/-- matrix_multiply.cpp:421–424: the matrix of differences. -/
def diff_matrix (e : Env α) (N : Nat) (C Cref : Array α) : M (Array α) :=
  forStep 0 (N * N) 1 (zeros (N * N)) fun k d => do
    let x ← rdAt Cref k
    let y ← rdAt C k
    wrAt d k (e.absDiff x y)

/-- matrix_multiply.cpp:420–427 -/
def show_diff (e : Env α) (o : Opts) (C Cref : Array α) : ND Unit :=
  if o.verbose ≥ 2 then do
    let d ← ND.ofM (diff_matrix e o.N C Cref)
    printed (Util.print_matrix o.N d)
  else pure ()

/-- matrix_multiply.cpp:374–379: the reference. -/
def compute_ref (g : Globals α) : ND (Array α) :=
  if ¬ g.o.transposed then Naive.naive_matrix_multiply g.o.N g.A g.B
  else Naive.naive_matrix_multiply_transposed g.o.N g.A g.B

/-- matrix_multiply.cpp:357–429: the check; `none`: no check was made. -/
def check (e : Env α) (g : Globals α) (C : Array α) : ND (Option Bool) :=
  if g.is_root_node && g.o.check then do
    let Cref ← compute_ref g
    printIf g.o.verbose (Util.print_matrix g.o.N Cref)
    let ok := std_equal e.close C Cref
    show_diff e g.o C Cref
    pure (some ok)
  else pure none

/-- What the program leaves behind (matrix_multiply.cpp:352–353, 414–418, 430): the exit
status, whether it printed that the algorithm is not valid, the outcome of the check (`some true`: "check passed", `some false`: "error: check failed!",
`none`: not checked) and the global variable `C`. -/
structure Report (α : Type) where
  status : Nat
  invalid : Bool
  check : Option Bool
  C : Array α

/-- matrix_multiply.cpp:317–430: `main` after `hpx::init`. -/
def after_hpx (e : Env α) (g : Globals α) : ND (Report α) := do
  match ← kernels g with
  | none => pure ⟨1, true, none, g.C⟩
  | some C => do
    let c ← check e g C
    pure ⟨0, false, c, C⟩

/-- matrix_multiply.cpp:243–431 `main` on the locality that runs `hpx_main`. -/
def main (e : Env α) (o : Opts) : ND (Report α) := do
  let g ← hpx_main e o
  after_hpx e g

/-- matrix_multiply.cpp:243–431 `main` on the other localities, where `hpx_main` does not run. -/
def main_worker (e : Env α) : ND (Report α) := after_hpx e Globals.init

end Verif.Driver
