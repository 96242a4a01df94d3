import Verif.Model.Tiled64
/-
The driver (/repo/src/matrix_multiply_application/matrix_multiply.cpp) with `size_t` and
`std::uint64_t` arithmetic modulo 2^64 in the driver and in all algorithms except "proposal"
(whose model is the one with natural numbers).
-/
namespace Verif.Size64
open _root_.Verif.Driver (Env Opts Globals Report printIf printed std_equal)
variable {α : Type} [Arith α]

/-- matrix_multiply.cpp:134–156: algorithm "single". -/
def single (o : Opts) (A B : Array α) : ND (Array α) :=
  let mult := Kernel.calculate_submatrix ⟨o.N, A, B, o.transposed, o.block_input⟩
  forStep 0 o.repetitions 1 #[] fun _ _ =>
    Recursive.distribute_recursively mult o.block_result 0 0 o.N

/-- matrix_multiply.cpp:134–225: the selection of the algorithm. -/
def dispatch64 (e : Env α) (o : Opts) (A B : Array α) : ND (Option (Array α)) := do
  if o.algorithm = "single" then
    let C ← single o A B
    pure (some C)
  else if o.algorithm = "pseudodynamic" then
    let C ← StaticImproved.matrix_multiply ⟨o.min_work_size, o.max_work_difference, e.relOk⟩
      o.N A B o.transposed o.block_input o.block_result o.repetitions e.localities
    pure (some C)
  else if o.algorithm = "algorithms" then
    if ¬ o.transposed then
      throw (.exception "algorithm \"algorithms\" requires B to be transposed")
    else
      let C ← Algorithms.matrix_multiply o.N A B o.block_input o.block_result
      pure (some C)
  else if o.algorithm = "looped" then
    if ¬ o.transposed then
      throw (.exception "algorithm \"looped\" requires B to be transposed")
    else
      let C ← ND.ofM (Looped.matrix_multiply o.N A B o.block_result o.block_input)
      pure (some C)
  else if o.algorithm = "semi" then
    if ¬ o.transposed then
      throw (.exception "algorithm \"semi\" requires B to be transposed")
    else
      let C ← Semi.matrix_multiply o.N A B o.block_input
      pure (some C)
  else if o.algorithm = "combined" then
    if o.transposed then
      throw (.exception "algorithm \"combined\" doens't allow B to be transposed")
    else
      let C ← Combined.matrix_multiply _root_.Verif.Combined.blocking o.N A B o.repetitions
      pure (some C)
  else if o.algorithm = "proposal" then
    let C ← ND.ofM (Proposal.run Proposal.blocking e.junk o.N A B)
    pure (some C)
  else pure none

/-- matrix_multiply.cpp:57–241 `hpx_main`. -/
def hpx_main64 (e : Env α) (o : Opts) : ND (Globals α) :=
  if o.help then pure { (Globals.init : Globals α) with o := o }
  else do
    let A ← ND.ofM (createA e o.N)
    printIf o.verbose (print_matrix o.N A)
    let B ← ND.ofM (createB e o.N o.transposed)
    printIf o.verbose (printB o.N o.transposed B)
    match ← dispatch64 e o A B with
    | none => pure ⟨o, A, B, #[], e.root, true⟩
    | some C => do
      printIf o.verbose (print_matrix o.N C)
      pure ⟨o, A, B, C, e.root, false⟩

/-- matrix_multiply.cpp:320–355: the algorithms that run after HPX. -/
def kernels64 (g : Globals α) : ND (Option (Array α)) := do
  if g.o.algorithm = "kernel_test" then
    let C ← KernelTest.matrix_multiply g.o.N g.A g.B g.o.transposed g.o.repetitions
    printIf g.o.verbose (print_matrix g.o.N C)
    pure (some C)
  else if g.o.algorithm = "kernel_tiled" then
    let C ← KernelTiled.matrix_multiply _root_.Verif.KernelTiled.blocking g.o.N g.A g.B
      g.o.transposed g.o.repetitions
    printIf g.o.verbose (print_matrix g.o.N C)
    pure (some C)
  else if g.non_hpx_algorithm then pure none
  else pure (some g.C)

/-- matrix_multiply.cpp:421–424: the matrix of differences. -/
def diff_matrix (e : Env α) (N : Nat) (C Cref : Array α) : M (Array α) :=
  forStep 0 (u64 (N * N)) 1 (zeros (u64 (N * N))) fun k d => do
    let x ← rdAt Cref k
    let y ← rdAt C k
    wrAt d k (e.absDiff x y)

/-- matrix_multiply.cpp:420–427 -/
def show_diff (e : Env α) (o : Opts) (C Cref : Array α) : ND Unit :=
  if o.verbose ≥ 2 then do
    let d ← ND.ofM (diff_matrix e o.N C Cref)
    printed (print_matrix o.N d)
  else pure ()

/-- matrix_multiply.cpp:357–429: the check. -/
def check64 (e : Env α) (g : Globals α) (C : Array α) : ND (Option Bool) :=
  if g.is_root_node && g.o.check then do
    let Cref ← naive_matrix_multiply g.o.N g.A g.B g.o.transposed
    printIf g.o.verbose (print_matrix g.o.N Cref)
    let ok := std_equal e.close C Cref
    show_diff e g.o C Cref
    pure (some ok)
  else pure none

/-- matrix_multiply.cpp:317–430: `main` after `hpx::init`. -/
def after_hpx64 (e : Env α) (g : Globals α) : ND (Report α) := do
  match ← kernels64 g with
  | none => pure ⟨1, true, none, g.C⟩
  | some C => do
    let c ← check64 e g C
    pure ⟨0, false, c, C⟩

/-- matrix_multiply.cpp:243–431 `main`. -/
def main64 (e : Env α) (o : Opts) : ND (Report α) := do
  let g ← hpx_main64 e o
  after_hpx64 e g

end Verif.Size64
