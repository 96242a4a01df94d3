import Verif.Model.Driver
import Verif.Spec
/-
Vocabulary for the statements about the driver program: the matrices it creates, the table of
algorithms, and when a result is acceptable.
-/
namespace Verif.Driver
variable {α : Type} [Arith α]

/-- `A` holds the random numbers in the order they are drawn. -/
def entryA (e : Env α) (N : Nat) : Nat → Nat → α := fun i j => e.rand (i * N + j)

/-- `B` is the identity. -/
def entryB (e : Env α) : Nat → Nat → α := fun i j => if i = j then e.one else Arith.zero

/-- `A` as vector. -/
def vecA (e : Env α) (N : Nat) : Array α := rowMajor N (entryA e N)

/-- `B` as vector. -/
def vecB (e : Env α) (N : Nat) : Array α := rowMajor N (entryB e)

/-- The names the program knows. -/
def names : List String :=
  ["single", "pseudodynamic", "algorithms", "looped", "semi", "combined", "proposal",
    "kernel_test", "kernel_tiled"]

/-- Names whose algorithm expects `B` transposed. -/
def needsTransposed : List String := ["algorithms", "looped", "semi"]

/-- The flag contradicts the algorithm. -/
def Rejected (o : Opts) : Prop :=
  (o.algorithm ∈ needsTransposed ∧ o.transposed = false) ∨
    (o.algorithm = "combined" ∧ o.transposed = true)

/-- The program that the options ask for (block sizes, flag and repetitions as given). -/
inductive Requested (e : Env α) (o : Opts) : ND (Array α) → Prop
  | single : o.algorithm = "single" → 1 ≤ o.repetitions → Requested e o
      (Recursive.single_matrix_multiply o.N (vecA e o.N) (vecB e o.N) o.transposed o.block_result
        o.block_input o.repetitions)
  | single_none : o.algorithm = "single" → o.repetitions = 0 → Requested e o (ND.pure #[])
  | pseudodynamic : o.algorithm = "pseudodynamic" → Requested e o
      (StaticImproved.pseudodynamic_matrix_multiply
        ⟨o.min_work_size, o.max_work_difference, e.relOk⟩ o.N (vecA e o.N) (vecB e o.N)
        o.transposed o.block_result o.block_input o.repetitions e.localities)
  | algorithms : o.algorithm = "algorithms" → o.transposed = true → Requested e o
      (Algorithms.matrix_multiply o.N (vecA e o.N) (vecB e o.N) o.block_input o.block_result)
  | looped : o.algorithm = "looped" → o.transposed = true → Requested e o
      (ND.ofM (Looped.matrix_multiply o.N (vecA e o.N) (vecB e o.N) o.block_result o.block_input))
  | semi : o.algorithm = "semi" → o.transposed = true → Requested e o
      (Semi.matrix_multiply o.N (vecA e o.N) (vecB e o.N) o.block_input)
  | combined : o.algorithm = "combined" → o.transposed = false → Requested e o
      (Combined.matrix_multiply Combined.blocking o.N (vecA e o.N) (vecB e o.N) o.repetitions)
  | proposal : o.algorithm = "proposal" → Requested e o
      (ND.ofM (Proposal.run Proposal.blocking e.junk o.N (vecA e o.N) (vecB e o.N)))
  | kernel_test : o.algorithm = "kernel_test" → Requested e o
      (KernelTest.matrix_multiply o.N (vecA e o.N) (vecB e o.N) o.transposed o.repetitions)
  | kernel_tiled : o.algorithm = "kernel_tiled" → Requested e o
      (KernelTiled.matrix_multiply KernelTiled.blocking o.N (vecA e o.N) (vecB e o.N) o.transposed
        o.repetitions)

/-- `C` has `N * N` elements, each close to that of the product `A · B` accumulated left to right. -/
def Accepts (e : Env α) (N : Nat) (C : Array α) : Prop :=
  C.size = N * N ∧ ∀ i, i < N → ∀ j, j < N →
    ∃ c, C[i * N + j]? = some c ∧ e.close c (mulSpec N (entryA e N) (entryB e) i j) = true

end Verif.Driver
