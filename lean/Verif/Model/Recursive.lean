import Verif.Model.Kernel
/-
Model of /repo/src/variants/components/recursive.cpp and /repo/src/variants/single.cpp.
-/
namespace Verif.Recursive
open Verif.Kernel
variable {α : Type} [Arith α]

/-- recursive.cpp:16–35 `extract_submatrix`: copy `C_small` into the shared vector `C`
(of length `nC`) at offset `(x,y)`; the row length of `C` is taken to be
`2 * blockSize`. -/
def extract_submatrix (nC : Nat) (C_small : Array α) (x y blockSize : Nat) : Act α Unit :=
  let blocksize_last := 2 * blockSize
  (forStep 0 blockSize 1 () fun i _ =>
    forStep 0 blockSize 1 () fun j _ => do
      let v ← Act.ofM (rdAt C_small (i * blockSize + j))
      Act.writeAt nC ((x + i) * blocksize_last + (y + j)) v).catchOutOfRange

/-- recursive.cpp:37–94 `distribute_recursively`; `mult` is the action
`multiplier::calculate_submatrix` of the multiplier component on this locality.
The four asynchronous recursive calls share nothing mutable, so their results are
independent; the four continuations writing into `C` run in parallel. -/
def distribute_recursively (mult : Nat → Nat → Nat → M (Array α)) (block_result : Nat)
    (x y blockSize : Nat) : ND (Array α) :=
  if _h : blockSize ≤ block_result then
    ND.ofM (mult x y blockSize)
  else
    let n_new := blockSize / 2
    do
      let s0 ← distribute_recursively mult block_result (x + 0) (y + 0) n_new
      let s1 ← distribute_recursively mult block_result (x + (0 + n_new)) (y + 0) n_new
      let s2 ← distribute_recursively mult block_result (x + 0) (y + (0 + n_new)) n_new
      let s3 ← distribute_recursively mult block_result (x + (0 + n_new)) (y + (0 + n_new)) n_new
      let nC := blockSize * blockSize
      ND.runOn (zeros nC) (.par [
        .act (extract_submatrix nC s0 0 0 n_new),
        .act (extract_submatrix nC s1 (0 + n_new) 0 n_new),
        .act (extract_submatrix nC s2 0 (0 + n_new) n_new),
        .act (extract_submatrix nC s3 (0 + n_new) (0 + n_new) n_new)])
termination_by blockSize
decreasing_by all_goals omega

/-- single.cpp:14–46 `single::matrix_multiply`. -/
def single_matrix_multiply (N : Nat) (A B : Array α) (transposed : Bool)
    (block_result block_input repetitions : Nat) : ND (Array α) :=
  let mult := calculate_submatrix ⟨N, A, B, transposed, block_input⟩
  forStep 0 repetitions 1 (zeros (N * N)) fun _ _ =>
    distribute_recursively mult block_result 0 0 N

end Verif.Recursive
