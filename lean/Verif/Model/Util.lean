import Verif.Core.Basic
/-
Model of /repo/src/util.  Not modelled: `matrix_multiplication_exception.hpp` (its `what()` returns
a pointer into a temporary string; the programs only use the exception as such, see `Err.exception`).
-/
namespace Verif.Util
variable {α : Type} [Arith α]

/-- transpose_matrix.hpp:6–18, the overload for square matrices. -/
def transpose_matrix (N : Nat) (org : Array α) : M (Array α) :=
  forStep 0 N 1 (zeros (N * N)) fun i m =>
    forStep 0 N 1 m fun j m => do
      let x ← rd org (j * N + i)
      wr m (i * N + j) x

/-- transpose_matrix.hpp:20–33, the overload with two strides. -/
def transpose_rect (stride_org stride_result : Nat) (org : Array α) : M (Array α) :=
  forStep 0 stride_org 1 (zeros (stride_org * stride_result)) fun i result =>
    forStep 0 stride_result 1 result fun j result => do
      let x ← rd org (j * stride_org + i)
      wr result (i * stride_result + j) x

/-- create_identity_matrix.hpp:6–16; `one` is the literal `1.0`. -/
def create_identity_matrix (one : α) (N : Nat) : M (Array α) :=
  forStep 0 N 1 (zeros (N * N)) fun i m => wr m (i * N + i) one

/-- pattern_matrices.hpp:6–15; `cast` is `static_cast<double>`. -/
def create_enumerating_matrix (cast : Nat → α) (N : Nat) : M (Array α) :=
  forStep 0 (N * N) 1 (zeros (N * N)) fun i m => wr m i (cast i)

/-- create_random_matrix.hpp:8–18; `myRand k` is the result of the `k`-th call of the random number
generator, `std::generate` is a loop over the elements. -/
def create_random_matrix (myRand : Nat → α) (N : Nat) : M (Array α) :=
  forStep 0 (N * N) 1 (zeros (N * N)) fun i m => wr m i (myRand i)

end Verif.Util

namespace Verif.Util
variable {α : Type}

/-- What is written to a stream (util.hpp:10, 12, 14): an element (formatted by the
stream), the separator `", "` or the end of a line (`std::endl`, with or without `hpx::flush`). -/
inductive Tok (α : Type) where
  | elem (x : α)
  | sep
  | endl
  deriving DecidableEq, Repr

/-- Programs that write to a stream (util.hpp:6–102); output written before an exception
is not lost. -/
abbrev Print (α : Type) := ExceptT Err (StateM (List (Tok α)))

/-- `cout << t`, util.hpp:10, 12, 14. -/
def emit (t : Tok α) : Print α Unit := modify (· ++ [t])

/-- `if (j > 0) cout << ", "` (util.hpp:9–11 and the same lines of the other functions) -/
def sepIf (j : Nat) : Print α Unit := if j > 0 then emit .sep else pure ()

/-- The two nested loops shared by all functions of util.hpp (e.g. lines 7–15); `idx i j`
is the position of the element that is printed. -/
def printLoops (rows cols : Nat) (idx : Nat → Nat → Nat) (m : Array α) : Print α Unit :=
  forStep 0 rows 1 () fun i _ => do
    forStep 0 cols 1 () fun j _ => do
      sepIf j
      let x ← MonadExcept.ofExcept (rdAt m (idx i j))
      emit (.elem x)
    emit .endl

/-- util.hpp:6–16 `print_matrix_host(N, m)` and 56–66 `print_matrix(N, m)`. -/
def print_matrix (N : Nat) (m : Array α) : Print α Unit :=
  printLoops N N (fun i j => i * N + j) m

/-- util.hpp:18–28 `print_matrix_host(rows, cols, m)`. -/
def print_matrix_host_rect (rows cols : Nat) (m : Array α) : Print α Unit :=
  printLoops rows cols (fun r c => r * cols + c) m

/-- util.hpp:30–41 `print_matrix_transposed_host(N, m)` and 80–90 `print_matrix_transposed(N, m)`. -/
def print_matrix_transposed (N : Nat) (m : Array α) : Print α Unit :=
  printLoops N N (fun i j => j * N + i) m

/-- util.hpp:43–54 `print_matrix_transposed_host(N, M, m)` and 92–102
`print_matrix_transposed(N, M, m)`. -/
def print_matrix_transposed_rect (N M : Nat) (m : Array α) : Print α Unit :=
  printLoops N M (fun i j => j * N + i) m

/-- util.hpp:68–78 `print_matrix(N, M, m)`: the position uses `N` instead of the number of
columns `M`. -/
def print_matrix_rect (N M : Nat) (m : Array α) : Print α Unit :=
  printLoops N M (fun i j => i * N + j) m

/-- Run a printing program (one of the functions of util.hpp:6–102): outcome and everything
printed. -/
def Print.out (p : Print α Unit) : Except Err Unit × List (Tok α) := p.run.run []

end Verif.Util
