import Verif.Model.Driver
/-
The functions that create, print and multiply whole matrices, with `size_t` and `std::uint64_t`
arithmetic modulo 2^64 (all other models use natural numbers).  Sums and products of the index
expressions are reduced once at the end, which is the same.  Loop variables that run up to `N` do not
wrap, as `N` is a 64-bit number.
-/
namespace Verif.Size64
open Driver Util
variable {α : Type} [Arith α]

/-- The value of an expression of type `size_t` or `std::uint64_t` with value `x` as natural number;
e.g. the index expressions naive.hpp:15, 17. -/
def u64 (x : Nat) : Nat := x % 2 ^ 64

/-! ### naive.hpp -/

/-- naive.hpp:13–16, the loop over `k` computing `result_component` for one `(i,j)`. -/
def component (N : Nat) (A B : Array α) (i : Nat) (bi : Nat → Nat) : M α :=
  forStep 0 N 1 Arith.zero fun k result_component => do
    let x ← rdAt A (u64 (i * N + k))
    let y ← rdAt B (u64 (bi k))
    pure (Arith.mac result_component x y)

/-- naive.hpp:12–18 (`transposed = false`) and 31–37: one row `i` of the result. -/
def rowTask (N : Nat) (A B : Array α) (transposed : Bool) (i : Nat) : Act α Unit :=
  forStep 0 N 1 () fun j _ => do
    let r ← Act.ofM (component N A B i (if transposed then fun k => j * N + k else fun k => k * N + j))
    Act.writeAt (u64 (N * N)) (u64 (i * N + j)) r

/-- naive.hpp:10–19 and 29–38: the OpenMP parallel loop, one task per iteration. -/
def tree (N : Nat) (A B : Array α) (transposed : Bool) : Tree α :=
  .par ((List.range N).map fun i => .act (rowTask N A B transposed i))

/-- naive.hpp:6–21 `naive_matrix_multiply` and 24–40 `naive_matrix_multiply_transposed`. -/
def naive_matrix_multiply (N : Nat) (A B : Array α) (transposed : Bool) : ND (Array α) :=
  ND.runOn (zeros (u64 (N * N))) (tree N A B transposed)

/-! ### util -/

/-- transpose_matrix.hpp:6–18 -/
def transpose_matrix (N : Nat) (org : Array α) : M (Array α) :=
  forStep 0 N 1 (zeros (u64 (N * N))) fun i m =>
    forStep 0 N 1 m fun j m => do
      let x ← rd org (u64 (j * N + i))
      wr m (u64 (i * N + j)) x

/-- util.hpp:6–16, 56–66 `print_matrix_host(N, m)`, `print_matrix(N, m)`. -/
def print_matrix (N : Nat) (m : Array α) : Print α Unit :=
  printLoops N N (fun i j => u64 (i * N + j)) m

/-- util.hpp:30–41, 80–90 `print_matrix_transposed(N, m)`. -/
def print_matrix_transposed (N : Nat) (m : Array α) : Print α Unit :=
  printLoops N N (fun i j => u64 (j * N + i)) m

/-! ### matrix_multiply.cpp -/

/-- matrix_multiply.cpp:88–89: `A.resize(N * N); std::generate(…)`. -/
def createA (e : Env α) (N : Nat) : M (Array α) :=
  forStep 0 (u64 (N * N)) 1 (zeros (u64 (N * N))) fun i A => wr A i (e.rand i)

/-- matrix_multiply.cpp:96–118: `B`. -/
def createB (e : Env α) (N : Nat) (transposed : Bool) : M (Array α) :=
  if ¬ transposed then
    forStep 0 N 1 (zeros (u64 (N * N))) fun i B =>
      forStep 0 N 1 B fun j B =>
        if i = j then wrAt B (u64 (i * N + j)) e.one else wrAt B (u64 (i * N + j)) Arith.zero
  else
    forStep 0 N 1 (zeros (u64 (N * N))) fun i B =>
      forStep 0 N 1 B fun j B =>
        if i = j then wrAt B (u64 (j * N + i)) e.one else wrAt B (u64 (j * N + i)) Arith.zero

/-- matrix_multiply.cpp:120–127 -/
def printB (N : Nat) (transposed : Bool) (B : Array α) : Print α Unit :=
  if ¬ transposed then print_matrix N B else print_matrix_transposed N B

/-- matrix_multiply.cpp:57–241 `hpx_main`; the algorithms (`dispatch`) are those of the model with
natural numbers. -/
def hpx_main (e : Env α) (o : Opts) : ND (Globals α) :=
  if o.help then pure { (Globals.init : Globals α) with o := o }
  else do
    let A ← ND.ofM (createA e o.N)
    printIf o.verbose (print_matrix o.N A)
    let B ← ND.ofM (createB e o.N o.transposed)
    printIf o.verbose (printB o.N o.transposed B)
    match ← dispatch e o A B with
    | none => pure ⟨o, A, B, #[], e.root, true⟩
    | some C => do
      printIf o.verbose (print_matrix o.N C)
      pure ⟨o, A, B, C, e.root, false⟩

/-- matrix_multiply.cpp:243–431 `main`; the part after HPX is that of the model with natural
numbers. -/
def main (e : Env α) (o : Opts) : ND (Report α) := do
  let g ← hpx_main e o
  after_hpx e g

end Verif.Size64
