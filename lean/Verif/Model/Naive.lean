import Verif.Core.Act
/-
Model of /repo/src/reference_kernels/naive.hpp.
-/
namespace Verif.Naive
variable {α : Type} [Arith α]

/-- naive.hpp:13–16, the loop over `k` computing `result_component` for one `(i,j)`.
`bi k` is the index expression used to access `B`. -/
def component (N : Nat) (A B : Array α) (i : Nat) (bi : Nat → Nat) : M α :=
  forStep 0 N 1 Arith.zero fun k result_component => do
    let x ← rdAt A (i * N + k)
    let y ← rdAt B (bi k)
    pure (Arith.mac result_component x y)

/-- naive.hpp:12–18, body of the parallel loop: one row `i` of the result. -/
def rowTask (N : Nat) (A B : Array α) (i : Nat) : Act α Unit :=
  forStep 0 N 1 () fun j _ => do
    let r ← Act.ofM (component N A B i (fun k => k * N + j))
    Act.writeAt (N * N) (i * N + j) r

/-- naive.hpp:10–19: the OpenMP parallel loop, one task per iteration. -/
def tree (N : Nat) (A B : Array α) : Tree α :=
  .par ((List.range N).map fun i => .act (rowTask N A B i))

/-- naive.hpp:6–21 `naive_matrix_multiply`. -/
def naive_matrix_multiply (N : Nat) (A B : Array α) : ND (Array α) :=
  ND.runOn (zeros (N * N)) (tree N A B)

/-- naive.hpp:31–37, one row of the result of the transposed variant. -/
def rowTaskT (N : Nat) (A B : Array α) (i : Nat) : Act α Unit :=
  forStep 0 N 1 () fun j _ => do
    let r ← Act.ofM (component N A B i (fun k => j * N + k))
    Act.writeAt (N * N) (i * N + j) r

/-- naive.hpp:29–38. -/
def treeT (N : Nat) (A B : Array α) : Tree α :=
  .par ((List.range N).map fun i => .act (rowTaskT N A B i))

/-- naive.hpp:24–40 `naive_matrix_multiply_transposed`. -/
def naive_matrix_multiply_transposed (N : Nat) (A B : Array α) : ND (Array α) :=
  ND.runOn (zeros (N * N)) (treeT N A B)

end Verif.Naive
