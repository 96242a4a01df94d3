import Verif.Model.IndexIterator
import Verif.Model.Kernel
/-
Model of /repo/src/variants/semi.cpp.  All iterations use policies without parallel dimensions.
-/
namespace Verif.Semi
open IndexIterator Kernel
variable {α : Type} [Arith α]

/-- semi.cpp:36–45 (from `A` or `B` to a fresh vector) and 109–113 (from `C_conflict` to `C`);
`N_fixed = N` (line 31). -/
def copy (N : Nat) (pol_copy : Policy) (src : Array α) : ND (Array α) :=
  ND.runOn (zeros (N * N)) ((iterate_indices 2 pol_copy [0, 0] [N, N]).toTree fun p => do
    let x := p.getD 0 0
    let y := p.getD 1 0
    let v ← Act.ofM (rd src (x * N + y))
    Act.write (N * N) (x * N + y) v)

/-- semi.cpp:69–96: the eight accumulators of one call. -/
def inner8 (N : Nat) (A_conflict B_conflict : Array α) (block_input x y k : Nat) : M (Acc8 α) :=
  let mac i j k_inner r :=
    macAt A_conflict B_conflict ((x + i) * N + k + k_inner) ((y + j) * N + k + k_inner) r
  forStep 0 block_input 1 Acc8.init fun k_inner s => do
    let r00 ← mac 0 0 k_inner s.r00
    let r01 ← mac 0 1 k_inner s.r01
    let r10 ← mac 1 0 k_inner s.r10
    let r11 ← mac 1 1 k_inner s.r11
    let r20 ← mac 2 0 k_inner s.r20
    let r21 ← mac 2 1 k_inner s.r21
    let r30 ← mac 3 0 k_inner s.r30
    let r31 ← mac 3 1 k_inner s.r31
    pure ⟨r00, r01, r10, r11, r20, r21, r30, r31⟩

/-- semi.cpp:65–107: the function called for each `(x, y, k)`. -/
def body (N : Nat) (A_conflict B_conflict : Array α) (block_input : Nat) (p : List Nat) :
    Act α Unit := do
  let x := p.getD 0 0
  let y := p.getD 1 0
  let k := p.getD 2 0
  let s ← Act.ofM (inner8 N A_conflict B_conflict block_input x y k)
  Act.addTo (N * N) ((x + 0) * N + (y + 0)) s.r00
  Act.addTo (N * N) ((x + 0) * N + (y + 1)) s.r01
  Act.addTo (N * N) ((x + 1) * N + (y + 0)) s.r10
  Act.addTo (N * N) ((x + 1) * N + (y + 1)) s.r11
  Act.addTo (N * N) ((x + 2) * N + (y + 0)) s.r20
  Act.addTo (N * N) ((x + 2) * N + (y + 1)) s.r21
  Act.addTo (N * N) ((x + 3) * N + (y + 0)) s.r30
  Act.addTo (N * N) ((x + 3) * N + (y + 1)) s.r31

/-- semi.cpp:65–107: the three-dimensional iteration. -/
def tree (N : Nat) (A_conflict B_conflict : Array α) (block_input : Nat) (policy : Policy) :
    Tree α :=
  (iterate_indices 3 policy [0, 0, 0] [N, N, N]).toTree (body N A_conflict B_conflict block_input)

/-- semi.cpp:60–63: the policy of the three-dimensional iteration; the line with the parallel
blocking (semi.cpp:58) is a comment. -/
def policy (block_input : Nat) : M Policy := do
  let policy ← Policy.new 3
  pure (policy.set_final_steps [4, 2, block_input])

/-- semi.cpp:20–116 `semi::matrix_multiply` (`block_result` is not used). -/
def matrix_multiply (N : Nat) (A B : Array α) (block_input : Nat) : ND (Array α) := do
  let pol_copy ← ND.ofM (Policy.new 2)
  let A_conflict ← copy N pol_copy A
  let B_conflict ← copy N pol_copy B
  let policy ← ND.ofM (policy block_input)
  let C_conflict ← ND.runOn (zeros (N * N)) (tree N A_conflict B_conflict block_input policy)
  copy N pol_copy C_conflict

/-- semi.cpp:57–59 (`parallel_dims = {true, true, false}`) and 60–63 with the line 62 that is a
comment now (`parallel_dims = {false, false, false}`, "TODO: setup up blocking leads to errors"):
the policy with a blocking level. -/
def blocked_policy (parallel_dims : List Bool) (block_input : Nat) : M Policy := do
  let policy ← Policy.new 3
  let policy ← policy.add_blocking [4, 4, 4] parallel_dims
  pure (policy.set_final_steps [4, 2, block_input])

/-- semi.cpp:20–116 with the blocking of line 58 or 62 switched on. -/
def blocked_matrix_multiply (parallel_dims : List Bool) (N : Nat) (A B : Array α)
    (block_input : Nat) : ND (Array α) := do
  let pol_copy ← ND.ofM (Policy.new 2)
  let A_conflict ← copy N pol_copy A
  let B_conflict ← copy N pol_copy B
  let policy ← ND.ofM (blocked_policy parallel_dims block_input)
  let C_conflict ← ND.runOn (zeros (N * N)) (tree N A_conflict B_conflict block_input policy)
  copy N pol_copy C_conflict

end Verif.Semi
