import Verif.Model.IndexIterator
/-
Model of /repo/src/variants/algorithms.hpp.

The block tasks run concurrently; `C` is the memory they share.  `A`, `B` are only read, the
buffers of a task are local to it.  The iterator of algorithms.hpp:52–113 is the one of
index_iterator.hpp with minimum 0 and step 1 (`IndexIterator.iter`).
-/
namespace Verif.Algorithms
open IndexIterator
variable {α : Type} [Arith α]

/-- algorithms.hpp:12–50 `index_iterator`: the pair `(x, y)` after `n` increments; the wrapped
iterator then points to element `n` of the container. -/
def index_iterator (stride : Nat) : Nat → Nat × Nat
  | 0 => (0, 0)
  | n + 1 =>
    let (x, y) := index_iterator stride n
    if y = usub stride 1 then (x + 1, 0) else (x, y + 1)

/-- algorithms.hpp:194–199 (with `A`, `outer_x`) and 202–207 (with `B`, `outer_y`): copy
`block_result` rows of `block_input` elements into the small buffer. -/
def loadSmall (src : Array α) (N outer k_block block_result block_input : Nat)
    (small : Array α) : M (Array α) :=
  forStep 0 block_result 1 small fun x small =>
    forStep 0 block_input 1 small fun k small => do
      let v ← rd src ((outer + x) * N + k_block + k)
      wr small (x * block_input + k) v

/-- algorithms.hpp:222–231: `std::inner_product` of row `x` of `A_small` and row `y` of
`B_small`, starting from 0.0. -/
def inner_product (A_small B_small : Array α) (block_input x y : Nat) : M α :=
  forStep 0 block_input 1 Arith.zero fun k acc => do
    let a ← rd A_small (x * block_input + k)
    let b ← rd B_small (y * block_input + k)
    pure (Arith.mac acc a b)

/-- algorithms.hpp:211–232: the sequential `for_each_n` over the small result matrix. -/
def multSmall (A_small B_small : Array α) (block_result block_input : Nat) (C_inner : Array α) :
    M (Array α) :=
  (List.range (block_result * block_result)).foldlM (fun C_inner n => do
    let (x, y) := index_iterator block_result n
    let value ← rd C_inner n
    let p ← inner_product A_small B_small block_input x y
    wr C_inner n (Arith.add value p)) C_inner

/-- algorithms.hpp:176–233: compute the small result matrix at `(outer_x, outer_y)`. The two
input buffers live across the iterations. -/
def block (N : Nat) (A B : Array α) (block_input block_result outer_x outer_y : Nat) :
    M (Array α) := do
  let s ← forStep 0 N block_input
    ((zeros (block_result * block_result), zeros (block_input * block_result),
      zeros (block_input * block_result)) : Array α × Array α × Array α)
    fun k_block (C_inner, A_small, B_small) => do
      let A_small ← loadSmall A N outer_x k_block block_result block_input A_small
      let B_small ← loadSmall B N outer_y k_block block_result block_input B_small
      let C_inner ← multSmall A_small B_small block_result block_input C_inner
      pure (C_inner, A_small, B_small)
  pure s.1

/-- algorithms.hpp:163–243: the function called for each block. -/
def task (N : Nat) (A B : Array α) (block_input block_result : Nat) (cur_index : List Nat) :
    Act α Unit := do
  let block_x := cur_index.getD 0 0
  let block_y := cur_index.getD 1 0
  let outer_x := block_x * block_result
  let outer_y := block_y * block_result
  let C_inner ← Act.ofM (block N A B block_input block_result outer_x outer_y)
  forStep 0 block_result 1 () fun x _ =>
    forStep 0 block_result 1 () fun y _ => do
      let v ← Act.ofM (rd C_inner (x * block_result + y))
      Act.write (N * N) ((outer_x + x) * N + (outer_y + y)) v

/-- algorithms.hpp:134–140: number of blocks in one direction. -/
def result_blocks (N block_result : Nat) : Nat :=
  N / block_result + if N % block_result ≠ 0 then 1 else 0

/-- algorithms.hpp:160–243: the parallel `for_each_n`, every position is a task. -/
def tree (N : Nat) (A B : Array α) (block_input block_result : Nat) : Tree α :=
  let rb := result_blocks N block_result
  .par ((List.range (rb * rb)).map fun n =>
    .act (task N A B block_input block_result (iter [0, 0] [rb, rb] [1, 1] n)))

/-- algorithms.hpp:130–245 `algorithms::matrix_multiply`. -/
def matrix_multiply (N : Nat) (A B : Array α) (block_input block_result : Nat) : ND (Array α) :=
  if block_result = 0 then ND.fail .divZero
  else ND.runOn (zeros (N * N)) (tree N A B block_input block_result)

end Verif.Algorithms
