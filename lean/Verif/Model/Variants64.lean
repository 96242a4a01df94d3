import Verif.Model.Kernels64
import Verif.Model.DoubleUse
/-
The iteration over indices and the variants "looped", "algorithms" and "semi"
(/repo/src/variants/index_iterator.hpp, looped.hpp, algorithms.hpp, semi.cpp) with `size_t` arithmetic
modulo 2^64.  The numbers of blocks pass through doubles as in Model/DoubleUse.lean.
-/
namespace Verif.Size64
variable {α : Type} [Arith α]

namespace IndexIterator
open Verif.IndexIterator (Calls Policy map_dims)

/-- index_iterator.hpp:34–36: the iterations of a loop of `execute_looped`, with the loop variable
modulo 2^64 (see `for64`). -/
def loopCalls (hi st : Nat) (body : Nat → Calls (List Nat)) : Nat → Nat → List (Calls (List Nat))
  | 0, cur => if cur < hi then [.fail .diverge] else []
  | fuel + 1, cur => if cur < hi then body cur :: loopCalls hi st body fuel (u64 (cur + st)) else []

/-- index_iterator.hpp:23–37 `execute_looped<dim, cur_dim>`; with step 0 as in
Model/IndexIterator.lean. -/
def execute_looped (mn mx st : List Nat) : Nat → Nat → List Nat → Calls (List Nat)
  | 0, _, args => .call args
  | dim + 1, cur_dim, args =>
    if st.length ≤ cur_dim ∧ mn.getD cur_dim 0 < mx.getD cur_dim 0 then
      .seq [execute_looped mn mx st dim (cur_dim + 1) (args ++ [mn.getD cur_dim 0]), .fail .oob]
    else if st.getD cur_dim 0 = 0 ∧ mn.getD cur_dim 0 < mx.getD cur_dim 0 then
      .seq [execute_looped mn mx st dim (cur_dim + 1) (args ++ [mn.getD cur_dim 0]), .fail .diverge]
    else .seq (loopCalls (mx.getD cur_dim 0) (st.getD cur_dim 0)
      (fun cur => execute_looped mn mx st dim (cur_dim + 1) (args ++ [cur]))
      (2 ^ 64) (mn.getD cur_dim 0))

/-- index_iterator.hpp:39–43 `loop_nest<dim>`. -/
def loop_nest (dim : Nat) (mn mx st : List Nat) : Calls (List Nat) :=
  execute_looped mn mx st dim 0 []

/-- index_iterator.hpp:65–85, looped.hpp:31–51, algorithms.hpp:70–90 `increment`. -/
def increment (mn mx st cur : List Nat) : List Nat :=
  match (List.range cur.length).find?
      fun d => decide (u64 (cur.getD d 0 + st.getD d 0) < mx.getD d 0) with
  | none => cur
  | some d =>
    (List.range d).foldl (fun cur i => cur.set i (mn.getD i 0))
      (cur.set d (u64 (cur.getD d 0 + st.getD d 0)))

/-- index_iterator.hpp:109–117: the iterator after `n` increments. -/
def iter (mn mx st : List Nat) : Nat → List Nat
  | 0 => mn
  | n + 1 => increment mn mx st (iter mn mx st n)

/-- index_iterator.hpp:256–268: number of blocks in the dimensions `ds`. -/
def blockCounts (mn mx block : List Nat) (ds : List Nat) : M Nat :=
  ds.foldlM (fun c d => (fun n => u64 (c * n)) <$> IEEE.blockCount mn mx block d) 1

/-- index_iterator.hpp:168–362 `iterate_indices<dim>`. -/
def iterateRev (dim : Nat) : List (List Nat × List Bool) → List Nat → List Nat → Calls (List Nat)
  | [], mn, mx =>
    if mn.length ≠ mx.length ∨ mn.length ≠ dim then .fail .terminate
    else .fail .oob -- `back()` of an empty vector
  | [(block, _)], mn, mx =>
    if mn.length ≠ mx.length ∨ mn.length ≠ dim then .fail .terminate
    else loop_nest dim mn mx block
  | (block, parallel_dims) :: c :: rest, mn, mx =>
    if mn.length ≠ mx.length ∨ mn.length ≠ dim then .fail .terminate
    else if parallel_dims.length < dim then .fail .outOfRange
    else if block.length < dim then .fail .oob
    else
      let map := (List.range dim).filter fun d => parallel_dims.getD d false
      let serial := (List.range dim).filter fun d => !parallel_dims.getD d false
      let min_reduced := map.map fun d => mn.getD d 0
      let max_reduced := map.map fun d => mx.getD d 0
      let block_reduced := map.map fun d => block.getD d 0
      match blockCounts mn mx block map, blockCounts mn mx block serial with
      | .error e, _ => .fail e
      | _, .error e => .fail e
      | .ok inner_index_count_reduced, .ok inner_index_count_remain =>
        .par ((List.range inner_index_count_reduced).map fun n =>
          let partial_index := iter min_reduced max_reduced block_reduced n
          match map_dims partial_index map mn, map_dims partial_index map mx with
          | .error e, _ => .fail e
          | _, .error e => .fail e
          | .ok min_serial_fill, .ok max_serial_fill =>
            if block.length ≠ dim then .fail .terminate
            else .seq ((List.range inner_index_count_remain).map fun n =>
              let cur_index := iter min_serial_fill max_serial_fill block n
              iterateRev dim (c :: rest) cur_index
                ((List.range dim).map fun d => u64 (cur_index.getD d 0 + block.getD d 0))))

/-- index_iterator.hpp:168–362 `iterate_indices<dim>(policy, min, max, f)`. -/
def iterate_indices (dim : Nat) (policy : Policy) (mn mx : List Nat) : Calls (List Nat) :=
  iterateRev dim policy.cfg.reverse mn mx

end IndexIterator

namespace Looped
open _root_.Verif.Size64.IndexIterator
open Verif.Looped (Policy)

/-- looped.hpp:162–165: number of blocks. -/
def inner_index_count (mn mx block : List Nat) : M Nat :=
  (List.range mn.length).foldlM (fun c d =>
    if block.length ≤ d then .error .oob
    else if block.getD d 0 = 0 then .error .divZero
    else .ok (u64 (c * (usub (mx.getD d 0) (mn.getD d 0) / block.getD d 0)))) 1

/-- looped.hpp:148–228 `iterate_indices`. -/
def iterateRev {σ : Type} (f : List Nat → σ → M σ) :
    List (List Nat) → List Nat → List Nat → σ → M σ
  | [], mn, mx, _ =>
    if mn.length ≠ mx.length then .error .terminate
    else .error .oob -- `back()` of an empty vector
  | block :: rest, mn, mx, s =>
    if mn.length ≠ mx.length then .error .terminate
    else do
      let count ← inner_index_count mn mx block
      if mx.length ≠ block.length then .error .terminate
      else
        (List.range count).foldlM (fun s n =>
          let cur_index := iter mn mx block n
          match rest with
          | [] => f cur_index s
          | c :: rest =>
            iterateRev f (c :: rest) cur_index
              ((List.range mn.length).map fun d => u64 (cur_index.getD d 0 + block.getD d 0)) s) s

/-- looped.hpp:148–228 `iterate_indices(policy, min, max, f)`. -/
def iterate_indices {σ : Type} (policy : Policy) (mn mx : List Nat) (f : List Nat → σ → M σ)
    (s : σ) : M σ :=
  iterateRev f policy.cfg.reverse mn mx s

/-- looped.hpp:273–282: the function called for each index. -/
def body (N : Nat) (A B : Array α) (cur_index : List Nat) (C : Array α) : M (Array α) := do
  let x := cur_index.getD 0 0
  let y := cur_index.getD 1 0
  let k := cur_index.getD 2 0
  let a ← rd A (u64 (x * N + k))
  let b ← rd B (u64 (y * N + k))
  let c ← rd C (u64 (x * N + y))
  wr C (u64 (x * N + y)) (Arith.mac c a b)

/-- looped.hpp:248–284 `looped::matrix_multiply`. -/
def matrix_multiply (N : Nat) (A B : Array α) (block_result block_input : Nat) : M (Array α) := do
  let policy ← Policy.new 3
  let policy ← policy.add_blocking [block_result, block_result, block_input]
  iterate_indices policy [0, 0, 0] [N, N, N] (body N A B) (zeros (u64 (N * N)))

end Looped

namespace Algorithms
open _root_.Verif.Size64.IndexIterator

/-- algorithms.hpp:12–50 `index_iterator`: the pair `(x, y)` after `n` increments. -/
def index_iterator (stride : Nat) : Nat → Nat × Nat
  | 0 => (0, 0)
  | n + 1 =>
    let (x, y) := index_iterator stride n
    if y = usub stride 1 then (u64 (x + 1), 0) else (x, u64 (y + 1))

/-- algorithms.hpp:194–199, 202–207 -/
def loadSmall (src : Array α) (N outer k_block block_result block_input : Nat)
    (small : Array α) : M (Array α) :=
  forStep 0 block_result 1 small fun x small =>
    forStep 0 block_input 1 small fun k small => do
      let v ← rd src (u64 ((outer + x) * N + k_block + k))
      wr small (u64 (x * block_input + k)) v

/-- algorithms.hpp:222–231: `std::inner_product`; iterators into `A_small` from
`x * block_input` to `(x + 1) * block_input`. -/
def inner_product (A_small B_small : Array α) (block_input x y : Nat) : M α :=
  let first := u64 (x * block_input)
  let last := u64 ((x + 1) * block_input)
  forStep 0 (usub last first) 1 Arith.zero fun k acc => do
    let a ← rd A_small (first + k)
    let b ← rd B_small (u64 (y * block_input) + k)
    pure (Arith.mac acc a b)

/-- algorithms.hpp:211–232 -/
def multSmall (A_small B_small : Array α) (block_result block_input : Nat) (C_inner : Array α) :
    M (Array α) :=
  (List.range (u64 (block_result * block_result))).foldlM (fun C_inner n => do
    let (x, y) := index_iterator block_result n
    let value ← rd C_inner n
    let p ← inner_product A_small B_small block_input x y
    wr C_inner n (Arith.add value p)) C_inner

/-- algorithms.hpp:176–233 -/
def block (N : Nat) (A B : Array α) (block_input block_result outer_x outer_y : Nat) :
    M (Array α) := do
  let s ← for64 0 N block_input
    ((zeros (u64 (block_result * block_result)), zeros (u64 (block_input * block_result)),
      zeros (u64 (block_input * block_result))) : Array α × Array α × Array α)
    fun k_block (C_inner, A_small, B_small) => do
      let A_small ← loadSmall A N outer_x k_block block_result block_input A_small
      let B_small ← loadSmall B N outer_y k_block block_result block_input B_small
      let C_inner ← multSmall A_small B_small block_result block_input C_inner
      pure (C_inner, A_small, B_small)
  pure s.1

/-- algorithms.hpp:163–243: the function called for each block. -/
def task (N : Nat) (A B : Array α) (block_input block_result : Nat) (cur_index : List Nat) :
    Act α Unit := do
  let block_x := cur_index.getD 0 0
  let block_y := cur_index.getD 1 0
  let outer_x := u64 (block_x * block_result)
  let outer_y := u64 (block_y * block_result)
  let C_inner ← Act.ofM (block N A B block_input block_result outer_x outer_y)
  forStep 0 block_result 1 () fun x _ =>
    forStep 0 block_result 1 () fun y _ => do
      let v ← Act.ofM (rd C_inner (u64 (x * block_result + y)))
      Act.write (u64 (N * N)) (u64 ((outer_x + x) * N + (outer_y + y))) v

/-- algorithms.hpp:134–140: number of blocks in one direction. -/
def result_blocks (N block_result : Nat) : Nat :=
  u64 (N / block_result + if N % block_result ≠ 0 then 1 else 0)

/-- algorithms.hpp:160–243 -/
def tree (N : Nat) (A B : Array α) (block_input block_result : Nat) : Tree α :=
  let rb := result_blocks N block_result
  .par ((List.range (u64 (rb * rb))).map fun n =>
    .act (task N A B block_input block_result (iter [0, 0] [rb, rb] [1, 1] n)))

/-- algorithms.hpp:130–245 `algorithms::matrix_multiply`. -/
def matrix_multiply (N : Nat) (A B : Array α) (block_input block_result : Nat) : ND (Array α) :=
  if block_result = 0 then ND.fail .divZero
  else ND.runOn (zeros (u64 (N * N))) (tree N A B block_input block_result)

end Algorithms

namespace Semi
open _root_.Verif.Size64.IndexIterator
open Verif.IndexIterator (Policy)
open Verif.Kernel (Acc8 macAt)

/-- semi.cpp:36–45, 109–113 -/
def copy (N : Nat) (pol_copy : Policy) (src : Array α) : ND (Array α) :=
  ND.runOn (zeros (u64 (N * N))) ((iterate_indices 2 pol_copy [0, 0] [N, N]).toTree fun p => do
    let x := p.getD 0 0
    let y := p.getD 1 0
    let v ← Act.ofM (rd src (u64 (x * N + y)))
    Act.write (u64 (N * N)) (u64 (x * N + y)) v)

/-- semi.cpp:69–96 -/
def inner8 (N : Nat) (A_conflict B_conflict : Array α) (block_input x y k : Nat) : M (Acc8 α) :=
  let mac i j k_inner r :=
    macAt A_conflict B_conflict (u64 ((x + i) * N + k + k_inner)) (u64 ((y + j) * N + k + k_inner)) r
  forStep 0 block_input 1 Acc8.init fun k_inner s => do
    let r00 ← mac 0 0 k_inner s.r00
    let r01 ← mac 0 1 k_inner s.r01
    let r10 ← mac 1 0 k_inner s.r10
    let r11 ← mac 1 1 k_inner s.r11
    let r20 ← mac 2 0 k_inner s.r20
    let r21 ← mac 2 1 k_inner s.r21
    let r30 ← mac 3 0 k_inner s.r30
    let r31 ← mac 3 1 k_inner s.r31
    pure ⟨r00, r01, r10, r11, r20, r21, r30, r31⟩

/-- semi.cpp:65–107 -/
def body (N : Nat) (A_conflict B_conflict : Array α) (block_input : Nat) (p : List Nat) :
    Act α Unit := do
  let x := p.getD 0 0
  let y := p.getD 1 0
  let k := p.getD 2 0
  let s ← Act.ofM (inner8 N A_conflict B_conflict block_input x y k)
  let add i j r := Act.addTo (u64 (N * N)) (u64 ((x + i) * N + (y + j))) r
  add 0 0 s.r00
  add 0 1 s.r01
  add 1 0 s.r10
  add 1 1 s.r11
  add 2 0 s.r20
  add 2 1 s.r21
  add 3 0 s.r30
  add 3 1 s.r31

/-- semi.cpp:65–107: the three-dimensional iteration. -/
def tree (N : Nat) (A_conflict B_conflict : Array α) (block_input : Nat) (policy : Policy) :
    Tree α :=
  (iterate_indices 3 policy [0, 0, 0] [N, N, N]).toTree (body N A_conflict B_conflict block_input)

/-- semi.cpp:20–116 `semi::matrix_multiply`. -/
def matrix_multiply (N : Nat) (A B : Array α) (block_input : Nat) : ND (Array α) := do
  let pol_copy ← ND.ofM (Policy.new 2)
  let A_conflict ← copy N pol_copy A
  let B_conflict ← copy N pol_copy B
  let policy ← ND.ofM (Verif.Semi.policy block_input)
  let C_conflict ← ND.runOn (zeros (u64 (N * N))) (tree N A_conflict B_conflict block_input policy)
  copy N pol_copy C_conflict

end Semi
end Verif.Size64
