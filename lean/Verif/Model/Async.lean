import Verif.Model.StaticImproved
/-
Second model of /repo/src/variants/components/recursive.cpp, /repo/src/variants/single.cpp and
of the parallel part of /repo/src/variants/static_improved.cpp: all tasks of all levels of the
recursion at once.

In `Model/Recursive.lean` the four recursive calls of one level are finished before the first
continuation starts.  Here nothing of that kind is assumed.  All vectors of all calls live in one
shared memory, every call has its own region in it, and the whole computation is one fork/join
program: as soon as a call has finished, its continuation may run, while the other calls (and the
calls below them) are at any point of their work.  The atomic steps are the reads and writes of
single elements, also inside of the kernels.

A vector that is returned from a call and moved into its continuation stays in the region of the
call.  `A` and `B` are never written and are not part of the memory.
-/
namespace Verif

/-- The program `p`, its vector starting at cell `off` instead of cell 0. -/
def Act.at {α R : Type} (off : Nat) : Act α R → Act α R
  | .ret r => .ret r
  | .fail e => .fail e
  | .rd i k => .rd (off + i) fun v => (k v).at off
  | .wr i v k => .wr (off + i) v (k.at off)
  | .rdFlag j k => .rdFlag j fun b => (k b).at off
  | .wrFlag j b k => .wrFlag j b (k.at off)

namespace Async
open Verif.Kernel Verif.Recursive Verif.StaticImproved
variable {α : Type} [Arith α]

/-- Number of cells used by `distribute_recursively` for a block of size `blockSize`: its own
vector `C` (recursive.cpp:73, or multiplier.cpp:20 for a leaf) and the regions of the four
recursive calls. -/
def cells (block_result blockSize : Nat) : Nat :=
  if _h : blockSize ≤ block_result then blockSize * blockSize
  else blockSize * blockSize + 4 * cells block_result (blockSize / 2)
termination_by blockSize
decreasing_by omega

/-- The initialisation of `std::vector<double> C(n)` (recursive.cpp:73, multiplier.cpp:20). -/
def allocate (off n : Nat) : Act α Unit :=
  forStep 0 n 1 () fun i _ => Act.wr (off + i) Arith.zero (Act.ret ())

/-- multiplier.cpp:16–35 `calculate_submatrix`: the kernel that is called, its result vector
starting at cell 0. -/
def submatrix_kernel (s : Multiplier α) (x y block_result : Nat) : Act α Unit :=
  let nC := block_result * block_result
  if !s.transposed then
    kernel s.A s.B nC s.N x y block_result
  else if s.block_input = 0 ∨ block_result < 4 then
    kernel_transposed s.A s.B nC s.N x y block_result
  else
    kernel_transposed_blocked s.A s.B nC s.N x y block_result s.block_input

/-- multiplier.cpp:16–35 `calculate_submatrix` as a task; `C` starts at cell `off`. -/
def leaf (s : Multiplier α) (off x y block_result : Nat) : Act α Unit := do
  allocate off (block_result * block_result)
  (submatrix_kernel s x y block_result).at off

/-- `C_small.at(i)` (recursive.cpp:25) for a vector of `n` elements that starts at cell `off`. -/
def readAtFrom (off n i : Nat) : Act α α :=
  if i < n then Act.rd (off + i) Act.ret else Act.fail .outOfRange

/-- recursive.cpp:16–35 `extract_submatrix`: `C_small` (`nS` elements) starts at cell `src`, `C`
(`nC` elements) at cell `dst`. -/
def extract_submatrix (src nS dst nC x y blockSize : Nat) : Act α Unit :=
  let blocksize_last := 2 * blockSize
  (forStep 0 blockSize 1 () fun i _ =>
    forStep 0 blockSize 1 () fun j _ => do
      let v ← readAtFrom src nS (i * blockSize + j)
      (Act.writeAt nC ((x + i) * blocksize_last + (y + j)) v).at dst).catchOutOfRange

/-- recursive.cpp:70–71 `offsets`. -/
def offset (n_new : Nat) : Nat → Nat × Nat
  | 0 => (0, 0)
  | 1 => (0 + n_new, 0)
  | 2 => (0, 0 + n_new)
  | _ => (0 + n_new, 0 + n_new)

/-- recursive.cpp:37–94 `distribute_recursively`: the tasks started by a call whose region starts
at cell `off`.  Each recursive call is followed by its continuation (recursive.cpp:77–86), the
four pairs run concurrently, `wait_all` (line 90) is the end of the parallel section. -/
def distribute_recursively (s : Multiplier α) (block_result off x y blockSize : Nat) : Tree α :=
  if _h : blockSize ≤ block_result then
    .act (leaf s off x y blockSize)
  else
    let n_new := blockSize / 2
    let nC := blockSize * blockSize
    .seq [
      .act (allocate off nC),
      .par ((List.range 4).map fun i =>
        let src := off + nC + i * cells block_result n_new
        .seq [
          distribute_recursively s block_result src (x + (offset n_new i).1)
            (y + (offset n_new i).2) n_new,
          .act (extract_submatrix src (n_new * n_new) off nC (offset n_new i).1
            (offset n_new i).2 n_new)])]
termination_by blockSize
decreasing_by omega

/-- single.cpp:14–46 `single::matrix_multiply`: the repetitions one after the other; the vector
that ends up in `C` (line 42) is the one in the region of the outermost call. -/
def single_tasks (N : Nat) (A B : Array α) (transposed : Bool)
    (block_result block_input repetitions : Nat) : Tree α :=
  .seq (List.replicate repetitions
    (distribute_recursively ⟨N, A, B, transposed, block_input⟩ block_result 0 0 0 N))

/-- Memory in which the first `n` cells are zero (`std::vector<double> C(N * N)`, single.cpp:16),
all others have arbitrary contents. -/
def startMem (n : Nat) (junk : Nat → α) : Nat → α := fun i => if i < n then Arith.zero else junk i

/-- single.cpp:14–46 `single::matrix_multiply`: the result under all schedules. -/
def single_matrix_multiply (junk : Nat → α) (N : Nat) (A B : Array α) (transposed : Bool)
    (block_result block_input repetitions : Nat) : ND (Array α) :=
  ND.bind (ND.run (startMem (N * N) junk) (fun _ => true)
      (single_tasks N A B transposed block_result block_input repetitions))
    fun c => ND.pure (toArray (N * N) c)

/-- static_improved.cpp:31–40 `insert_submatrix`: the vector `submatrix` (`w.N * w.N` elements)
starts at cell `src`, the member `C` at cell 0. -/
def insert_submatrix (N src : Nat) (w : Work) : Act α Unit :=
  forStep 0 w.N 1 () fun i _ =>
    forStep 0 w.N 1 () fun j _ => do
      let v ← (Act.read (w.N * w.N) (i * w.N + j)).at src
      Act.write (N * N) ((w.x + i) * N + (w.y + j)) v

/-- static_improved.cpp:247–270: the concurrent work packages of one repetition, the region of the
first one starting at cell `off`; each recursive multiplication is followed by the continuation
that inserts its result into `C`. -/
def package_tasks (s : Multiplier α) (N block_result : Nat) : Nat → List Work → List (Tree α)
  | _, [] => []
  | off, w :: ws =>
    .seq [
      distribute_recursively s block_result off w.x w.y w.N,
      .act (insert_submatrix N off w)] ::
    package_tasks s N block_result (off + cells block_result w.N) ws

/-- static_improved.cpp:246–273: the repetitions; `wait_all` (line 272) ends each of them. -/
def improved_tasks (s : Multiplier α) (N block_result repetitions : Nat) (all_work : List Work) :
    Tree α :=
  .seq (List.replicate repetitions (.par (package_tasks s N block_result (N * N) all_work)))

/-- static_improved.cpp:197–275 `static_improved::matrix_multiply`, all schedules. -/
def improved_matrix_multiply (junk : Nat → α) (p : Params) (N : Nat) (A B : Array α)
    (transposed : Bool) (block_input block_result repetitions num_localities : Nat) :
    ND (Array α) :=
  let compute_localities := if 1 < num_localities then num_localities - 1 else num_localities
  ND.bind (ND.ofM (create_schedule p N compute_localities)) fun all_work =>
    ND.bind (ND.run (startMem (N * N) junk) (fun _ => true)
        (improved_tasks ⟨N, A, B, transposed, block_input⟩ N block_result repetitions
          all_work.flatten))
      fun c => ND.pure (toArray (N * N) c)

end Async
end Verif
