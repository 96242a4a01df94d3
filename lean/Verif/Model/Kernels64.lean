import Verif.Model.Size64
/-
The kernels that multiply blocks, the recursive and the distributed multiplication
(/repo/src/reference_kernels/kernel.hpp, /repo/src/variants/components/multiplier.cpp, recursive.cpp,
static_improved.cpp) with `size_t` and `std::uint64_t` arithmetic modulo 2^64.

As in Model/Size64.lean, sums and products are reduced once at the end, which is the same.  Loop
variables that are incremented by one up to a 64-bit number do not wrap (`forStep`); the loops with
larger steps are `for64`.
-/
namespace Verif.Size64
variable {α : Type} [Arith α]

section Loops
variable {σ : Type} {m : Type → Type} [Monad m] [MonadExceptOf Err m]

/-- Body of `for64`: `cur` is the loop variable, `fuel` bounds the number of iterations
(e.g. kernel.hpp:73). -/
def forGo64 (hi st : Nat) (body : Nat → σ → m σ) : Nat → Nat → σ → m σ
  | 0, cur, s => if cur < hi then throw Err.diverge else pure s
  | fuel + 1, cur, s =>
    if cur < hi then do
      let s' ← body cur s
      forGo64 hi st body fuel (u64 (cur + st)) s'
    else pure s

/-- `for (size_t i = lo; i < hi; i += st) body` (e.g. kernel.hpp:73) with `i` modulo 2^64; after 2^64
iterations the loop variable has repeated, so the loop never ends. -/
def for64 (lo hi st : Nat) (s : σ) (body : Nat → σ → m σ) : m σ :=
  forGo64 hi st body (2 ^ 64) lo s

end Loops

namespace Kernel
open Verif.Kernel (Acc8 macAt Multiplier)

/-- kernel.hpp:18–20 -/
def component (A B : Array α) (N x y i j : Nat) : M α :=
  forStep 0 N 1 Arith.zero fun k result_component => do
    let a ← rdAt A (u64 ((x + i) * N + k))
    let b ← rdAt B (u64 (k * N + (y + j)))
    pure (Arith.mac result_component a b)

/-- kernel.hpp:15–23 -/
def kernelBody (A B : Array α) (nC N x y blockSize : Nat) : Act α Unit :=
  forStep 0 blockSize 1 () fun i _ =>
    forStep 0 blockSize 1 () fun j _ => do
      let r ← Act.ofM (component A B N x y i j)
      Act.writeAt nC (u64 (i * blockSize + j)) r

/-- kernel.hpp:11–27 `kernel::kernel`. -/
def kernel (A B : Array α) (nC N x y blockSize : Nat) : Act α Unit :=
  (kernelBody A B nC N x y blockSize).catchOutOfRange

/-- kernel.hpp:38–40 -/
def componentT (A B : Array α) (N x y i j : Nat) : M α :=
  forStep 0 N 1 Arith.zero fun k result_component => do
    let a ← rd A (u64 ((x + i) * N + k))
    let b ← rd B (u64 ((y + j) * N + k))
    pure (Arith.mac result_component a b)

/-- kernel.hpp:32–44 `kernel::kernel_transposed`. -/
def kernel_transposed (A B : Array α) (nC N x y blockSize : Nat) : Act α Unit :=
  forStep 0 blockSize 1 () fun i _ =>
    forStep 0 blockSize 1 () fun j _ => do
      let r ← Act.ofM (componentT A B N x y i j)
      Act.write nC (u64 (i * blockSize + j)) r

/-- kernel.hpp:79–83, 85–89 -/
def loadSmall (src : Array α) (N x k_block block_result block_input : Nat) (small : Array α) :
    M (Array α) :=
  forStep 0 block_result 1 small fun i small =>
    forStep 0 block_input 1 small fun k small => do
      let v ← rd src (u64 ((x + i) * N + k_block + k))
      wr small (u64 (i * block_input + k)) v

/-- kernel.hpp:111–129: innermost loop over `k`. -/
def inner8 (As Bs : Array α) (block_input i j : Nat) : M (Acc8 α) :=
  let mac i' j' k r := macAt As Bs (u64 ((i + i') * block_input + k)) (u64 ((j + j') * block_input + k)) r
  forStep 0 block_input 1 Acc8.init fun k s => do
    let r00 ← mac 0 0 k s.r00
    let r01 ← mac 0 1 k s.r01
    let r10 ← mac 1 0 k s.r10
    let r11 ← mac 1 1 k s.r11
    let r20 ← mac 2 0 k s.r20
    let r21 ← mac 2 1 k s.r21
    let r30 ← mac 3 0 k s.r30
    let r31 ← mac 3 1 k s.r31
    pure ⟨r00, r01, r10, r11, r20, r21, r30, r31⟩

/-- kernel.hpp:131–139: add the accumulators to `C`. -/
def store8 (nC block_result i j : Nat) (s : Acc8 α) : Act α Unit := do
  let add i' j' r := Act.addTo nC (u64 ((i + i') * block_result + (j + j'))) r
  add 0 0 s.r00
  add 0 1 s.r01
  add 1 0 s.r10
  add 1 1 s.r11
  add 2 0 s.r20
  add 2 1 s.r21
  add 3 0 s.r30
  add 3 1 s.r31

/-- kernel.hpp:93–141 -/
def multSmall (As Bs : Array α) (nC block_result block_input : Nat) : Act α Unit :=
  for64 0 block_result 4 () fun i _ =>
    for64 0 block_result 2 () fun j _ => do
      let s ← Act.ofM (inner8 As Bs block_input i j)
      store8 nC block_result i j s

/-- kernel.hpp:54–149 `kernel::kernel_transposed_blocked`. -/
def kernel_transposed_blocked (A B : Array α) (nC N x y block_result block_input : Nat) :
    Act α Unit := do
  let _ ← for64 0 N block_input
    ((zeros (u64 (block_input * block_result)), zeros (u64 (block_input * block_result))) :
      Array α × Array α)
    fun k_block (As, Bs) => do
      let As ← Act.ofM (loadSmall A N x k_block block_result block_input As)
      let Bs ← Act.ofM (loadSmall B N y k_block block_result block_input Bs)
      multSmall As Bs nC block_result block_input
      pure (As, Bs)
  pure ()

/-- multiplier.cpp:16–35 `multiplier::calculate_submatrix`. -/
def calculate_submatrix (s : Multiplier α) (x y block_result : Nat) : M (Array α) :=
  let C : Array α := zeros (u64 (block_result * block_result))
  if !s.transposed then
    (kernel s.A s.B C.size s.N x y block_result).execOn C
  else if s.block_input = 0 ∨ block_result < 4 then
    (kernel_transposed s.A s.B C.size s.N x y block_result).execOn C
  else
    (kernel_transposed_blocked s.A s.B C.size s.N x y block_result s.block_input).execOn C

end Kernel

namespace Recursive

/-- recursive.cpp:16–35 `extract_submatrix`. -/
def extract_submatrix (nC : Nat) (C_small : Array α) (x y blockSize : Nat) : Act α Unit :=
  let blocksize_last := u64 (2 * blockSize)
  (forStep 0 blockSize 1 () fun i _ =>
    forStep 0 blockSize 1 () fun j _ => do
      let v ← Act.ofM (rdAt C_small (u64 (i * blockSize + j)))
      Act.writeAt nC (u64 ((x + i) * blocksize_last + (y + j))) v).catchOutOfRange

/-- recursive.cpp:37–94 `distribute_recursively`. -/
def distribute_recursively (mult : Nat → Nat → Nat → M (Array α)) (block_result : Nat)
    (x y blockSize : Nat) : ND (Array α) :=
  if _h : blockSize ≤ block_result then
    ND.ofM (mult x y blockSize)
  else
    let n_new := blockSize / 2
    do
      let s0 ← distribute_recursively mult block_result (u64 (x + 0)) (u64 (y + 0)) n_new
      let s1 ← distribute_recursively mult block_result (u64 (x + (0 + n_new))) (u64 (y + 0)) n_new
      let s2 ← distribute_recursively mult block_result (u64 (x + 0)) (u64 (y + (0 + n_new))) n_new
      let s3 ← distribute_recursively mult block_result (u64 (x + (0 + n_new)))
        (u64 (y + (0 + n_new))) n_new
      let nC := u64 (blockSize * blockSize)
      ND.runOn (zeros nC) (.par [
        .act (extract_submatrix nC s0 0 0 n_new),
        .act (extract_submatrix nC s1 (0 + n_new) 0 n_new),
        .act (extract_submatrix nC s2 0 (0 + n_new) n_new),
        .act (extract_submatrix nC s3 (0 + n_new) (0 + n_new) n_new)])
termination_by blockSize
decreasing_by all_goals omega

/-- single.cpp:14–46 `single::matrix_multiply`. -/
def single_matrix_multiply (N : Nat) (A B : Array α) (transposed : Bool)
    (block_result block_input repetitions : Nat) : ND (Array α) :=
  let mult := Kernel.calculate_submatrix ⟨N, A, B, transposed, block_input⟩
  forStep 0 repetitions 1 (zeros (u64 (N * N))) fun _ _ =>
    distribute_recursively mult block_result 0 0 N

end Recursive

namespace StaticImproved
open Verif.StaticImproved (Work Params Sched Extremes toInt64 fulfills_constraints extremes)

/-- static_improved.cpp:139–145, the imbalance after splitting `w`. -/
def work_difference (max_work min_work : Nat) (w : Work) : Nat :=
  let split_size := u64 (w.N * w.N) / 2
  (toInt64 (usub max_work split_size) - toInt64 (u64 (min_work + split_size))).natAbs

/-- static_improved.cpp:130–152 -/
def balance_index (p : Params) (max_work min_work : Nat) (ws : List Work) : Nat :=
  ((List.range ws.length).foldl
    (fun (st : Nat × Nat) j =>
      let w := ws.getD j ⟨0, 0, 0⟩
      if w.N ≤ p.min_work_size then st
      else if work_difference max_work min_work w ≤ st.1 then
        (work_difference max_work min_work w, j)
      else st)
    (usub max_work min_work, ws.length)).2

/-- static_improved.cpp:128–161 -/
def find_work (p : Params) (s : Sched) (e : Extremes) : Option (Nat × Nat) :=
  e.max_indices.findSome? fun max_index =>
    let j := balance_index p e.max_work e.min_work (s.work max_index)
    if j ≠ (s.work max_index).length then some (max_index, j) else none

/-- static_improved.cpp:171–191 -/
def split_work (s : Sched) (max_index min_index j : Nat) : Sched :=
  let w := (s.work max_index).getD j ⟨0, 0, 0⟩
  let n_new := w.N / 2
  let all_work := s.all_work.modify max_index (·.eraseIdx j)
  let all_work := all_work.modify max_index (· ++ [⟨u64 (w.x + 0), u64 (w.y + 0), n_new⟩])
  let all_work := all_work.modify max_index (· ++ [⟨u64 (w.x + (0 + n_new)), u64 (w.y + 0), n_new⟩])
  let all_work := all_work.modify min_index (· ++ [⟨u64 (w.x + 0), u64 (w.y + (0 + n_new)), n_new⟩])
  let all_work := all_work.modify min_index
    (· ++ [⟨u64 (w.x + (0 + n_new)), u64 (w.y + (0 + n_new)), n_new⟩])
  let total_work := s.total_work.modify max_index (usub · (u64 (2 * n_new * n_new)))
  let total_work := total_work.modify min_index fun t => u64 (t + 2 * n_new * n_new)
  ⟨all_work, total_work⟩

/-- static_improved.cpp:86–192: one evaluation of the loop condition and body. -/
def schedStep (p : Params) (num_localities : Nat) (s : Sched) : Option Sched :=
  if fulfills_constraints p s.total_work then none
  else
    let e := extremes num_localities s.total_work
    match find_work p s e with
    | none => none
    | some (max_index, j) => some (split_work s max_index e.min_index j)

/-- static_improved.cpp:77–84, the state before the loop. -/
def initSched (N num_localities : Nat) : Sched :=
  ⟨(List.replicate num_localities []).modify 0 (· ++ [⟨0, 0, N⟩]),
   (List.replicate num_localities 0).modify 0 fun _ => u64 (N * N)⟩

/-- static_improved.cpp:86–192: the `while` loop, given up after `fuel` iterations. -/
def schedLoop (p : Params) (num_localities : Nat) : Nat → Sched → M Sched
  | 0, _ => .error .diverge
  | fuel + 1, s =>
    match schedStep p num_localities s with
    | none => .ok s
    | some s' => schedLoop p num_localities fuel s'

/-- static_improved.cpp:74–195 `create_schedule`; cut off as in Model/StaticImproved.lean. -/
def create_schedule (p : Params) (N num_localities : Nat) : M (List (List Work)) :=
  Sched.all_work <$>
    if num_localities = 0 then .error .oob
    else schedLoop p num_localities (N ^ 3 + 1) (initSched N num_localities)

/-- static_improved.cpp:31–40 `insert_submatrix`. -/
def insert_submatrix (N : Nat) (submatrix : Array α) (w : Work) : Act α Unit :=
  forStep 0 w.N 1 () fun i _ =>
    forStep 0 w.N 1 () fun j _ => do
      let v ← Act.ofM (rd submatrix (u64 (i * w.N + j)))
      Act.write (u64 (N * N)) (u64 ((w.x + i) * N + (w.y + j))) v

/-- static_improved.cpp:247–270 -/
def computePackages (mult : Nat → Nat → Nat → M (Array α)) (block_result : Nat) :
    List Work → ND (List (Work × Array α))
  | [] => pure []
  | w :: ws => do
    let sub ← Recursive.distribute_recursively mult block_result w.x w.y w.N
    let rest ← computePackages mult block_result ws
    pure ((w, sub) :: rest)

/-- static_improved.cpp:197–275 `static_improved::matrix_multiply`. -/
def matrix_multiply (p : Params) (N : Nat) (A B : Array α) (transposed : Bool)
    (block_input block_result repetitions num_localities : Nat) : ND (Array α) :=
  let compute_localities := if 1 < num_localities then num_localities - 1 else num_localities
  do
    let all_work ← ND.ofM (create_schedule p N compute_localities)
    let mult := Kernel.calculate_submatrix ⟨N, A, B, transposed, block_input⟩
    forStep 0 repetitions 1 (zeros (u64 (N * N))) fun _ C => do
      let subs ← computePackages mult block_result all_work.flatten
      ND.runOn C (.par (subs.map fun ws => .act (insert_submatrix N ws.2 ws.1)))

end StaticImproved
end Verif.Size64
