import Verif.Model.Recursive
/-
Model of /repo/src/variants/static_improved.cpp (class `static_improved`) and of
/repo/src/variants/pseudodynamic.cpp.

Simplifications: HPX component creation and AGAS registration (static_improved.cpp:219–233,
250–257), console output and `print_schedule` are dropped; the number of localities is a
parameter.  The comparison of doubles in `fulfills_constraints` is an arbitrary predicate.
-/
namespace Verif.StaticImproved
open Verif.Kernel Verif.Recursive
variable {α : Type} [Arith α]

/-- matrix_multiply_work.hpp:5–10 `struct matrix_multiply_work`. -/
structure Work where
  x : Nat
  y : Nat
  N : Nat
deriving DecidableEq, Repr

/-- The members of `static_improved` used by the scheduler (static_improved.hpp:23–25).
`relOk d m` is the outcome of the comparison
`double(d) / double(m) < max_relative_work_difference` (static_improved.cpp:61–67). -/
structure Params where
  min_work_size : Nat
  max_work_difference : Nat
  relOk : Nat → Nat → Bool

/-- The two local variables of `create_schedule` that live across iterations
(static_improved.cpp:77, 80). -/
structure Sched where
  all_work : List (List Work)
  total_work : List Nat
deriving DecidableEq, Repr

/-- `total_work[i]`, e.g. static_improved.cpp:98. -/
def Sched.load (s : Sched) (i : Nat) : Nat := s.total_work.getD i 0

/-- `all_work[i]`, e.g. static_improved.cpp:131. -/
def Sched.work (s : Sched) (i : Nat) : List Work := s.all_work.getD i []

/-- `static_cast<int64_t>` of a 64-bit unsigned number. -/
def toInt64 (n : Nat) : Int := if n < 2 ^ 63 then (n : Int) else (n : Int) - 2 ^ 64

/-- static_improved.cpp:42–72 `fulfills_constraints`. -/
def fulfills_constraints (p : Params) (total_work : List Nat) : Bool :=
  let mm := (List.range' 1 (total_work.length - 1)).foldl
    (fun (mm : Nat × Nat) i =>
      (if total_work.getD i 0 < mm.1 then total_work.getD i 0 else mm.1,
       if mm.2 < total_work.getD i 0 then total_work.getD i 0 else mm.2))
    (total_work.getD 0 0, total_work.getD 0 0)
  let min_work := mm.1
  let max_work := mm.2
  if usub max_work min_work < p.max_work_difference then true
  else if 0 < min_work ∧ 0 < max_work then p.relOk (usub max_work min_work) min_work
  else false

/-- Local variables `max_work`, `max_indices`, `min_work`, `min_index`
(static_improved.cpp:89–95). -/
structure Extremes where
  max_work : Nat
  max_indices : List Nat
  min_work : Nat
  min_index : Nat

/-- static_improved.cpp:89–110, scan for the most and the least loaded localities. -/
def extremes (num_localities : Nat) (total_work : List Nat) : Extremes :=
  (List.range' 1 (num_localities - 1)).foldl
    (fun (e : Extremes) i =>
      let t := total_work.getD i 0
      let e := if e.max_work < t then { e with max_work := t, max_indices := [i] }
        else if t = e.max_work then { e with max_indices := e.max_indices ++ [i] } else e
      if t < e.min_work then { e with min_work := t, min_index := i } else e)
    ⟨total_work.getD 0 0, [0], total_work.getD 0 0, 0⟩

/-- static_improved.cpp:139–145, the imbalance after splitting `w`. -/
def work_difference (max_work min_work : Nat) (w : Work) : Nat :=
  let split_size := (w.N * w.N) / 2
  (toInt64 (usub max_work split_size) - toInt64 (min_work + split_size)).natAbs

/-- static_improved.cpp:130–152, choose a work package of one locality. The result is
`work_to_balance_index`. -/
def balance_index (p : Params) (max_work min_work : Nat) (ws : List Work) : Nat :=
  ((List.range ws.length).foldl
    (fun (st : Nat × Nat) j =>
      let w := ws.getD j ⟨0, 0, 0⟩
      if w.N ≤ p.min_work_size then st
      else if work_difference max_work min_work w ≤ st.1 then
        (work_difference max_work min_work w, j)
      else st)
    (usub max_work min_work, ws.length)).2

/-- static_improved.cpp:128–161: the first maximally loaded locality with a package to
split, and the index of the package. -/
def find_work (p : Params) (s : Sched) (e : Extremes) : Option (Nat × Nat) :=
  e.max_indices.findSome? fun max_index =>
    let j := balance_index p e.max_work e.min_work (s.work max_index)
    if j ≠ (s.work max_index).length then some (max_index, j) else none

/-- static_improved.cpp:171–191: split package `j` of locality `max_index`, move two of the
four quarters to locality `min_index`. -/
def split_work (s : Sched) (max_index min_index j : Nat) : Sched :=
  let w := (s.work max_index).getD j ⟨0, 0, 0⟩
  let n_new := w.N / 2
  let all_work := s.all_work.modify max_index (·.eraseIdx j)
  let all_work := all_work.modify max_index (· ++ [⟨w.x + 0, w.y + 0, n_new⟩])
  let all_work := all_work.modify max_index (· ++ [⟨w.x + (0 + n_new), w.y + 0, n_new⟩])
  let all_work := all_work.modify min_index (· ++ [⟨w.x + 0, w.y + (0 + n_new), n_new⟩])
  let all_work := all_work.modify min_index (· ++ [⟨w.x + (0 + n_new), w.y + (0 + n_new), n_new⟩])
  let total_work := s.total_work.modify max_index (usub · (2 * n_new * n_new))
  let total_work := total_work.modify min_index (· + 2 * n_new * n_new)
  ⟨all_work, total_work⟩

/-- One evaluation of the loop condition and body (static_improved.cpp:86–192); `none` if the
loop is left by its condition or by `break`. -/
def schedStep (p : Params) (num_localities : Nat) (s : Sched) : Option Sched :=
  if fulfills_constraints p s.total_work then none
  else
    let e := extremes num_localities s.total_work
    match find_work p s e with
    | none => none
    | some (max_index, j) => some (split_work s max_index e.min_index j)

/-- static_improved.cpp:77–84, the state before the loop. -/
def initSched (N num_localities : Nat) : Sched :=
  ⟨(List.replicate num_localities []).modify 0 (· ++ [⟨0, 0, N⟩]),
   (List.replicate num_localities 0).modify 0 fun _ => N * N⟩

/-- static_improved.cpp:86–192: the `while` loop, given up after `fuel` iterations. -/
def schedLoop (p : Params) (num_localities : Nat) : Nat → Sched → M Sched
  | 0, _ => .error .diverge
  | fuel + 1, s =>
    match schedStep p num_localities s with
    | none => .ok s
    | some s' => schedLoop p num_localities fuel s'

/-- static_improved.cpp:74–195 `create_schedule`, final values of both local variables. With no
locality `all_work[0]` does not exist. The loop is cut off after `N^3 + 1` evaluations of its
condition (`C15_schedule_terminates`: this never happens). -/
def create_schedule_state (p : Params) (N num_localities : Nat) : M Sched :=
  if num_localities = 0 then .error .oob
  else schedLoop p num_localities (N ^ 3 + 1) (initSched N num_localities)

/-- static_improved.cpp:74–195 `create_schedule`. -/
def create_schedule (p : Params) (N num_localities : Nat) : M (List (List Work)) :=
  Sched.all_work <$> create_schedule_state p N num_localities

/-- static_improved.cpp:31–40 `insert_submatrix`; `C` has `N * N` elements. -/
def insert_submatrix (N : Nat) (submatrix : Array α) (w : Work) : Act α Unit :=
  forStep 0 w.N 1 () fun i _ =>
    forStep 0 w.N 1 () fun j _ => do
      let v ← Act.ofM (rd submatrix (i * w.N + j))
      Act.write (N * N) ((w.x + i) * N + (w.y + j)) v

/-- static_improved.cpp:247–270: start all packages and collect the results. -/
def computePackages (mult : Nat → Nat → Nat → M (Array α)) (block_result : Nat) :
    List Work → ND (List (Work × Array α))
  | [] => pure []
  | w :: ws => do
    let sub ← distribute_recursively mult block_result w.x w.y w.N
    let rest ← computePackages mult block_result ws
    pure ((w, sub) :: rest)

/-- static_improved.cpp:197–275 `static_improved::matrix_multiply` on `num_localities`
localities (the root locality does not compute if there are others, lines 203–217). In each
repetition the results of the packages are inserted into the member `C` by concurrent
continuations, `wait_all` ends the repetition. -/
def matrix_multiply (p : Params) (N : Nat) (A B : Array α) (transposed : Bool)
    (block_input block_result repetitions num_localities : Nat) : ND (Array α) :=
  let compute_localities := if 1 < num_localities then num_localities - 1 else num_localities
  do
    let all_work ← ND.ofM (create_schedule p N compute_localities)
    let mult := calculate_submatrix ⟨N, A, B, transposed, block_input⟩
    forStep 0 repetitions 1 (zeros (N * N)) fun _ C => do
      let subs ← computePackages mult block_result all_work.flatten
      ND.runOn C (.par (subs.map fun ws => .act (insert_submatrix N ws.2 ws.1)))

/-- pseudodynamic.cpp:19–29 `pseudodynamic::matrix_multiply`. -/
def pseudodynamic_matrix_multiply (p : Params) (N : Nat) (A B : Array α) (transposed : Bool)
    (block_result block_input repetitions num_localities : Nat) : ND (Array α) :=
  matrix_multiply p N A B transposed block_input block_result repetitions num_localities

end Verif.StaticImproved
