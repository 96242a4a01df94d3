import Verif.Model.StaticImproved
import Verif.Model.Console
/-
Third model of /repo/src/variants/components/recursive.cpp, /repo/src/variants/single.cpp and
/repo/src/variants/static_improved.cpp: with the components, the localities they live on, the names
under which they are registered and found, and what is written with `verbose >= 1`.

In `Model/Recursive.lean` and `Model/StaticImproved.lean` a call of an action reaches the right object.
Here a component is an object on a locality, and the code finds it by a name, as the code in /repo does.

What is assumed about HPX:
* `new_<client<T>>(id, …)` creates an object on the locality `id`;
  `new_<client<T>[]>(default_layout(ids), n, …)` with `n` the length of `ids` creates one on each.
* An action runs on the locality of its object, and `get_locality_id()` is that locality.
* `connect_to(name)` finds an object that is registered under that name.  The program registers several
  objects under the same name; which of them is found is left open, and it may be one that is
  registered during the call.  If none is ever registered, the call does not return.

The events of tasks that run concurrently are listed in the order of the program text; all statements
are about the number of events, not about their order.
-/
namespace Verif.Components
open Verif.Kernel Verif.Recursive Verif.StaticImproved Verif.Console
variable {α : Type} [Arith α]

/-- A component `multiplier` (multiplier.hpp:10–25) on the locality `loc`. -/
structure MultiplierAt (α : Type) where
  loc : Nat
  obj : Multiplier α

/-- A component `recursive` (recursive.hpp:11–20) on the locality `loc`. -/
structure RecursiveAt where
  loc : Nat
  block_result : Nat
  verbose : Nat
deriving DecidableEq, Repr

/-- Something that can be observed: recursive.cpp:41–45 `work on x: …, y: … blockSize: …` with the
locality, recursive.cpp:54–58 `handling large matrix, more work... (blocksize == …)`, an execution of
`calculate_submatrix(x, y, n)` (multiplier.cpp:16–35) on a locality, and vectors with `n` elements in total
that are passed to or returned from an object on another or the same locality. -/
inductive Event
  | workOn (loc x y blockSize : Nat)
  | large (blockSize : Nat)
  | submatrix (loc x y n : Nat)
  | moved (src dst n : Nat)
deriving DecidableEq, Repr

/-- `"/multiplier#" + std::to_string(l)` (recursive.cpp:49, single.cpp:30, static_improved.cpp:231). -/
def multiplierName (l : Nat) : Text := "/multiplier#".toList ++ dec l

/-- `"/recursive#" + std::to_string(l)` (recursive.cpp:68, single.cpp:36, static_improved.cpp:256). -/
def recursiveName (l : Nat) : Text := "/recursive#".toList ++ dec l

/-- What has been registered with `register_as`, for each type of component. -/
structure Names (α : Type) where
  multipliers : List (Text × MultiplierAt α)
  recursives : List (Text × RecursiveAt)

/-- `connect_to(name)` followed by `get_id()` (recursive.cpp:48–51, 67–68, 79). -/
def connect_to {β : Type} (registered : List (Text × β)) (name : Text) : ND β := fun o =>
  (∃ c, (name, c) ∈ registered ∧ o = .ok c) ∨ ((∀ c, (name, c) ∉ registered) ∧ o = .error .diverge)

/-- recursive.cpp:37–94 `distribute_recursively` of the object `self`. -/
def distribute_recursively (names : Names α) (self : RecursiveAt) (x y blockSize : Nat) :
    ND (Array α × List Event) :=
  let traced := if self.verbose ≥ 1 then [Event.workOn self.loc x y blockSize] else []
  if _h : blockSize ≤ self.block_result then do
    let multiplier ← connect_to names.multipliers (multiplierName self.loc)
    let C ← ND.ofM (calculate_submatrix multiplier.obj x y blockSize)
    pure (C, traced ++ [Event.submatrix multiplier.loc x y blockSize,
      Event.moved multiplier.loc self.loc C.size])
  else
    let traced := traced ++ if self.verbose ≥ 1 then [Event.large blockSize] else []
    let n_new := blockSize / 2
    do
      let next ← connect_to names.recursives (recursiveName self.loc)
      let s0 ← distribute_recursively names next (x + 0) (y + 0) n_new
      let s1 ← distribute_recursively names next (x + (0 + n_new)) (y + 0) n_new
      let s2 ← distribute_recursively names next (x + 0) (y + (0 + n_new)) n_new
      let s3 ← distribute_recursively names next (x + (0 + n_new)) (y + (0 + n_new)) n_new
      let nC := blockSize * blockSize
      let C ← ND.runOn (zeros nC) (.par [
        .act (extract_submatrix nC s0.1 0 0 n_new),
        .act (extract_submatrix nC s1.1 (0 + n_new) 0 n_new),
        .act (extract_submatrix nC s2.1 0 (0 + n_new) n_new),
        .act (extract_submatrix nC s3.1 (0 + n_new) (0 + n_new) n_new)])
      let returned (s : Array α × List Event) : List Event :=
        s.2 ++ [Event.moved next.loc self.loc s.1.size]
      pure (C, traced ++ (returned s0 ++ returned s1 ++ returned s2 ++ returned s3))
termination_by blockSize
decreasing_by all_goals omega

/-- single.cpp:14–46 `single::matrix_multiply` (and matrix_multiply.cpp:134–156) on the locality
`here`. -/
def single_matrix_multiply (here N : Nat) (A B : Array α) (transposed : Bool)
    (block_result block_input repetitions verbose : Nat) : ND (Array α × List Event) :=
  let multiplier : MultiplierAt α := ⟨here, ⟨N, A, B, transposed, block_input⟩⟩
  let recursive : RecursiveAt := ⟨here, block_result, verbose⟩
  let names : Names α :=
    ⟨[(multiplierName multiplier.loc, multiplier)], [(recursiveName recursive.loc, recursive)]⟩
  let passed := [Event.moved here multiplier.loc (A.size + B.size)]
  forStep 0 repetitions 1 (zeros (N * N), passed) fun _ st => do
    let r ← distribute_recursively names recursive 0 0 N
    pure (r.1, st.2 ++ (r.2 ++ [Event.moved recursive.loc here r.1.size]))

/-- static_improved.cpp:201–217: the localities that compute.  `all` is the result of
`find_all_localities`, `root` that of `find_root_locality`. -/
def computing (all : List Nat) (root : Nat) : List Nat :=
  if 1 < all.length then all.erase root else all

/-- `all_ids[i]` (static_improved.cpp:252). -/
def idAt (ids : List Nat) (i : Nat) : M Nat :=
  match ids[i]? with
  | some l => .ok l
  | none => .error .oob

/-- static_improved.cpp:250–257: the component that is created for a package of `all_work[i]`, with its
name. -/
def created (ids : List Nat) (block_result verbose i : Nat) : List (Text × RecursiveAt) :=
  match ids[i]? with
  | some l => [(recursiveName l, ⟨l, block_result, verbose⟩)]
  | none => []

/-- static_improved.cpp:246–257: everything that is registered under the name of a `recursive` in the
course of one call of `matrix_multiply`. -/
def registered (ids : List Nat) (block_result verbose repetitions : Nat) (all_work : List (List Work)) :
    List (Text × RecursiveAt) :=
  (List.range repetitions).flatMap fun _ =>
    (List.range all_work.length).flatMap fun i =>
      (all_work.getD i []).flatMap fun _ => created ids block_result verbose i

/-- static_improved.cpp:249–269: the packages of `all_work[i]`; `here` is the locality that waits for
the results. -/
def localityWork (names : Names α) (ids : List Nat) (here block_result verbose i : Nat) :
    List Work → ND (List (Work × Array α) × List Event)
  | [] => pure ([], [])
  | w :: ws => do
    let l ← ND.ofM (idAt ids i)
    let sub ← distribute_recursively names ⟨l, block_result, verbose⟩ w.x w.y w.N
    let rest ← localityWork names ids here block_result verbose i ws
    pure ((w, sub.1) :: rest.1, sub.2 ++ [Event.moved l here sub.1.size] ++ rest.2)

/-- static_improved.cpp:247–270: all packages of `all_work`, from index `i`. -/
def allWork (names : Names α) (ids : List Nat) (here block_result verbose : Nat) :
    Nat → List (List Work) → ND (List (Work × Array α) × List Event)
  | _, [] => pure ([], [])
  | i, ws :: rest => do
    let first ← localityWork names ids here block_result verbose i ws
    let others ← allWork names ids here block_result verbose (i + 1) rest
    pure (first.1 ++ others.1, first.2 ++ others.2)

/-- static_improved.cpp:197–275 `static_improved::matrix_multiply`, called on the locality `root` (HPX runs
`hpx_main` there). -/
def matrix_multiply (p : Params) (N : Nat) (A B : Array α) (transposed : Bool)
    (block_input block_result repetitions verbose : Nat) (all : List Nat) (root : Nat) :
    ND (Array α × List Event) :=
  let num_localities := all.length
  let all_ids := computing all root
  let compute_localities := if 1 < all.length then num_localities - 1 else num_localities
  let multipliers := all_ids.map fun l =>
    (multiplierName l, (⟨l, ⟨N, A, B, transposed, block_input⟩⟩ : MultiplierAt α))
  let passed := all_ids.map fun l => Event.moved root l (A.size + B.size)
  do
    let all_work ← ND.ofM (create_schedule p N compute_localities)
    let names : Names α :=
      ⟨multipliers, registered all_ids block_result verbose repetitions all_work⟩
    forStep 0 repetitions 1 (zeros (N * N), passed) fun _ st => do
      let subs ← allWork names all_ids root block_result verbose 0 all_work
      let C ← ND.runOn st.1 (.par (subs.1.map fun ws => .act (insert_submatrix N ws.2 ws.1)))
      pure (C, st.2 ++ subs.2)

/-- static_improved.cpp:19–25: one line of the printed schedule, without its end. -/
def localityLine (i : Nat) (ws : List Work) : Text :=
  "locality: ".toList ++ dec i ++ " = ".toList ++
  (List.range ws.length).flatMap fun j =>
    (if j > 0 then ", ".toList else []) ++
      ("[".toList ++ dec (ws.getD j ⟨0, 0, 0⟩).N ++ "]".toList)

/-- static_improved.cpp:15–28 `print_schedule` (called for `verbose >= 1`, lines 242–244). -/
def print_schedule (all_work : List (List Work)) : Text :=
  "-----work-distribution:-----".toList ++ endl ++
  (List.range all_work.length).flatMap fun i =>
    localityLine i (all_work.getD i []) ++ endl

end Verif.Components
