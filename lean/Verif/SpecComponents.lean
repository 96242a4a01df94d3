import Verif.Model.Components
import Mathlib.Algebra.BigOperators.Group.Finset.Basic
/-
Specification vocabulary for C117, C118, C119 and C121: how often a size is halved, how many elements were computed
on a locality, and which lines were written.
-/
namespace Verif
open Components

/-- How often `n` is halved (rounding down) until it is at most `br`. -/
def halvings (br n : Nat) : Nat := if n ≤ br then 0 else halvings br (n / 2) + 1
termination_by n

/-- How many elements of result matrices were computed on the locality `l`. -/
def elementsOn (l : Nat) (ev : List Event) : Nat :=
  (ev.map fun
    | .submatrix l' _ _ n => if l' = l then n * n else 0
    | _ => 0).sum

/-- The number of lines `work on …` with the size `n`. -/
def worksOfSize (n : Nat) (ev : List Event) : Nat :=
  ev.countP fun
    | .workOn _ _ _ m => m == n
    | _ => false

/-- The number of lines `work on …`. -/
def works (ev : List Event) : Nat :=
  ev.countP fun
    | .workOn .. => true
    | _ => false

/-- The number of lines `handling large matrix …`. -/
def larges (ev : List Event) : Nat :=
  ev.countP fun
    | .large _ => true
    | _ => false

/-- The number of lines `handling large matrix …` with the size `n`. -/
def largesOfSize (n : Nat) (ev : List Event) : Nat :=
  ev.countP fun
    | .large m => m == n
    | _ => false

/-- The number of executions of `calculate_submatrix`. -/
def submatrices (ev : List Event) : Nat :=
  ev.countP fun
    | .submatrix .. => true
    | _ => false

/-- How many elements of vectors are sent from one locality to a different one. -/
def sent (ev : List Event) : Nat :=
  (ev.map fun
    | .moved src dst n => if src = dst then 0 else n
    | _ => 0).sum

/-- How many elements of vectors are sent from locality `a` to locality `b`. -/
def sentFromTo (a b : Nat) (ev : List Event) : Nat :=
  (ev.map fun
    | .moved src dst n => if src = a ∧ dst = b then n else 0
    | _ => 0).sum

/-- How many elements of vectors are passed to and returned from objects, within a locality or not. -/
def passedOn (ev : List Event) : Nat :=
  (ev.map fun
    | .moved _ _ n => n
    | _ => 0).sum

/-- How many elements the recursion returns for a block of size `n`: all blocks of all levels, and once more
those that are computed. -/
def returned (br n : Nat) : Nat :=
  (∑ k ∈ Finset.range (halvings br n + 1), 4 ^ k * (n / 2 ^ k) ^ 2) +
    4 ^ halvings br n * (n / 2 ^ halvings br n) ^ 2

end Verif
