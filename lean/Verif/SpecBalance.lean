import Verif.Core.Basic
/-
Specification vocabulary for splitting a square into quarters.  Nothing here refers to the code
in /repo.
-/
namespace Verif

/-- How many squares are split if a square of size `n` and all its parts larger than `m` are split
into four parts of half the size (rounding down). -/
def splits (m n : Nat) : Nat := if n ≤ m then 0 else 1 + 4 * splits m (n / 2)
termination_by n

/-- Number of lists that are not empty. -/
def busy {β : Type} (l : List (List β)) : Nat := l.countP fun ws => !ws.isEmpty

end Verif
