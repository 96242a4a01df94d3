import Verif.Spec
import Verif.Core.Basic
/-
Specification vocabulary for a multiplication that halves a square block until it is small
enough: which size the smallest blocks have, how many rows they reach, and which entry of the
block ends up at which position of the result.  Nothing here refers to the code in /repo.
-/
namespace Verif
variable {α : Type}

/-- The size at which repeated halving of `n` (rounding down) becomes at most `br`. -/
def leafSize (br n : Nat) : Nat := if n ≤ br then n else leafSize br (n / 2)
termination_by n

/-- One past the last row (or column) of an `n × n` block that is reached if the block is
halved, rounding down, until its size is at most `br`. -/
def extent (br n : Nat) : Nat := if n ≤ br then n else n / 2 + extent br (n / 2)
termination_by n

/-- Which entry `(i, j)` of an `n × n` block lies at position `p` of the vector that results
from halving the block until its size is at most `br`, if the four quarters of half size `h`
are put together with row length `2 * h` at the front of a vector of `n * n` elements;
`none` if no quarter reaches the position. -/
def source (br n p : Nat) : Option (Nat × Nat) :=
  if n ≤ br then
    if p < n * n then some (p / n, p % n) else none
  else
    let h := n / 2
    if p < 2 * h * (2 * h) then
      let r := p / (2 * h)
      let c := p % (2 * h)
      (source br h (r % h * h + c % h)).map fun q => (r / h * h + q.1, c / h * h + q.2)
    else none
termination_by n

/-- The vector of `n * n` elements with the entries of `G` where `source` says, zeros
elsewhere. -/
def spread [Arith α] (br n : Nat) (G : Nat → Nat → α) : Array α :=
  Array.ofFn (n := n * n) fun p => ((source br n p).map fun q => G q.1 q.2).getD Arith.zero

/-- Element `p` of the row-major vector of an `N`-column matrix `f`. -/
def flat (N : Nat) (f : Nat → Nat → α) (p : Nat) : α := f (p / N) (p % N)

/-- How an entry `(r, c)` of the product is accumulated in a block of size `s`.  With input
blocks of length `bi` that do not divide `N`, the last input block runs past the end of row `r`
of the first and row `c` of the second matrix, into the rows that follow. -/
def leafEntry [Arith α] (N : Nat) (a b : Nat → Nat → α) (transposed : Bool) (bi s r c : Nat) : α :=
  if transposed = false then dot N (a r) (fun k => b k c)
  else if bi = 0 ∨ s < 4 then dot N (a r) (b c)
  else bdot bi (ceilDiv N bi) (fun k => flat N a (r * N + k)) (fun k => flat N b (c * N + k))

/-- Blocks of size `s` that end at row `X` of the first and row `Y` of the second matrix can be
multiplied without leaving the matrices: input blocks are not used, or `s` is a multiple of the
four rows of a register block and the last input block of the last row ends inside both
matrices. -/
def LeafIn (N : Nat) (transposed : Bool) (bi s X Y : Nat) : Prop :=
  transposed = true → bi ≠ 0 → 4 ≤ s →
    4 ∣ s ∧ (X - 1) * N + ceilDiv N bi * bi ≤ N * N ∧ (Y - 1) * N + ceilDiv N bi * bi ≤ N * N

/-- Input blocks are not used, or they divide the rows and `s` is a multiple of the four rows of a
register block (the condition under which C10 and C22 are stated). -/
def InputFits (N : Nat) (transposed : Bool) (bi s : Nat) : Prop :=
  transposed = true → bi ≠ 0 → 4 ≤ s → 4 ∣ s ∧ bi ∣ N

/-- `n` can be halved without remainder until its size is at most `br`. -/
def HalvesTo (br n : Nat) : Prop :=
  ∃ e s, n = 2 ^ e * s ∧ s ≤ br ∧ ∀ d, d < e → br < 2 ^ (d + 1) * s

end Verif
