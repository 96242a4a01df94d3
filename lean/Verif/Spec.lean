import Verif.Core.Basic
/-
Specification vocabulary: what a matrix product is, independent of any code in /repo.
-/
namespace Verif
variable {α : Type}

/-- The vector `v` holds the `m × n` matrix `f` in row-major order (it may be longer). -/
def Holds (v : Array α) (m n : Nat) (f : Nat → Nat → α) : Prop :=
  ∀ i, i < m → ∀ j, j < n → v[i * n + j]? = some (f i j)

/-- The `m × n` matrix `f` as row-major vector of exactly `m * n` elements. -/
def rect (m n : Nat) (f : Nat → Nat → α) : Array α :=
  Array.ofFn (n := m * n) fun p => f (p.1 / n) (p.1 % n)

/-- The square matrix `f` of size `N` as row-major vector. -/
abbrev rowMajor (N : Nat) (f : Nat → Nat → α) : Array α := rect N N f

/-- Left-to-right accumulation `((0 + f 0 * g 0) + f 1 * g 1) + …` over the list `ks`,
starting from `acc`. -/
def dotFrom [Arith α] (acc : α) (ks : List Nat) (f g : Nat → α) : α :=
  ks.foldl (fun acc k => Arith.mac acc (f k) (g k)) acc

/-- Left-to-right dot product of length `n`. -/
def dot [Arith α] (n : Nat) (f g : Nat → α) : α := dotFrom Arith.zero (List.range n) f g

/-- `A · B` with `N` summands, each entry accumulated left to right. -/
def mulSpec [Arith α] (N : Nat) (a b : Nat → Nat → α) : Nat → Nat → α :=
  fun i j => dot N (fun k => a i k) (fun k => b k j)

/-- Blockwise dot product: `nb` blocks of length `bs`, each block accumulated left to
right from zero, the block sums added left to right to `acc`. -/
def bdotFrom [Arith α] (acc : α) (bs nb : Nat) (f g : Nat → α) : α :=
  (List.range nb).foldl
    (fun acc t => Arith.add acc (dot bs (fun k => f (t * bs + k)) (fun k => g (t * bs + k)))) acc

/-- Blockwise dot product starting from zero. -/
def bdot [Arith α] (bs nb : Nat) (f g : Nat → α) : α := bdotFrom Arith.zero bs nb f g

/-- The transposed matrix. -/
def tr (a : Nat → Nat → α) : Nat → Nat → α := fun i j => a j i

end Verif
