import Verif.Core.Basic
import Verif.Core.Act
/-
Specification vocabulary for numbers of floating-point operations: matrices of expressions.
-/
namespace Verif

/-- An expression: what has been computed from entries of the two matrices, operation by operation. -/
inductive Expr
  | input
  | zero
  | add (x y : Expr)
  | mac (c x y : Expr)

namespace Expr

/-- Computing with expressions. -/
@[reducible] instance : Arith Expr where
  zero := zero
  add := add
  mac := mac

/-- The number of floating-point operations in an expression; `c + x * y` is two. -/
def ops : Expr → Nat
  | input => 0
  | zero => 0
  | add x y => x.ops + y.ops + 1
  | mac c x y => c.ops + x.ops + y.ops + 2

end Expr

/-- The operations in all entries of a vector. -/
def totalOps (C : Array Expr) : Nat := (C.toList.map Expr.ops).sum

/-- A matrix of entries that have not been computed. -/
def inputs (N : Nat) : Array Expr := Array.replicate (N * N) .input

/-- Every execution returns the same expressions, with `n` operations in total. -/
def Performs (P : ND (Array Expr)) (n : Nat) : Prop := ∃ C, P = ND.pure C ∧ totalOps C = n

end Verif
