import Verif.Spec
/-
Orders of summation of a dot product: what compilers may choose from with `-ffast-math`
(otherExperiments/Makefile:14), and what the kernels do.
-/
namespace Verif

/-- An order of summation: start with zero, add the product number `k` to a partial sum, or add two
partial sums. -/
inductive Summation where
  | zero
  | mac (e : Summation) (k : Nat)
  | add (e e' : Summation)
deriving DecidableEq

namespace Summation

/-- The sum of products of `f` and `g` in this order. -/
def eval {α : Type} [Arith α] (f g : Nat → α) : Summation → α
  | zero => Arith.zero
  | mac e k => Arith.mac (e.eval f g) (f k) (g k)
  | add e e' => Arith.add (e.eval f g) (e'.eval f g)

/-- The products that are added up. -/
def products : Summation → List Nat
  | zero => []
  | mac e k => e.products ++ [k]
  | add e e' => e.products ++ e'.products

/-- The number of roundings a product passes through (the product itself is one), at most. -/
def rounds : Summation → Nat
  | zero => 1
  | mac e _ => e.rounds + 1
  | add e e' => max e.rounds e'.rounds + 1

/-- Every product of a dot product of length `n` is added up, each once. -/
def Complete (n : Nat) (e : Summation) : Prop := e.products.Perm (List.range n)

/-- No sum of no products is added to another sum. -/
def Compact : Summation → Prop
  | zero => True
  | mac e _ => e.Compact
  | add e e' => e.Compact ∧ e'.Compact ∧ e.products ≠ [] ∧ e'.products ≠ []

end Summation
end Verif
