import Verif.Spec
import Verif.Core.Act
import Mathlib.Algebra.BigOperators.Ring.Finset
/-
Specification vocabulary for the domain of a matrix multiplication: the parameters with which it
returns the product of all matrices.  Nothing here refers to the code in /repo.
-/
namespace Verif

/-- Every execution of `f` on the vectors of two `N × N` matrices over `R` returns their product;
the second matrix is given by its transpose if `transposed` is set. -/
def Multiplies (R : Type) [Semiring R] (transposed : Bool) (N : Nat)
    (f : Array R → Array R → ND (Array R)) : Prop :=
  ∀ (A B : Array R) (a b : Nat → Nat → R), Holds A N N a → Holds B N N b →
    A.size = N * N → B.size = N * N →
    f A B = ND.pure (rowMajor N fun i j =>
      ∑ k ∈ Finset.range N, a i k * (if transposed then b j k else b k j))

end Verif
