import Verif.Model.Lifetime
import Verif.SpecComponents
import Mathlib.Data.Fintype.BigOperators
/-
Specification vocabulary for C136: how many elements exist, in one state and at most.
-/
namespace Verif.Lifetime
open scoped BigOperators

/-- The number of elements of all vectors that exist. -/
def held : Call → Nat
  | .waiting _ => 0
  | .leaf n => n ^ 2
  | .node n c => n ^ 2 + ∑ i, held (c i)
  | .done n => n ^ 2
  | .gone => 0

/-- `s` can become `t`. -/
def Reach (br : Nat) (ordered : Bool) : Call → Call → Prop := Relation.ReflTransGen (Step br ordered)

/-- `f 0, …, f m` is an execution. -/
def Execution (br : Nat) (ordered : Bool) (m : Nat) (f : Nat → Call) : Prop :=
  ∀ k, k < m → Step br ordered (f k) (f (k + 1))

/-- The elements of all blocks of all levels. -/
def together (br n : Nat) : Nat := ∑ k ∈ Finset.range (halvings br n + 1), 4 ^ k * (n / 2 ^ k) ^ 2

/-- The elements of one block of each level. -/
def nested (br n : Nat) : Nat := ∑ k ∈ Finset.range (halvings br n + 1), (n / 2 ^ k) ^ 2

/-- The number of elements that exist in a run of `single` with `N × N` matrices, beside the matrices of the caller:
`A` and `B` of the computing object, `C`, and those of the call. -/
def heldSingle (N : Nat) (x : Nat × Call) : Nat := N ^ 2 + N ^ 2 + N ^ 2 + held x.2

end Verif.Lifetime
