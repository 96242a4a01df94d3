import Verif.Core.Mat
import Mathlib.Algebra.BigOperators.Group.Finset.Basic
import Mathlib.Algebra.BigOperators.Ring.Finset
import Mathlib.Algebra.BigOperators.Fin
import Mathlib.Data.Matrix.Mul
/-
Exact arithmetic: the scalars form a semiring.  Connects the accumulation orders of
`Verif.Spec` with the usual sums and with Mathlib's matrix product.
-/
namespace Verif
variable {R : Type} [Semiring R]

/-- Exact arithmetic in a semiring. -/
@[reducible] def exact (R : Type) [Semiring R] : Arith R where
  zero := 0
  add a b := a + b
  mac acc a b := acc + a * b

theorem dotFrom_exact (acc : R) (ks : List Nat) (f g : Nat → R) :
    @dotFrom R (exact R) acc ks f g = acc + (ks.map fun k => f k * g k).sum := by
  induction ks generalizing acc with
  | nil => simp [dotFrom]
  | cons k ks ih =>
    have : @dotFrom R (exact R) acc (k :: ks) f g
        = @dotFrom R (exact R) (acc + f k * g k) ks f g := rfl
    rw [this, ih, List.map_cons, List.sum_cons, add_assoc]

theorem list_sum_range (n : Nat) (h : Nat → R) :
    ((List.range n).map h).sum = ∑ k ∈ Finset.range n, h k := by
  induction n with
  | zero => simp
  | succ n ih => rw [List.range_succ, List.map_append, List.sum_append, ih, Finset.sum_range_succ]; simp

theorem dot_exact (n : Nat) (f g : Nat → R) :
    @dot R (exact R) n f g = ∑ k ∈ Finset.range n, f k * g k := by
  refine (dotFrom_exact _ _ f g).trans ?_
  rw [list_sum_range]
  exact zero_add _

theorem bdotFrom_exact (acc : R) (bs nb : Nat) (f g : Nat → R) :
    @bdotFrom R (exact R) acc bs nb f g = acc + ∑ k ∈ Finset.range (nb * bs), f k * g k := by
  unfold bdotFrom
  induction nb with
  | zero => simp
  | succ n ih =>
    rw [List.range_succ, List.foldl_append, ih, List.foldl_cons, List.foldl_nil]
    show acc + _ + @dot R (exact R) bs _ _ = _
    rw [dot_exact, add_assoc, Nat.add_mul, Nat.one_mul, Finset.sum_range_add]

theorem bdot_exact (bs nb : Nat) (f g : Nat → R) :
    @bdot R (exact R) bs nb f g = ∑ k ∈ Finset.range (nb * bs), f k * g k := by
  refine (bdotFrom_exact _ bs nb f g).trans ?_
  exact zero_add _

/-- The matrix product of two `N × N` matrices given by their entries. -/
def matProd (N : Nat) (a b : Nat → Nat → R) : Nat → Nat → R :=
  fun i j => ∑ k ∈ Finset.range N, a i k * b k j

theorem mulSpec_exact (N : Nat) (a b : Nat → Nat → R) :
    @mulSpec R (exact R) N a b = matProd N a b := by
  funext i j; exact dot_exact N _ _

/-- `matProd` is Mathlib's matrix product. -/
theorem matProd_eq_matrix_mul (N : Nat) (a b : Nat → Nat → R) (i j : Fin N) :
    matProd N a b i j =
      ((Matrix.of fun (i k : Fin N) => a i k) * (Matrix.of fun (k j : Fin N) => b k j)) i j := by
  rw [Matrix.mul_apply, matProd, Finset.sum_range]
  rfl

end Verif
