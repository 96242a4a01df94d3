import Verif.Spec
import Mathlib.Algebra.Order.Field.Basic
import Mathlib.Algebra.Order.BigOperators.Group.Finset
import Mathlib.Algebra.BigOperators.Ring.Finset
import Mathlib.Algebra.Order.AbsoluteValue.Basic
/-
The standard model of floating-point arithmetic, for statements about rounding errors.
-/
namespace Verif

/-- An arithmetic whose numbers approximate those of an ordered field `K` (the real numbers):
`value x` is the number meant by `x` if `x` is finite, `u` the relative error of an operation, `η`
the absolute error of a product that underflows, `Ω` the size up to which results are finite.

For IEEE doubles: `u = 2^-53` (`2^-52` in the directed rounding modes), `η = 2^-1074`, `Ω` the largest
double; the law for `mac` covers a product followed by an addition as well as a fused operation
(`δ = 0`, and `ε = 0` or `δ' = 0`), and sums do not underflow. -/
structure Rounding (K : Type) [Field K] [LinearOrder K] [IsStrictOrderedRing K] (α : Type)
    [Arith α] where
  value : α → K
  finite : α → Prop
  u : K
  η : K
  Ω : K
  u_nonneg : 0 ≤ u
  η_nonneg : 0 ≤ η
  zero_finite : finite Arith.zero
  zero_value : value Arith.zero = 0
  add : ∀ x y, finite x → finite y → |value x| + |value y| ≤ Ω →
    finite (Arith.add x y) ∧
      ∃ δ, |δ| ≤ u ∧ value (Arith.add x y) = (value x + value y) * (1 + δ)
  mac : ∀ c x y, finite c → finite x → finite y → |value c| + (|value x * value y| * (1 + u) + η) ≤ Ω →
    finite (Arith.mac c x y) ∧
      ∃ δ ε δ', |δ| ≤ u ∧ |ε| ≤ η ∧ |δ'| ≤ u ∧
        value (Arith.mac c x y) = (value c + (value x * value y * (1 + δ) + ε)) * (1 + δ')

variable {K : Type} [Field K] [LinearOrder K] [IsStrictOrderedRing K] {α : Type} [Arith α]

/-- A bound for the error of a sum of `m` products that adds up to `W` in absolute value, if each
product passes through at most `n` roundings. -/
def Rounding.bound (r : Rounding K α) (n m : Nat) (W : K) : K :=
  ((1 + r.u) ^ n - 1) * W + (1 + r.u) ^ n * (m * r.η)

/-- The result of a sum of `m` products with value `S` and sum of absolute values `W`, at most `n`
roundings each: it is finite, and its error is within the bound. -/
def Rounding.Approx (r : Rounding K α) (n m : Nat) (S W : K) (x : α) : Prop :=
  r.finite x ∧ |r.value x - S| ≤ r.bound n m W

/-- No overflow: what can be reached with the roundings is at most `Ω`. -/
def Rounding.Fits (r : Rounding K α) (n m : Nat) (W : K) : Prop :=
  (1 + r.u) ^ n * (W + m * r.η) ≤ r.Ω

end Verif
