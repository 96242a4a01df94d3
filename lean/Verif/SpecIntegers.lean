import Verif.Spec
import Mathlib.Algebra.BigOperators.Ring.Finset
import Mathlib.Algebra.Order.BigOperators.Group.Finset
import Mathlib.Algebra.Order.Ring.Int
/-
Floating-point numbers that are integers, for statements about exact results.
-/
namespace Verif
variable {α : Type} [Arith α]

/-- The arithmetic computes exactly with integers up to `b`: `ιA`, `ιB` and `ι` are the numbers that
mean an integer in the two factors and in the results.

IEEE doubles with `ιA = ιB = ι` the conversion from integers and `b = 2^53` (Props/Double.lean), or with
common scales, `ιA x = x * 2^s`, `ιB y = y * 2^t` and `ι z = z * 2^(s+t)` (within the range of the
exponents). -/
structure ExactOnIntegers (ιA ιB ι : Int → α) (b : Int) : Prop where
  zeroA : ιA 0 = Arith.zero
  zeroB : ιB 0 = Arith.zero
  zero : ι 0 = Arith.zero
  add : ∀ x y, |x| ≤ b → |y| ≤ b → |x + y| ≤ b → Arith.add (ι x) (ι y) = ι (x + y)
  mac : ∀ c x y, |c| ≤ b → |x| ≤ b → |y| ≤ b → |x * y| ≤ b → |c + x * y| ≤ b →
    Arith.mac (ι c) (ιA x) (ιB y) = ι (c + x * y)

end Verif
