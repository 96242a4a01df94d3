import Verif.Proof.DoubleRound
import Verif.Core.Basic
/-
The type `double` and its operations, the comparisons of the unit tests and of the driver program.
-/
namespace Verif.IEEE

/-- The values of the type `double` (src/matrix_multiply_application/matrix_multiply.cpp:34-36
and everywhere else). -/
def Double : Type := { x : Ext // x.IsDouble }

namespace Double

/-- Each operation of IEEE 754 gives the exact result, rounded. -/
def ofExt (x : Ext) : Double := ⟨x.round, x.isDouble_round⟩

/-- `x + y` (e.g. src/variants/algorithms.hpp:229). -/
def add (x y : Double) : Double := ofExt (x.1.add y.1)

/-- `x * y` (e.g. src/reference_kernels/kernel.hpp:19). -/
def mul (x y : Double) : Double := ofExt (x.1.mul y.1)

/-- `x - y` (src/matrix_multiply_application/matrix_multiply.cpp:404). -/
def sub (x y : Double) : Double := ofExt (x.1.add y.1.neg)

/-- `c + x * y` with one rounding: the instruction that `-march=native` allows the compiler to use for
`c += x * y` (CMakeLists.txt:51), and `_mm256_fmadd_pd`. -/
def fma (c x y : Double) : Double := ofExt (c.1.add (x.1.mul y.1))

/-- `+0.0` (e.g. src/reference_kernels/kernel.hpp:17). -/
def zero : Double := ⟨.zero false, trivial⟩

/-- The arithmetic of the programs: `c += x * y` is compiled to two operations or to a fused one;
`fuse` decides which. -/
@[reducible] def arith (fuse : Double → Double → Double → Bool) : Arith Double where
  zero := zero
  add := add
  mac c x y := if fuse c x y then fma c x y else add c (mul x y)

/-- The double nearest to a rational number: literals. -/
def ofRat (q : ℚ) : Double := ofExt (if q = 0 then .zero false else .num q)

/-- The literal `m / 10^d` of the tests (e.g. src/tests/test_single.cpp:76-84). -/
def lit (m : Int) (d : Nat) : Double := ofRat (m / 10 ^ d)

/-- The number meant by a double (0 for infinities and NaN). -/
def value (x : Double) : ℚ :=
  match x.1 with
  | .num q => q
  | _ => 0

/-- Neither infinite nor NaN. -/
def finite (x : Double) : Prop :=
  match x.1 with
  | .num _ => True
  | .zero _ => True
  | _ => False

instance (x : Double) : Decidable x.finite := by
  unfold finite; split <;> infer_instance

/-- `fabs(x) < t` for a finite `t`: false for NaN and infinities. -/
def absLt (x : Double) (t : ℚ) : Bool :=
  match x.1 with
  | .num q => decide (|q| < t)
  | .zero _ => decide (0 < t)
  | _ => false

/-- `BOOST_CHECK_SMALL(fabs(x - y), t)` (e.g. src/tests/test_single.cpp:120) and the comparison
`std::abs(first - second) < t` (src/matrix_multiply_application/matrix_multiply.cpp:404). -/
def small (t : Double) (x y : Double) : Bool := absLt (sub x y) t.value

/-- `BOOST_CHECK_SMALL(fabs(x - y), t)` in those versions of Boost that also accept the tolerance
itself. -/
def smallEq (t : Double) (x y : Double) : Bool :=
  match (sub x y).1 with
  | .num q => decide (|q| ≤ t.value)
  | .zero _ => decide (0 ≤ t.value)
  | _ => false

/-- `BOOST_CHECK_CLOSE(x, y, t)` (e.g. src/tests/test_single.cpp:67): it accepts if the
difference is zero; for other differences `rel` is left open. -/
def close (rel : Double → Double → Bool) (x y : Double) : Bool :=
  match (sub x y).1 with
  | .zero _ => true
  | _ => rel x y

/-- `x / y` (index_iterator.hpp:261–262, static_improved.cpp:62–63). -/
def div (x y : Double) : Double := ofExt (x.1.div y.1)

/-- `static_cast<double>` of an unsigned number (index_iterator.hpp:261–262, static_improved.cpp:62–63). -/
def ofNat (n : Nat) : Double := ofRat n

/-- `std::ceil` (index_iterator.hpp:261); the result of a number between -1 and 0 is `-0.0`. -/
def ceil (x : Double) : Double :=
  match x.1 with
  | .num q => ofExt (if ⌈q⌉ = 0 then .zero (decide (q < 0)) else .num ⌈q⌉)
  | _ => x

/-- `static_cast<size_t>` (index_iterator.hpp:261): the fraction is cut off, the conversion of a number
that does not fit into the type is undefined. -/
def toSize (x : Double) : M Nat :=
  match x.1 with
  | .zero _ => .ok 0
  | .num q => if -1 < q ∧ q < 2 ^ 64 then .ok ⌊q⌋.toNat else .error .badCast
  | _ => .error .badCast

/-- `x < y` (static_improved.cpp:67): false if one is NaN. -/
def lt (x y : Double) : Bool :=
  match x.1, y.1 with
  | .nan, _ => false
  | _, .nan => false
  | .inf s, .inf t => s && !t
  | .inf s, _ => s
  | _, .inf t => !t
  | .zero _, .zero _ => false
  | .zero _, .num q => decide (0 < q)
  | .num p, .zero _ => decide (p < 0)
  | .num p, .num q => decide (p < q)

end Double
end Verif.IEEE
