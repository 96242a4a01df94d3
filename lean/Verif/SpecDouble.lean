import Verif.Core.Basic
import Mathlib.Algebra.Order.Field.Rat
import Mathlib.Data.Int.Log
import Mathlib.Data.Rat.Floor
/-
IEEE 754 double precision: the type `double` of /repo
(e.g. src/matrix_multiply_application/matrix_multiply.cpp:34-36), with rounding to nearest, ties to
even (the repository never changes the rounding mode).  Simplified: NaNs have no payload, the exception
flags are left out.
-/
namespace Verif.IEEE

/-- Numbers that a double can have as value: 53 bits, scaled by a power of two. -/
def IsDouble (q : ℚ) : Prop :=
  ∃ m e : ℤ, |m| < 2 ^ 53 ∧ -1074 ≤ e ∧ e ≤ 971 ∧ q = m * 2 ^ e

/-- Exact numbers, with the special values of IEEE 754. -/
inductive Ext
  | nan
  | inf (neg : Bool)
  | zero (neg : Bool)
  | num (q : ℚ)
  deriving DecidableEq

/-- The special values are doubles, a number is one if it is representable; zeros have their own
constructor. -/
def Ext.IsDouble : Ext → Prop
  | .num q => q ≠ 0 ∧ IEEE.IsDouble q
  | _ => True

/-- Exact sum; a sum of numbers that vanishes is `+0`. -/
def Ext.add : Ext → Ext → Ext
  | .nan, _ => .nan
  | _, .nan => .nan
  | .inf s, .inf t => if s = t then .inf s else .nan
  | .inf s, _ => .inf s
  | _, .inf t => .inf t
  | .zero s, .zero t => .zero (s && t)
  | .zero _, .num q => .num q
  | .num q, .zero _ => .num q
  | .num p, .num q => if p + q = 0 then .zero false else .num (p + q)

/-- Exact product. -/
def Ext.mul : Ext → Ext → Ext
  | .nan, _ => .nan
  | _, .nan => .nan
  | .inf s, .inf t => .inf (s ^^ t)
  | .inf _, .zero _ => .nan
  | .zero _, .inf _ => .nan
  | .inf s, .num q => .inf (s ^^ decide (q < 0))
  | .num q, .inf t => .inf (decide (q < 0) ^^ t)
  | .zero s, .zero t => .zero (s ^^ t)
  | .zero s, .num q => .zero (s ^^ decide (q < 0))
  | .num q, .zero t => .zero (decide (q < 0) ^^ t)
  | .num p, .num q => .num (p * q)

/-- Exact quotient. -/
def Ext.div : Ext → Ext → Ext
  | .nan, _ => .nan
  | _, .nan => .nan
  | .inf _, .inf _ => .nan
  | .zero _, .zero _ => .nan
  | .inf s, .zero t => .inf (s ^^ t)
  | .zero s, .inf t => .zero (s ^^ t)
  | .inf s, .num q => .inf (s ^^ decide (q < 0))
  | .num q, .inf t => .zero (decide (q < 0) ^^ t)
  | .zero s, .num q => .zero (s ^^ decide (q < 0))
  | .num q, .zero t => .inf (decide (q < 0) ^^ t)
  | .num p, .num q => .num (p / q)

/-- The opposite number. -/
def Ext.neg : Ext → Ext
  | .nan => .nan
  | .inf s => .inf !s
  | .zero s => .zero !s
  | .num q => .num (-q)

/-- The integer nearest to `r`, the even one of two. -/
def roundInt (r : ℚ) : ℤ :=
  if r - ⌊r⌋ < 1 / 2 then ⌊r⌋
  else if 1 / 2 < r - ⌊r⌋ then ⌊r⌋ + 1
  else if ⌊r⌋ % 2 = 0 then ⌊r⌋ else ⌊r⌋ + 1

/-- The exponent of the last bit of a double near `q`. -/
def expo (q : ℚ) : ℤ := max (Int.log 2 |q| - 52) (-1074)

/-- The number near `q` with 53 bits (fewer if it is small), if exponents were unbounded above. -/
def roundNum (q : ℚ) : ℚ := roundInt (q / 2 ^ expo q) * 2 ^ expo q

/-- Rounding of an exact number to a double: overflow gives infinity, underflow a signed zero. -/
def Ext.round : Ext → Ext
  | .num q =>
    if 2 ^ (1024 : ℤ) ≤ |roundNum q| then .inf (decide (q < 0))
    else if roundNum q = 0 then .zero (decide (q < 0))
    else .num (roundNum q)
  | x => x

end Verif.IEEE
