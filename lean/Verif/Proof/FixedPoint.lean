import Verif.SpecRounding
import Mathlib.Algebra.Order.Field.Rat
import Mathlib.Tactic.Ring
import Mathlib.Tactic.Linarith
import Mathlib.Tactic.NormNum
/-
An arithmetic with rounding errors, for examples.
-/
namespace Verif.FixedPoint

/-- Fixed-point numbers with 60 binary digits after the point, products are rounded down. -/
@[reducible] def fixed60 : Arith Int where
  zero := 0
  add x y := x + y
  mac acc x y := acc + x * y / 2 ^ 60

/-- They satisfy the standard model with the relative error of doubles. -/
def fixedRounding : @Rounding ℚ _ _ _ Int fixed60 := @Rounding.mk ℚ _ _ _ Int fixed60
  (fun x => (x : ℚ) / 2 ^ 60) (fun _ => True) (1 / 2 ^ 52) (1 / 2 ^ 60) 4096 (by norm_num) (by norm_num) trivial
  (by show ((0 : Int) : ℚ) / 2 ^ 60 = 0; norm_num)
  (fun x y _ _ _ => ⟨trivial, 0, by norm_num, by
    show ((x + y : Int) : ℚ) / 2 ^ 60 = _
    push_cast; ring⟩)
  (fun c x y _ _ _ _ => by
    have h1 := Int.emod_nonneg (x * y) (b := 2 ^ 60) (by decide)
    have h2 := Int.emod_lt_of_pos (x * y) (b := 2 ^ 60) (by decide)
    have h3 : x * y / 2 ^ 60 * 2 ^ 60 + x * y % 2 ^ 60 = x * y := Int.ediv_mul_add_emod _ _
    have h3' : ((x * y / 2 ^ 60 : Int) : ℚ) * 2 ^ 60 + ((x * y % 2 ^ 60 : Int) : ℚ) = x * y := by
      exact_mod_cast h3
    have h1' : (0 : ℚ) ≤ ((x * y % 2 ^ 60 : Int) : ℚ) := by exact_mod_cast h1
    have h2' : ((x * y % 2 ^ 60 : Int) : ℚ) ≤ 2 ^ 60 := by exact_mod_cast h2.le
    refine ⟨trivial, 0, -((x * y % 2 ^ 60 : Int) : ℚ) / 2 ^ 120, 0, by norm_num, ?_, by norm_num, ?_⟩
    · rw [abs_div, abs_neg, abs_of_nonneg h1', abs_of_pos (by norm_num), div_le_div_iff₀ (by norm_num)
        (by norm_num)]
      linarith
    · show ((c + x * y / 2 ^ 60 : Int) : ℚ) / 2 ^ 60 = _
      push_cast
      linarith)

end Verif.FixedPoint
