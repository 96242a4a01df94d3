import Verif.Model.Tiled
import Verif.Spec
import Mathlib.Logic.Function.Iterate
/-
Vocabulary for the statements about combined.cpp and kernel_tiled.cpp.
-/
namespace Verif.Tiled
variable {α : Type} [Arith α]

/-- Block sizes the code can work with: the levels are nested and the register block
(`5 × 8`) fits the L1 block. -/
structure Blocking.Valid (b : Blocking) : Prop where
  x1 : 0 < b.L1_X
  y1 : 0 < b.L1_Y
  k1 : 0 < b.L1_K_STEP
  x3 : 0 < b.L3_X
  y3 : 0 < b.L3_Y
  k3 : 0 < b.L3_K_STEP
  x21 : b.L1_X ∣ b.L2_X
  y21 : b.L1_Y ∣ b.L2_Y
  k21 : b.L1_K_STEP ∣ b.L2_K_STEP
  x32 : b.L2_X ∣ b.L3_X
  y32 : b.L2_Y ∣ b.L3_Y
  k32 : b.L2_K_STEP ∣ b.L3_K_STEP
  xr : 5 ∣ b.L1_X
  yr : 8 ∣ b.L1_Y

/-- The `N × N` matrix `f` padded with zeros. -/
def pad (N : Nat) (f : Nat → Nat → α) (i j : Nat) : α :=
  if i < N ∧ j < N then f i j else Arith.zero

/-- Position of element `(i, j)` of a matrix with `Q` tiles per row of tiles, tiles of `R × L`
elements, everything row-major. -/
def tilePos (R L Q i j : Nat) : Nat := (i / R * Q + j / L) * (R * L) + (i % R * L + j % L)

/-- `m` is the smallest multiple of `d` that is at least `n`. -/
def SmallestMultiple (d n m : Nat) : Prop := d ∣ m ∧ n ≤ m ∧ ∀ m', d ∣ m' → n ≤ m' → m ≤ m'

/-- `r` blockwise dot products on top of each other. -/
def repeatDot (r bs nb : Nat) (f g : Nat → α) : α :=
  (fun acc => bdotFrom acc bs nb f g)^[r] Arith.zero

end Verif.Tiled
