import Verif.Model.Util
/-
What printing a matrix should produce.
-/
namespace Verif
open Util

/-- The text of a `rows × cols` matrix: one line per row, elements separated by commas. -/
def matrixText {α : Type} (rows cols : Nat) (f : Nat → Nat → α) : List (Tok α) :=
  (List.range rows).flatMap fun i =>
    ((List.range cols).map fun j => Tok.elem (f i j)).intersperse .sep ++ [.endl]

end Verif
