/-
Specification vocabulary for multi-dimensional arrays in row-major order.
-/
namespace Verif

/-- `idx` is an index into an array with the given extents. -/
def InRange : (idx ext : List Nat) → Prop
  | [], [] => True
  | i :: is, n :: ns => i < n ∧ InRange is ns
  | _, _ => False

/-- Row-major position of an index. -/
def flatPos : (ext idx : List Nat) → Nat
  | _ :: ns, i :: is => i * ns.prod + flatPos ns is
  | _, _ => 0

/-- All indices, in row-major order. -/
def coords : (ext : List Nat) → List (List Nat)
  | [] => [[]]
  | n :: ns => (List.range n).flatMap fun i => (coords ns).map (i :: ·)

/-- Positive tile sizes that divide the extents. -/
def Fits : (tile ext : List Nat) → Prop
  | [], [] => True
  | m :: ms, n :: ns => (0 < m ∧ m ∣ n) ∧ Fits ms ns
  | _, _ => False

/-- Position of the element with index `c` after tiling: tiles in row-major order, elements of a
tile in row-major order. -/
def tiledPos (ext tile c : List Nat) : Nat :=
  flatPos (ext.zipWith (· / ·) tile) (c.zipWith (· / ·) tile) * tile.prod +
    flatPos tile (c.zipWith (· % ·) tile)

end Verif
