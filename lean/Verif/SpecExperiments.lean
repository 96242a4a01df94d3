import Verif.Spec
/-
Specification vocabulary for the vectorised kernels of otherExperiments: the order in which a dot
product is summed up with four partial sums.
-/
namespace Verif
variable {α : Type} [Arith α]

/-- The products number `l`, `l + 4`, `l + 8`, … of a dot product of length `n`, in this order. -/
def quarterDot (n : Nat) (f g : Nat → α) (l : Nat) : α :=
  dot (n / 4) (fun t => f (4 * t + l)) (fun t => g (4 * t + l))

/-- `x` plus the four partial sums, one after the other. -/
def addQuarters (n : Nat) (f g : Nat → α) (x : α) : α :=
  Arith.add (Arith.add (Arith.add (Arith.add x (quarterDot n f g 0)) (quarterDot n f g 1))
    (quarterDot n f g 2)) (quarterDot n f g 3)

/-- Dot product of length `n` in blocks of `kc` products, each summed up with four partial sums. -/
def quarterBlocksDot (n kc : Nat) (f g : Nat → α) : α :=
  (List.range (n / kc)).foldl
    (fun x t => addQuarters kc (fun k => f (t * kc + k)) (fun k => g (t * kc + k)) x) Arith.zero

/-- The entry `(r, c)` that results if the registers of an 8 × 8 tile (register `2 * (r % 8) + 1` holds
the right half of row `r`) are confused: register `t` receives, for each `k` in turn, the product of
row `t - 2` with the right half (if this is a row of the tile), then the product of row `t` with the
left half (likewise). -/
def crossedDot (n : Nat) (a b : Nat → Nat → α) (r c : Nat) : α :=
  let t := 2 * (r % 8) + c % 8 / 4
  let top := r - r % 8
  let left := c - c % 8
  (List.range n).foldl (fun x k =>
    let x := if 2 ≤ t ∧ t < 10 then Arith.mac x (a (top + (t - 2)) k) (b k (left + 4 + c % 4)) else x
    if t < 8 then Arith.mac x (a (top + t) k) (b k (left + c % 4)) else x) Arith.zero

end Verif
