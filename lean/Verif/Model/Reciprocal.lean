import Verif.Model.DoubleUse
import Verif.Model.Combined
/-
The numbers of blocks as `-ffast-math` (SConstruct:26) allows to compile them: the option includes
`-freciprocal-math`, which permits `x * (1 / y)` for a division `x / y`.
-/
namespace Verif.Reciprocal
open IEEE IndexIterator Tiled

/-- The quotient in index_iterator.hpp:261–262 and 265–266, divided or multiplied by the reciprocal. -/
def quotient (recip : Bool) (n b : Nat) : Double :=
  if recip then (Double.ofNat n).mul ((Double.ofNat 1).div (Double.ofNat b))
  else (Double.ofNat n).div (Double.ofNat b)

/-- The number of blocks of size `b` in a range of size `n` (index_iterator.hpp:261–262, 265–266). -/
def count (recip : Bool) (n b : Nat) : M Nat := (quotient recip n b).ceil.toSize

/-- One factor of the products in index_iterator.hpp:256–268; `recip` decides which quotients are
products with a reciprocal. -/
def blockCount (recip : List Nat → List Nat → List Nat → Nat → Bool) (mn mx block : List Nat)
    (d : Nat) : M Nat :=
  count (recip mn mx block d) (usub (mx.getD d 0) (mn.getD d 0)) (block.getD d 0)

/-- index_iterator.hpp:256–268: number of blocks in the dimensions `ds`. -/
def blockCounts (recip : List Nat → List Nat → List Nat → Nat → Bool) (mn mx block : List Nat)
    (ds : List Nat) : M Nat :=
  ds.foldlM (fun c d => (c * ·) <$> blockCount recip mn mx block d) 1

/-- index_iterator.hpp:168–362 `iterate_indices<dim>(policy, min, max, f)`. -/
def iterate_indices (recip : List Nat → List Nat → List Nat → Nat → Bool) (dim : Nat)
    (policy : Policy) (mn mx : List Nat) : Calls (List Nat) :=
  iterateRevBy (blockCounts recip) dim policy.cfg.reverse mn mx

variable {α : Type} [Arith α]

/-- combined.cpp:187–326: one repetition; the flags are set at its start. -/
def tree (recip : List Nat → List Nat → List Nat → Nat → Bool) (b : Blocking) (pol : Policy)
    (X_size Y_size K_size : Nat) (A_trans B_padded : Array α) : Tree α :=
  (iterate_indices recip 3 pol [0, 0, 0] [X_size, Y_size, K_size]).toTree
    (Combined.body b X_size Y_size A_trans B_padded)

/-- combined.cpp:61–109 (constructor) and 111–373 `matrix_multiply`. -/
def matrix_multiply (recip : List Nat → List Nat → List Nat → Nat → Bool) (b : Blocking) (N : Nat)
    (A_org B_org : Array α) (repetitions : Nat) : ND (Array α) := do
  let p ← ND.ofM (setup b N A_org B_org)
  let C_padded := zeros (p.X_size * p.Y_size)
  let _ ← ND.ofM (Combined.A_trans_untiled p)
  let A_trans ← ND.ofM (tileA b p)
  let B_padded ← ND.ofM (tileB b p)
  let C_padded ← (List.range repetitions).foldlM (fun C_padded _ => do
    let pol ← ND.ofM (Combined.policy b)
    ND.runOn C_padded (tree recip b pol p.X_size p.Y_size p.K_size A_trans B_padded)) C_padded
  ND.ofM (extract b N p.X_size p.Y_size C_padded)

end Verif.Reciprocal
