import Verif.Model.Double
import Verif.Model.IndexIterator
import Verif.Model.StaticImproved
/-
Computations with `size_t` numbers that pass through doubles.
-/
namespace Verif.IEEE

/-- One factor of the products in index_iterator.hpp:256–268. -/
def blockCount (mn mx block : List Nat) (d : Nat) : M Nat :=
  (((Double.ofNat (usub (mx.getD d 0) (mn.getD d 0))).div (Double.ofNat (block.getD d 0))).ceil).toSize

/-- index_iterator.hpp:256–268: number of blocks in the dimensions `ds`. -/
def blockCounts (mn mx block : List Nat) (ds : List Nat) : M Nat :=
  ds.foldlM (fun c d => (c * ·) <$> blockCount mn mx block d) 1

/-- index_iterator.hpp:168–362 `iterate_indices<dim>(policy, min, max, f)`. -/
def iterate_indices (dim : Nat) (policy : IndexIterator.Policy) (mn mx : List Nat) :
    IndexIterator.Calls (List Nat) :=
  IndexIterator.iterateRevBy blockCounts dim policy.cfg.reverse mn mx

/-- static_improved.cpp:61–67, `bound` is `max_relative_work_difference`: the outcome of the
comparison for the work difference `d` and the smallest work `m`. -/
def relOk (bound : Double) (d m : Nat) : Bool :=
  ((Double.ofNat d).div (Double.ofNat m)).lt bound

end Verif.IEEE
