import Verif.Spec
import Verif.Model.Double
import Verif.Core.Act
import Mathlib.Algebra.Order.Group.Multiset
/-
Programs compiled with `-ffast-math` (SConstruct:26, otherExperiments/Makefile:14): the compiler may
treat sums of doubles as associative and commutative.  The program is run with symbols in place of the
elements of the two matrices; its results are the formulas the source text asks for, and the compiled
program may evaluate any other formula that is equal to it by the laws of sums.
-/
namespace Verif

/-- A formula made of the elements of two matrices. -/
inductive Term where
  | a (i k : Nat)
  | b (k j : Nat)
  | zero
  | add (x y : Term)
  | mac (c x y : Term)
deriving DecidableEq

namespace Term

/-- The programs run with formulas. -/
instance : Arith Term where
  zero := zero
  add := add
  mac := mac

/-- An element of a matrix or zero. -/
def Atom : Term → Prop
  | a _ _ => True
  | b _ _ => True
  | zero => True
  | _ => False

/-- A sum of products of matrix elements. -/
def Flat : Term → Prop
  | zero => True
  | add x y => x.Flat ∧ y.Flat
  | mac c x y => c.Flat ∧ x.Atom ∧ y.Atom
  | _ => False

/-- The products that are added up. -/
def products : Term → Multiset (Term × Term)
  | add x y => x.products + y.products
  | mac c x y => (x, y) ::ₘ c.products
  | _ => 0

/-- What the compiler may make of a formula: sums are associative and commutative, zero is neutral
(`-fassociative-math`, `-fno-signed-zeros`). -/
inductive Fast : Term → Term → Prop
  | refl (x) : Fast x x
  | symm {x y} : Fast x y → Fast y x
  | trans {x y z} : Fast x y → Fast y z → Fast x z
  | add_comm (x y) : Fast (add x y) (add y x)
  | add_assoc (x y z) : Fast (add (add x y) z) (add x (add y z))
  | add_zero (x) : Fast (add x zero) x
  | mac_eq (c x y) : Fast (mac c x y) (add c (mac zero x y))
  | add {x x' y y'} : Fast x x' → Fast y y' → Fast (add x y) (add x' y')
  | mac {c c'} (x y) : Fast c c' → Fast (mac c x y) (mac c' x y)

/-- The numbers a compiled formula may give for the matrices `p` and `q`: each `c + x * y` is
compiled to two operations or to a fused one, a product alone to a multiplication, and zeros have
any sign. -/
inductive Computes (p q : Nat → Nat → IEEE.Double) : Term → IEEE.Double → Prop
  | a (i k) : Computes p q (a i k) (p i k)
  | b (k j) : Computes p q (b k j) (q k j)
  | zero {v} : v.finite → v.value = 0 → Computes p q zero v
  | add {x y v w} : Computes p q x v → Computes p q y w → Computes p q (add x y) (v.add w)
  | two {c x y u v w} : Computes p q c u → Computes p q x v → Computes p q y w →
      Computes p q (mac c x y) (u.add (v.mul w))
  | fused {c x y u v w} : Computes p q c u → Computes p q x v → Computes p q y w →
      Computes p q (mac c x y) (u.fma v w)
  | product {x y v w} : Computes p q x v → Computes p q y w → Computes p q (mac zero x y) (v.mul w)

end Term

/-- `C` may be the result of the program `P` (run with symbols), compiled with `-ffast-math` and run
with the matrices `p` and `q`. -/
def FastResult (p q : Nat → Nat → IEEE.Double) (P : ND (Array Term)) (C : Array IEEE.Double) : Prop :=
  ∃ T : Array Term, P (.ok T) ∧ C.size = T.size ∧ ∀ (k : Nat) (t : Term), T[k]? = some t →
    ∃ (t' : Term) (c : IEEE.Double), t.Fast t' ∧ t'.Computes p q c ∧ C[k]? = some c

/-- The program `P` has one outcome: the matrix whose entry `(i, j)` adds up the products
`f i k * g k j`, each `r` times, in some order, and otherwise only products of zeros. -/
def Sums (P : ND (Array Term)) (N r : Nat) (f g : Nat → Nat → Term) : Prop :=
  ∃ t : Nat → Nat → Term, P = ND.pure (rowMajor N t) ∧ ∀ i, i < N → ∀ j, j < N →
    (t i j).Flat ∧ ∃ m : Nat, (t i j).products =
      r • (Multiset.range N).map (fun k => (f i k, g k j)) + m • {(Term.zero, Term.zero)}

end Verif
