import Verif.Spec
import Verif.Core.Act
/-
Specification vocabulary: formulas for one entry of a matrix product, without reference to values or
to any code in /repo.
-/
namespace Verif

/-- A formula for a sum of products of the elements of a row and of a column. -/
inductive Plan
  /-- zero -/
  | zero
  /-- `s + row[k] * column[k]` -/
  | mac (s : Plan) (k : Nat)
  /-- `s + 0 * 0` (padding) -/
  | pad (s : Plan)
  /-- `s + t` -/
  | add (s t : Plan)

namespace Plan

/-- The value of a formula for a row `f` and a column `g`. -/
def eval {α : Type} [Arith α] (f g : Nat → α) : Plan → α
  | zero => Arith.zero
  | mac s k => Arith.mac (eval f g s) (f k) (g k)
  | pad s => Arith.mac (eval f g s) Arith.zero Arith.zero
  | add s t => Arith.add (eval f g s) (eval f g t)

/-- The products of a formula, with repetitions. -/
def terms : Plan → List Nat
  | zero => []
  | mac s k => s.terms ++ [k]
  | pad s => s.terms
  | add s t => s.terms ++ t.terms

/-- How many products of zeros a formula has. -/
def pads : Plan → Nat
  | zero => 0
  | mac s _ => s.pads
  | pad s => s.pads + 1
  | add s t => s.pads + t.pads

/-- How many sums of partial sums a formula has. -/
def adds : Plan → Nat
  | zero => 0
  | mac s _ => s.adds
  | pad s => s.adds
  | add s t => s.adds + t.adds + 1

/-- Every product of a row and a column of length `N` is taken exactly `r` times, no other product
except of zeros. -/
def Complete (N r : Nat) (q : Plan) : Prop :=
  ∀ k, q.terms.count k = if k < N then r else 0

end Plan

/-- A program that multiplies matrices of size `N` (`t`: the second one is stored transposed) computes
every entry by a formula with the property `P`; the formula depends neither on the elements of the
matrices nor on the arithmetic, and every execution has the same result. -/
def ComputesBy (N : Nat) (t : Bool) (P : Plan → Prop)
    (run : (α : Type) → [Arith α] → Array α → Array α → ND (Array α)) : Prop :=
  ∃ plan : Nat → Nat → Plan, (∀ i, i < N → ∀ j, j < N → P (plan i j)) ∧
    ∀ (α : Type) [Arith α] (A B : Array α) (a b : Nat → Nat → α),
      Holds A N N a → Holds B N N (if t then tr b else b) →
      run α A B = ND.pure (rowMajor N fun i j => (plan i j).eval (a i) fun k => b k j)

/-- As `ComputesBy`, with the same formula for all entries. -/
def ComputesSame (N : Nat) (t : Bool) (P : Plan → Prop)
    (run : (α : Type) → [Arith α] → Array α → Array α → ND (Array α)) : Prop :=
  ∃ q, P q ∧ ComputesBy N t (· = q) run

end Verif
