import Verif.Model.IndexIterator
/-
Specification vocabulary for index iteration: the points of a grid, and the orders in which
the calls of a partly concurrent iteration can happen.
-/
namespace Verif
open IndexIterator

/-- `p` is a point of the grid `mn, mn + st, mn + 2 st, …` below `mx` (in each dimension). -/
def OnGrid (mn mx st p : List Nat) : Prop :=
  p.length = mn.length ∧
    ∀ d, d < mn.length →
      ∃ t, p.getD d 0 = mn.getD d 0 + t * st.getD d 0 ∧ p.getD d 0 < mx.getD d 0

/-- `⌈(mx - mn) / st⌉`, multiplied over all dimensions. -/
def gridCount (mn mx st : List Nat) : Nat :=
  ((List.range mn.length).map fun d => ceilDiv (mx.getD d 0 - mn.getD d 0) (st.getD d 0)).prod

/-- `p` comes before `q` when dimension 0 is the fastest: they differ, and in the highest
dimension where they differ `p` is smaller. -/
def Dim0Fastest (p q : List Nat) : Prop :=
  ∃ d, d < q.length ∧ p.getD d 0 < q.getD d 0 ∧ ∀ e, d < e → p.getD e 0 = q.getD e 0

/-- `l` is an interleaving of `l₁` and `l₂`. -/
inductive Shuffle {ι : Type} : List ι → List ι → List ι → Prop
  | nil : Shuffle [] [] []
  | left {a l₁ l₂ l} : Shuffle l₁ l₂ l → Shuffle (a :: l₁) l₂ (a :: l)
  | right {a l₁ l₂ l} : Shuffle l₁ l₂ l → Shuffle l₁ (a :: l₂) (a :: l)

/-- `Order t l`: a complete execution of `t` can make exactly the calls `l`, in this order.
(An aborted execution has no order.) -/
inductive Order {ι : Type} : Calls ι → List ι → Prop
  | call {i} : Order (.call i) [i]
  | seqNil : Order (.seq []) []
  | seqCons {t ts l₁ l₂} : Order t l₁ → Order (.seq ts) l₂ → Order (.seq (t :: ts)) (l₁ ++ l₂)
  | parNil : Order (.par []) []
  | parCons {t ts l₁ l₂ l} : Order t l₁ → Order (.par ts) l₂ → Shuffle l₁ l₂ l →
      Order (.par (t :: ts)) l

/-- Set up a policy as a user does: final steps first, then the blocking levels from the
innermost to the outermost. -/
def buildPolicy (dim : Nat) (final : List Nat) (levels : List (List Nat × List Bool)) :
    M Policy := do
  let p ← Policy.new dim
  levels.foldlM (fun p lv => p.add_blocking lv.1 lv.2) (p.set_final_steps final)

/-- All entries of `a` divide the corresponding entries of `b`. -/
def DividesAll (dim : Nat) (a b : List Nat) : Prop := ∀ d, d < dim → a.getD d 0 ∣ b.getD d 0

end Verif
