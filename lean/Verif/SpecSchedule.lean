import Verif.Model.StaticImproved
/-
Specification vocabulary for schedules of work packages.
-/
namespace Verif.StaticImproved

/-- The cell `(r,c)` of the result belongs to package `w`. -/
def Covers (w : Work) (r c : Nat) : Prop :=
  w.x ≤ r ∧ r < w.x + w.N ∧ w.y ≤ c ∧ c < w.y + w.N

instance (w : Work) (r c : Nat) : Decidable (Covers w r c) := by
  unfold Covers; infer_instance

/-- `lo` and `hi` are the smallest and the largest of the numbers in `l`. -/
def Extent (l : List Nat) (lo hi : Nat) : Prop :=
  lo ∈ l ∧ hi ∈ l ∧ ∀ t ∈ l, lo ≤ t ∧ t ≤ hi

/-- The balance constraints of the user: absolute spread below the bound, or all localities
busy and relative spread below the bound. -/
def Balanced (p : Params) (loads : List Nat) : Prop :=
  ∀ lo hi, Extent loads lo hi →
    hi - lo < p.max_work_difference ∨ (0 < lo ∧ p.relOk (hi - lo) lo = true)

/-- State of the scheduler after `k` loop iterations. -/
inductive Iter (p : Params) (N L : Nat) : Nat → Sched → Prop
  | start : Iter p N L 0 (initSched N L)
  | next {k s s'} : Iter p N L k s → schedStep p L s = some s' → Iter p N L (k + 1) s'

/-- The packages that arise from an `N × N` matrix by repeatedly replacing a package with an edge
larger than `min` by four squares of half its edge (rounded down), which start at its corner, below,
to the right of it and diagonally. -/
inductive Quartered (min N : Nat) : Work → Prop
  | whole : Quartered min N ⟨0, 0, N⟩
  | quarter {w : Work} (a b : Nat) : Quartered min N w → min < w.N → a ≤ 1 → b ≤ 1 →
      Quartered min N ⟨w.x + a * (w.N / 2), w.y + b * (w.N / 2), w.N / 2⟩

end Verif.StaticImproved
