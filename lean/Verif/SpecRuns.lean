import Verif.Core.Act
/-
Specification vocabulary for complete runs of fork/join programs.
-/
namespace Verif
variable {α : Type}

/-- An infinite run of `t` started in memory `m`. -/
def InfiniteRun (m : Mem α) (t : Tree α) : Prop :=
  ∃ f : Nat → Mem α × Tree α, f 0 = (m, t) ∧
    ∀ n, PStep (f n).1 (f n).2 (f (n + 1)).1 (f (n + 1)).2

/-- No task of `t` can make a step. -/
def AtEnd (m : Mem α) (t : Tree α) : Prop := ¬ ∃ m' t', PStep m t m' t'

/-- However the steps of the tasks are interleaved: the run is finite, no step is ever a data
race, and when no task can make a step any more, all tasks have returned and the cells satisfy
`P`. -/
structure EveryRun (m : Mem α) (t : Tree α) (P : (Nat → α) → Prop) : Prop where
  finite : ¬ InfiniteRun m t
  raceFree : RaceFree m t
  ends : ∀ m' t', PSteps m t m' t' → AtEnd m' t' → Done t' ∧ P m'.cell

end Verif
