import Verif.Core.Drf
/-
Every execution of a fork/join program ends.
-/
namespace Verif
variable {α : Type}

/-- An execution that has come to its end exists, from every state. -/
theorem stops (t : Tree α) : ∀ m, ∃ m' t', PSteps m t m' t' ∧ ∀ m'' t'', ¬ PStep m' t' m'' t'' := by
  induction tacc t with
  | intro t _ ih =>
    intro m
    by_cases h : ∃ m' t', PStep m t m' t'
    · obtain ⟨m', t', h⟩ := h
      obtain ⟨m'', t'', h1, h2⟩ := ih t' ⟨_, _, h⟩ m'
      exact ⟨m'', t'', .step h h1, h2⟩
    · exact ⟨m, t, .refl, fun m' t' h' => h ⟨m', t', h'⟩⟩

theorem not_endless {t : Tree α} (f : Nat → Mem α × Tree α) :
    ∀ n, (f n).2 = t → ¬ ∀ k, n ≤ k → PStep (f k).1 (f k).2 (f (k + 1)).1 (f (k + 1)).2 := by
  induction tacc t with
  | intro t _ ih =>
    intro n hn h
    refine ih (f (n + 1)).2 ⟨(f n).1, (f (n + 1)).1, ?_⟩ (n + 1) rfl fun k hk => h k (by omega)
    rw [← hn]
    exact h n (Nat.le_refl n)

end Verif
