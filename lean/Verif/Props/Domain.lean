import Verif.Props.Kernel
import Verif.Core.Errs
/-
C59: outside the domain of C10 the single-node algorithm has undefined behaviour whenever the
cache-blocked kernel is used.
-/
namespace Verif.Props
open Kernel Recursive
variable {α : Type} [Arith α]

private theorem blocked_errs (A B : Array α) (nC N x y br bi : Nat) (hbi : 0 < bi) :
    (kernel_transposed_blocked A B nC N x y br bi).All (fun _ => True) (fun e => e = .oob) := by
  unfold kernel_transposed_blocked
  refine Act.All.bind (P' := fun s => s.1.size = br * bi ∧ s.2.size = br * bi) ?_ fun _ _ => trivial
  rw [forStep_eq hbi]
  exact Act.All.foldlM (fun kb' _ s hs => blockedBody_all A B nC N x y br bi kb' s hs)
    (by simp [Nat.mul_comm])

private theorem execOn_err {p : Act α Unit} {E : Err → Prop} (h : p.All (fun _ => True) E)
    {a : Array α} {e : Err} (he : p.execOn a = .error e) : E e := by
  have key : ∀ m, ∀ e, (p.exec m).1 = .error e → E e := by
    clear he
    induction p with
    | ret r => exact fun m e h => by cases h
    | fail e' => exact fun m e h' => by cases h'; exact h
    | rd i k ih => exact fun m => ih _ (h _) m
    | wr i v k ih => exact fun m => ih h _
    | rdFlag j k ih => exact fun m => ih _ (h _) m
    | wrFlag j b k ih => exact fun m => ih h _
  unfold Act.execOn at he
  split at he
  · cases he
  · next e' m' heq =>
    cases he
    exact key _ e (by rw [heq])

private theorem calculate_errs (N : Nat) (A B : Array α) (bi x y s : Nat) (hbi : 0 < bi)
    (h4 : 4 ≤ s) : MErrs (· = .oob) (calculate_submatrix ⟨N, A, B, true, bi⟩ x y s) := by
  unfold calculate_submatrix
  rw [if_neg (by simp), if_neg (by simp only; omega)]
  intro e he
  exact execOn_err (blocked_errs A B _ N x y s bi hbi) he

/-- Leaves that may only fail with `oob`: the recursion may only fail with `oob`. -/
private theorem distribute_errs {mult : Nat → Nat → Nat → M (Array α)} {br s : Nat} (hs : s ≤ br)
    (hm : ∀ x y, MErrs (· = .oob) (mult x y s))
    (hsz : ∀ x y bs C, mult x y bs = .ok C → C.size = bs * bs) (e : Nat)
    (he : ∀ d, d < e → br < 2 ^ (d + 1) * s) : ∀ x y,
    (distribute_recursively mult br x y (2 ^ e * s)).All (fun C => C.size = 2 ^ e * s * (2 ^ e * s))
      (· = .oob) := by
  induction e with
  | zero =>
    intro x y
    rw [Nat.pow_zero, Nat.one_mul, distribute_leaf hs]
    exact ND.All.ofM (fun C hC => hsz x y s C hC) (hm x y)
  | succ e ih =>
    intro x y
    have hlt : br < 2 ^ (e + 1) * s := he e (by omega)
    have hhalf : 2 ^ (e + 1) * s / 2 = 2 ^ e * s := by
      rw [Nat.pow_succ, Nat.mul_right_comm, Nat.mul_div_cancel _ (by decide)]
    have ih := ih fun d hd => he d (by omega)
    rw [distribute_step hlt, hhalf]
    refine (ih _ _).bind fun s0 h0 => (ih _ _).bind fun s1 h1 => (ih _ _).bind fun s2 h2 =>
      (ih _ _).bind fun s3 h3 => ?_
    have h2n : 2 * (2 ^ e * s) ≤ 2 ^ (e + 1) * s := by rw [Nat.pow_succ, Nat.mul_right_comm]; omega
    have := (quad_does h2n h0 h1 h2 h3).runOn (zeros (2 ^ (e + 1) * s * (2 ^ (e + 1) * s)))
    rw [this]
    exact ND.All.pure (by simp)

/-- If the leaves in the last rows fail, so does the recursion. -/
private theorem distribute_stuck {mult : Nat → Nat → Nat → M (Array α)} {br s N : Nat} (hs : s ≤ br)
    (hm : ∀ x y, MErrs (· = .oob) (mult x y s))
    (hsz : ∀ x y bs C, mult x y bs = .ok C → C.size = bs * bs)
    (hst : ∀ x y, x + s = N → mult x y s = .error .oob) (e : Nat)
    (he : ∀ d, d < e → br < 2 ^ (d + 1) * s) : ∀ x y, x + 2 ^ e * s = N →
    (distribute_recursively mult br x y (2 ^ e * s)).All (fun _ => False) (· = .oob) := by
  induction e with
  | zero =>
    intro x y hx
    rw [Nat.pow_zero, Nat.one_mul] at hx ⊢
    rw [distribute_leaf hs, hst x y hx]
    exact ND.All.ofM (fun _ h => by cases h) (MErrs.error rfl)
  | succ e ih =>
    intro x y hx
    have hlt : br < 2 ^ (e + 1) * s := he e (by omega)
    have hhalf : 2 ^ (e + 1) * s / 2 = 2 ^ e * s := by
      rw [Nat.pow_succ, Nat.mul_right_comm, Nat.mul_div_cancel _ (by decide)]
    have hsum : 2 ^ e * s + 2 ^ e * s = 2 ^ (e + 1) * s := by
      rw [Nat.pow_succ, Nat.mul_right_comm]; omega
    have he' : ∀ d, d < e → br < 2 ^ (d + 1) * s := fun d hd => he d (by omega)
    rw [distribute_step hlt, hhalf]
    exact (distribute_errs hs hm hsz e he' _ _).bind fun _ _ =>
      (ih he' _ _ (by omega)).bind fun _ h => h.elim

/-- **C59.** `B` transposed, `block_input ≠ 0`, the halving of `N > 0` ends at a leaf size `s ≥ 4`
(so the cache-blocked kernel is used), but `4 ∤ s` or `block_input ∤ N`: every execution accesses
memory out of bounds, whatever the contents of the matrices.  Together with C10 this is exactly
where the algorithm is defined when the cache-blocked kernel is used. -/
theorem C59_single_ub (N e s : Nat) (A B : Array α) (br bi reps : Nat) (hA : A.size = N * N)
    (hN : N = 2 ^ e * s) (hs : s ≤ br) (he : ∀ d, d < e → br < 2 ^ (d + 1) * s) (hbi : bi ≠ 0)
    (h4 : 4 ≤ s) (hdiv : ¬ (4 ∣ s ∧ bi ∣ N)) (hr : 0 < reps) :
    single_matrix_multiply N A B true br bi reps = ND.fail .oob := by
  unfold single_matrix_multiply
  rw [nd_repeat _ _ _ hr]
  have hN0 : 0 < N := by rw [hN]; exact Nat.mul_pos (Nat.two_pow_pos e) (by omega)
  have hst : ∀ x y, x + s = N →
      calculate_submatrix ⟨N, A, B, true, bi⟩ x y s = .error .oob := by
    intro x y hx
    unfold calculate_submatrix
    rw [if_neg (by simp), if_neg (by simp only; omega)]
    by_cases h : 4 ∣ s
    · exact C08_blocked_oob_input A B _ N x y s bi hA (by omega) (by omega) hx fun h' => hdiv ⟨h, h'⟩
    · exact C08_blocked_oob_result A B _ N x y s bi hN0 (by omega) h
  have hall := distribute_stuck (mult := calculate_submatrix ⟨N, A, B, true, bi⟩) (br := br)
    (s := s) (N := N) hs (fun x y => calculate_errs N A B bi x y s (by omega) h4)
    (fun _ _ _ _ h => calculate_size h) hst e he 0 0 (by omega)
  rw [← hN] at hall
  obtain ⟨o, ho⟩ := distribute_exists (calculate_submatrix ⟨N, A, B, true, bi⟩) br N 0 0
  have huniq : ∀ o, distribute_recursively (calculate_submatrix ⟨N, A, B, true, bi⟩) br 0 0 N o →
      o = .error .oob := by
    intro o ho
    rcases hall o ho with ⟨_, h, _⟩ | ⟨e', rfl, h⟩
    · exact h.elim
    · exact h
  funext o'
  apply propext
  constructor
  · exact huniq o'
  · intro h
    have h : o' = .error .oob := h
    rw [h, ← huniq o ho]
    exact ho

section Examples
attribute [local instance] exact

/-- the default block sizes and the default `N = 4` -/
example (A B : Array Int) (h : A.size = 16) :
    single_matrix_multiply 4 A B true 128 128 1 = ND.fail .oob :=
  C59_single_ub 4 0 4 A B 128 128 1 h rfl (by decide) (fun d h => by omega) (by decide) (by decide)
    (by decide) Nat.one_pos

/-- one level of halving, leaf size 6 -/
example (A B : Array Int) (h : A.size = 144) :
    single_matrix_multiply 12 A B true 8 12 3 = ND.fail .oob :=
  C59_single_ub 12 1 6 A B 8 12 3 h rfl (by decide) (fun d h => by
    have : d = 0 := by omega
    subst this; decide) (by decide) (by decide) (by decide) (by decide)

end Examples
end Verif.Props
