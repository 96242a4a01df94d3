import Verif.Proof.SemiBlocked
import Verif.Props.Semi
/-
Algorithm `semi` with the blocking that is commented out: property C125.
-/
namespace Verif.Props
open Verif.Semi IndexIterator
variable {α : Type} [Arith α]

/-- After the copies, `semi` is the three-dimensional iteration and the copy of its result. -/
theorem semi_blocked_eq {N : Nat} {A Bt : Array α} {a b : Nat → Nat → α} (hA : Holds A N N a)
    (hB : Holds Bt N N b) {f : List Bool} (hf : f.length = 3) (bi : Nat) :
    blocked_matrix_multiply f N A Bt bi =
      (ND.runOn (zeros (N * N)) (tree N (rowMajor N a) (rowMajor N b) bi (pol4 f bi))).bind
        (copy N ⟨2, [([1, 1], [false, false])]⟩) := by
  unfold blocked_matrix_multiply
  rw [show Policy.new 2 = .ok ⟨2, [([1, 1], [false, false])]⟩ from rfl, blocked_policy_ok hf]
  rw [ND.ofM_ok, ND.ofM_ok, ND.pure_bind', copy_ok hA, copy_ok hB]
  refine (ND.pure_bind _ _).trans ?_
  refine (ND.pure_bind _ _).trans ?_
  exact ND.pure_bind _ _

/-- **C125.** If 4 divides `N` and `block_input` is 1, 2 or 4, `semi` with blocking (serial, or
parallel in the rows and columns of the result) returns exactly what it returns without
blocking, in every execution. -/
theorem C125_same (N : Nat) (A Bt : Array α) (a b : Nat → Nat → α) (hA : Holds A N N a)
    (hB : Holds Bt N N b) (fx fy : Bool) (bi : Nat) (h4 : 4 ∣ N) (hbi : bi ∣ 4) :
    blocked_matrix_multiply [fx, fy, false] N A Bt bi = matrix_multiply N A Bt bi ∧
    blocked_matrix_multiply [fx, fy, false] N A Bt bi =
      ND.pure (rowMajor N fun i j => bdot bi (N / bi) (a i) (b j)) := by
  have e : blocked_matrix_multiply [fx, fy, false] N A Bt bi =
      ND.pure (rowMajor N fun i j => bdot bi (N / bi) (a i) (b j)) := by
    rw [semi_blocked_eq hA hB rfl, tree4_result (holds_rect _ _ _) (holds_rect _ _ _) h4 hbi]
    exact (ND.pure_bind _ _).trans (copy_ok (holds_rect _ _ _))
  refine ⟨?_, e⟩
  rw [e, C32_semi N A Bt a b hA hB bi h4 (Nat.pos_of_dvd_of_pos hbi (by decide)) (hbi.trans h4)]

/-- **C125**, exact arithmetic: the product. -/
theorem C125_exact {R : Type} [Semiring R] (N : Nat) (A Bt : Array R) (a b : Nat → Nat → R)
    (hA : Holds A N N a) (hB : Holds Bt N N b) (fx fy : Bool) (bi : Nat) (h4 : 4 ∣ N)
    (hbi : bi ∣ 4) :
    @blocked_matrix_multiply R (exact R) [fx, fy, false] N A Bt bi =
      ND.pure (rowMajor N fun i j => ∑ k ∈ Finset.range N, a i k * b j k) := by
  rw [(@C125_same R (exact R) N A Bt a b hA hB fx fy bi h4 hbi).2]
  congr; funext i j
  rw [bdot_exact, Nat.div_mul_cancel (hbi.trans h4)]

/-- **C125.** Otherwise (`N > 0`, `block_input > 0`) `semi` with blocking accesses memory out of
bounds in every execution, whatever dimensions are parallel. -/
theorem C125_oob (N : Nat) (A Bt : Array α) (a b : Nat → Nat → α) (hA : Holds A N N a)
    (hB : Holds Bt N N b) (f : List Bool) (hf : f.length = 3) (bi : Nat) (hN : 0 < N)
    (hbi : 0 < bi) (h : ¬ (4 ∣ N ∧ bi ∣ 4)) (o : Except Err (Array α)) :
    blocked_matrix_multiply f N A Bt bi o ↔ o = .error .oob := by
  rw [semi_blocked_eq hA hB hf]
  have hstuck := tree4_stuck (A := rowMajor N a) (B := rowMajor N b) hf (by simp [rowMajor]) hN hbi h
  have herrs := tree4_errs N (rowMajor N a) (rowMajor N b) hf hbi
  have hall : ∀ o, ND.runOn (zeros (N * N)) (tree N (rowMajor N a) (rowMajor N b) bi
      (pol4 f bi)) o → o = .error .oob := by
    intro o ho
    cases o with
    | ok C => exact absurd ho (runOn_stuck hstuck)
    | error e => rw [runOn_error herrs ho]
  constructor
  · rintro (⟨e', ho, rfl⟩ | ⟨r, ho, _⟩)
    · have := hall _ ho
      cases this
      rfl
    · cases hall _ ho
  · rintro rfl
    obtain ⟨o, ho⟩ := runOn_exists (zeros (N * N)) (tree N (rowMajor N a) (rowMajor N b) bi
      (pol4 f bi))
    exact .inl ⟨_, hall o ho ▸ ho, rfl⟩

/-- **C125.** The block sizes for which the blocking breaks the program: if `semi` works without
blocking, then it does with blocking exactly if `block_input` is 1, 2 or 4; the default 128 is not
among them. -/
theorem C125_breaks (N : Nat) (A Bt : Array α) (a b : Nat → Nat → α) (hA : Holds A N N a)
    (hB : Holds Bt N N b) (fx fy : Bool) (bi : Nat) (hN : 0 < N) (hbi : 0 < bi) (h4 : 4 ∣ N)
    (hd : bi ∣ N) :
    (∃ C, matrix_multiply N A Bt bi (.ok C)) ∧
    ((∃ C, blocked_matrix_multiply [fx, fy, false] N A Bt bi (.ok C)) ↔
      bi = 1 ∨ bi = 2 ∨ bi = 4) := by
  refine ⟨⟨_, by rw [C32_semi N A Bt a b hA hB bi h4 hbi hd]; exact rfl⟩, ?_⟩
  have hdvd : bi ∣ 4 ↔ bi = 1 ∨ bi = 2 ∨ bi = 4 := by
    constructor
    · intro h
      have hle := Nat.le_of_dvd (by decide) h
      match bi, hbi, hle, h with
      | 1, _, _, _ => exact .inl rfl
      | 2, _, _, _ => exact .inr (.inl rfl)
      | 3, _, _, h => exact absurd h (by decide)
      | 4, _, _, _ => exact .inr (.inr rfl)
    · rintro (rfl | rfl | rfl) <;> decide
  rw [← hdvd]
  constructor
  · rintro ⟨C, hC⟩
    by_contra hn
    have := (C125_oob N A Bt a b hA hB [fx, fy, false] rfl bi hN hbi (fun h => hn h.2) _).1 hC
    cases this
  · intro h
    exact ⟨_, by rw [(C125_same N A Bt a b hA hB fx fy bi h4 h).2]; exact rfl⟩

section Examples
attribute [local instance] exact

/-- Hypotheses of C125. -/
example : blocked_matrix_multiply [true, true, false] 8 (rowMajor 8 fun i j => i + 2 * j)
    (rowMajor 8 fun i j => i * j) 2 =
    ND.pure (rowMajor 8 fun i j => ∑ k ∈ Finset.range 8, (i + 2 * k) * (j * k)) :=
  C125_exact 8 _ _ _ _ (holds_rect _ _ _) (holds_rect _ _ _) true true 2 (by decide) (by decide)
/-- The default block size 128: correct without blocking, but not with blocking. -/
example (o) : blocked_matrix_multiply [false, false, false] 256 (rowMajor 256 fun i j => i + j)
    (rowMajor 256 fun i j => i * j) 128 o ↔ o = .error .oob :=
  C125_oob 256 _ _ _ _ (holds_rect _ _ _) (holds_rect _ _ _) _ rfl 128 (by decide) (by decide)
    (by decide) o
example (o) : blocked_matrix_multiply [true, true, false] 6 (rowMajor 6 fun i j => i + j)
    (rowMajor 6 fun i j => i * j) 1 o ↔ o = .error .oob :=
  C125_oob 6 _ _ _ _ (holds_rect _ _ _) (holds_rect _ _ _) _ rfl 1 (by decide) (by decide)
    (by decide) o
example : (∃ C, matrix_multiply 256 (rowMajor 256 fun i j => i + j)
      (rowMajor 256 fun i j => i * j) 128 (.ok C)) ∧
    ((∃ C, blocked_matrix_multiply [true, true, false] 256 (rowMajor 256 fun i j => i + j)
      (rowMajor 256 fun i j => i * j) 128 (.ok C)) ↔ 128 = 1 ∨ 128 = 2 ∨ 128 = 4) :=
  C125_breaks 256 _ _ _ _ (holds_rect _ _ _) (holds_rect _ _ _) true true 128 (by decide)
    (by decide) (by decide) (by decide)

end Examples
end Verif.Props
