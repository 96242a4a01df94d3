import Verif.Proof.Naive
import Verif.Props.Exact
/-
Properties C01–C03: the reference multiplication (naive.hpp).
-/
namespace Verif.Props
open Verif.Naive
variable {α : Type} [Arith α]

/-- **C01.** Under every interleaving of the row tasks `naive_matrix_multiply` returns the
matrix whose entry `(i,j)` is the left-to-right dot product of row `i` and column `j`;
no laws of arithmetic are used. -/
theorem C01_naive (N : Nat) (A B : Array α) (a b : Nat → Nat → α) (hA : Holds A N N a)
    (hB : Holds B N N b) :
    naive_matrix_multiply N A B = ND.pure (rowMajor N fun i j => dot N (a i) (fun k => b k j)) := by
  have := (tree_does hA hB).runOn (zeros (N * N))
  rw [rows_result] at this
  exact this

/-- **C01**, exact arithmetic: the result is the matrix product. -/
theorem C01_naive_exact {R : Type} [Semiring R] (N : Nat) (A B : Array R) (a b : Nat → Nat → R)
    (hA : Holds A N N a) (hB : Holds B N N b) :
    @naive_matrix_multiply R (exact R) N A B =
      ND.pure (rowMajor N fun i j => ∑ k ∈ Finset.range N, a i k * b k j) := by
  rw [@C01_naive R (exact R) N A B a b hA hB]
  congr; funext i j; exact dot_exact N _ _

/-- **C01**, no data race: no interleaving lets two row tasks be about to access the same
element of `C`. -/
theorem C01_naive_raceFree (N : Nat) (A B : Array α) (a b : Nat → Nat → α) (hA : Holds A N N a)
    (hB : Holds B N N b) (m : Mem α) : RaceFree m (tree N A B) :=
  (tree_does hA hB).raceFree m

/-- **C02.** The transposed variant computes `A · Btᵀ` under every interleaving. -/
theorem C02_naive_transposed (N : Nat) (A Bt : Array α) (a b : Nat → Nat → α)
    (hA : Holds A N N a) (hB : Holds Bt N N b) :
    naive_matrix_multiply_transposed N A Bt =
      ND.pure (rowMajor N fun i j => dot N (a i) (fun k => b j k)) := by
  have := (treeT_does hA hB).runOn (zeros (N * N))
  rw [rows_result] at this
  exact this

/-- **C02.** Calling the transposed variant with the transposed second matrix is the same
as calling the plain variant, bit for bit. -/
theorem C02_naive_transposed_eq_naive (N : Nat) (A B Bt : Array α) (a b : Nat → Nat → α)
    (hA : Holds A N N a) (hB : Holds B N N b) (hBt : Holds Bt N N (fun i j => b j i)) :
    naive_matrix_multiply_transposed N A Bt = naive_matrix_multiply N A B := by
  rw [C02_naive_transposed N A Bt a _ hA hBt, C01_naive N A B a b hA hB]

/-- **C03.** Whatever the lengths of the two vectors: the only error is
`std::out_of_range`, never an access outside a vector. -/
theorem C03_naive_safe (N : Nat) (A B : Array α) (e : Err)
    (h : naive_matrix_multiply N A B (.error e)) : e = .outOfRange :=
  runOn_error (tree_errs N A B) h

/-- **C03.** A normal return is only possible if both vectors hold `N * N` elements. -/
theorem C03_naive_returns (N : Nat) (A B C : Array α)
    (h : naive_matrix_multiply N A B (.ok C)) : N * N ≤ A.size ∧ N * N ≤ B.size := by
  rcases Nat.eq_zero_or_pos N with rfl | hN
  · simp
  apply Classical.byContradiction
  intro hlt
  have hp : (N - 1) * N + (N - 1) = N * N - 1 := by
    have : (N - 1) * N + N = N * N := by rw [← Nat.succ_mul]; congr 1; omega
    omega
  refine runOn_stuck (t := tree N A B) ?_ h
  refine .par (List.mem_map.2 ⟨N - 1, List.mem_range.2 (by omega), rfl⟩) (.act ?_)
  refine rowTask_noRet (j := N - 1) (k := N - 1) (by omega) (by omega) ?_
  rw [hp]
  omega

/-- **C03.** Some outcome always exists, so with a short vector every execution raises. -/
theorem C03_naive_outcome (N : Nat) (A B : Array α) : ∃ o, naive_matrix_multiply N A B o :=
  runOn_exists _ _

/-- **C03**, transposed variant: the only error is `std::out_of_range`. -/
theorem C03_naive_transposed_safe (N : Nat) (A Bt : Array α) (e : Err)
    (h : naive_matrix_multiply_transposed N A Bt (.error e)) : e = .outOfRange :=
  runOn_error (treeT_errs N A Bt) h

/-- **C03**, transposed variant: a normal return needs `N * N` elements in both vectors. -/
theorem C03_naive_transposed_returns (N : Nat) (A Bt C : Array α)
    (h : naive_matrix_multiply_transposed N A Bt (.ok C)) : N * N ≤ A.size ∧ N * N ≤ Bt.size := by
  rcases Nat.eq_zero_or_pos N with rfl | hN
  · simp
  apply Classical.byContradiction
  intro hlt
  have hp : (N - 1) * N + (N - 1) = N * N - 1 := by
    have : (N - 1) * N + N = N * N := by rw [← Nat.succ_mul]; congr 1; omega
    omega
  refine runOn_stuck (t := treeT N A Bt) ?_ h
  refine .par (List.mem_map.2 ⟨N - 1, List.mem_range.2 (by omega), rfl⟩) (.act ?_)
  refine rowTaskT_noRet (j := N - 1) (k := N - 1) (by omega) (by omega) ?_
  rw [hp]
  omega

/-- **C03**, transposed variant: some outcome always exists. -/
theorem C03_naive_transposed_outcome (N : Nat) (A Bt : Array α) :
    ∃ o, naive_matrix_multiply_transposed N A Bt o :=
  runOn_exists _ _

/-! Non-vacuity: 2×2 matrices over the naturals satisfy the hypotheses, and the result is
the expected one. -/
section Examples
attribute [local instance] exact

example : Holds #[1, 2, 3, 4] 2 2 (fun i j => 2 * i + j + 1) := by
  intro i hi j hj
  have : i = 0 ∨ i = 1 := by omega
  have : j = 0 ∨ j = 1 := by omega
  rcases ‹i = 0 ∨ i = 1› with rfl | rfl <;> rcases ‹j = 0 ∨ j = 1› with rfl | rfl <;> rfl

example : naive_matrix_multiply 2 #[1, 2, 3, 4] #[5, 6, 7, 8] = ND.pure #[19, 22, 43, 50] := by
  have hA : Holds #[1, 2, 3, 4] 2 2 (fun i j => 2 * i + j + 1) := by
    have := holds_rect 2 2 (fun i j => 2 * i + j + 1); exact this
  have hB : Holds #[5, 6, 7, 8] 2 2 (fun i j => 2 * i + j + 5) := by
    have := holds_rect 2 2 (fun i j => 2 * i + j + 5); exact this
  rw [C01_naive 2 _ _ _ _ hA hB]
  rfl

-- a vector that is too short: every execution raises
example (C : Array Nat) : ¬ naive_matrix_multiply 2 #[1, 2, 3] #[5, 6, 7, 8] (.ok C) := by
  intro h
  have := (C03_naive_returns 2 _ _ C h).1
  simp at this

example (C : Array Nat) : ¬ naive_matrix_multiply_transposed 2 #[1, 2, 3, 4] #[5, 6, 7] (.ok C) := by
  intro h
  have := (C03_naive_transposed_returns 2 _ _ C h).2
  simp at this

-- vectors that are long enough: there is no error
example (e : Err) : ¬ naive_matrix_multiply_transposed 2 (rect 2 2 fun i j => 2 * i + j)
    (rect 2 2 fun i j => i + j + 5) (.error e) := by
  rw [C02_naive_transposed 2 _ _ _ _ (holds_rect 2 2 _) (holds_rect 2 2 _)]
  exact nofun
end Examples

end Verif.Props
