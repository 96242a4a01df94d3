import Verif.Proof.Algorithms
import Verif.Props.Exact
/-
Properties C24–C25: the variant `algorithms` (algorithms.hpp).
-/
namespace Verif.Props
open Verif.Algorithms
variable {α : Type} [Arith α]

/-- **C24.** With block sizes that are positive and divide `N`, under every interleaving of the
block tasks, the result is `A · Btᵀ`, each entry summed in blocks of `block_input`. -/
theorem C24_algorithms (N : Nat) (A Bt : Array α) (a b : Nat → Nat → α) (hA : Holds A N N a)
    (hB : Holds Bt N N b) (bi br : Nat) (hbi : 0 < bi) (hbr : 0 < br) (hdi : bi ∣ N)
    (hdr : br ∣ N) :
    matrix_multiply N A Bt bi br =
      ND.pure (rowMajor N fun i j => bdot bi (N / bi) (a i) (b j)) := by
  unfold matrix_multiply
  rw [if_neg (by omega), (tree_does hA hB hbr hbi (Nat.div_mul_cancel hdi).symm hdr).runOn]
  rw [applyA_rect (by simp) (zeros_holds N N) fun i hi j hj => allUpd_cell hbr hdr hi hj _]
  rfl

/-- **C24**, exact arithmetic: the result is `A · Btᵀ`. -/
theorem C24_algorithms_exact {R : Type} [Semiring R] (N : Nat) (A Bt : Array R)
    (a b : Nat → Nat → R) (hA : Holds A N N a) (hB : Holds Bt N N b) (bi br : Nat) (hbi : 0 < bi)
    (hbr : 0 < br) (hdi : bi ∣ N) (hdr : br ∣ N) :
    @matrix_multiply R (exact R) N A Bt bi br =
      ND.pure (rowMajor N fun i j => ∑ k ∈ Finset.range N, a i k * b j k) := by
  rw [@C24_algorithms R (exact R) N A Bt a b hA hB bi br hbi hbr hdi hdr]
  congr; funext i j
  rw [bdot_exact, Nat.div_mul_cancel hdi]

/-- **C24**, no data race: no interleaving lets two block tasks be about to access the same
element of `C`. -/
theorem C24_algorithms_raceFree (N : Nat) (A Bt : Array α) (a b : Nat → Nat → α)
    (hA : Holds A N N a) (hB : Holds Bt N N b) (bi br : Nat) (hbi : 0 < bi) (hbr : 0 < br)
    (hdi : bi ∣ N) (hdr : br ∣ N) (m : Mem α) : RaceFree m (tree N A Bt bi br) :=
  (tree_does hA hB hbr hbi (Nat.div_mul_cancel hdi).symm hdr).raceFree m

/-- **C25.** `block_result = 0`: division by zero. -/
theorem C25_zero_block_result (N : Nat) (A Bt : Array α) (bi : Nat) :
    matrix_multiply N A Bt bi 0 = ND.fail .divZero := by
  unfold matrix_multiply; exact if_pos rfl

/-- **C25.** `block_input = 0`: no execution returns, and none does anything wrong either: the
only thing that can happen is running for ever. -/
theorem C25_zero_block_input (N : Nat) (A Bt : Array α) (br : Nat) (hN : 0 < N) (hbr : 0 < br)
    (o : Except Err (Array α)) (h : matrix_multiply N A Bt 0 br o) : o = .error .diverge := by
  unfold matrix_multiply at h
  rw [if_neg (by omega)] at h
  cases o with
  | ok C =>
    refine absurd h (runOn_stuck (tree_stuck hN fun C hC => ?_))
    rw [block_zero hN hbr] at hC; cases hC
  | error e =>
    have hs : (tree N A Bt 0 br).Errs (fun e => e = .diverge) := by
      refine .par fun t ht => ?_
      obtain ⟨n, _, rfl⟩ := List.mem_map.1 ht
      refine .act ?_
      unfold task
      refine Act.All.bind (P' := fun _ => False) (Act.All.ofM (fun r hr => ?_) fun e he => ?_)
        fun _ h => h.elim
      · rw [block_zero hN hbr] at hr; cases hr
      · rw [block_zero hN hbr] at he; cases he; rfl
    rw [runOn_error hs h]

/-- **C25.** Correctly sized inputs and positive block sizes not both dividing `N`: every
execution ends in an access outside a vector. -/
theorem C25_nondividing (N : Nat) (A Bt : Array α) (bi br : Nat) (hA : A.size = N * N)
    (hN : 0 < N) (hbi : 0 < bi) (hbr : 0 < br) (hnd : ¬ (bi ∣ N ∧ br ∣ N))
    (o : Except Err (Array α)) (h : matrix_multiply N A Bt bi br o) : o = .error .oob := by
  unfold matrix_multiply at h
  rw [if_neg (by omega)] at h
  cases o with
  | error e =>
    rw [runOn_error (tree_errs (E := fun e => e = .oob) rfl fun _ _ _ h => block_errs hbi h) h]
  | ok C =>
    refine absurd h (runOn_stuck (tree_stuck hN fun C => ?_))
    have hdm := Nat.div_add_mod N br
    have hlt := Nat.mod_lt N hbr
    rw [Nat.mul_comm] at hdm
    by_cases hr : br ∣ N
    · -- the last band of columns reaches past the end of the last row
      have hi : ¬ bi ∣ N := fun h => hnd ⟨h, hr⟩
      have hmod : N % bi ≠ 0 := fun h => hi (Nat.dvd_of_mod_eq_zero h)
      have hdm' := Nat.div_add_mod N bi
      have hlt' := Nat.mod_lt N hbi
      rw [Nat.mul_comm] at hdm'
      have hr0 := Nat.mod_eq_zero_of_dvd hr
      rw [result_blocks_dvd hr]
      have hp : 0 < N / br := Nat.div_pos (Nat.le_of_dvd hN hr) hbr
      have e1 : (N / br - 1) * br + br = N := by
        rw [← Nat.succ_mul, Nat.succ_eq_add_one, Nat.sub_add_cancel hp]; omega
      refine block_not_ok (i := br - 1) (k := bi - 1) (kb := N / bi * bi) hbi
        ((mem_steps hbi).2 ⟨N / bi, by omega, by omega⟩) (by omega) (by omega) ?_ C
      rw [hA, show (N / br - 1) * br + (br - 1) = N - 1 by omega]
      have e2 : (N - 1) * N + N = N * N := by
        rw [← Nat.succ_mul, Nat.succ_eq_add_one, Nat.sub_add_cancel hN]
      omega
    · -- the last block has rows past the end of the matrix
      have hmod : N % br ≠ 0 := fun h => hr (Nat.dvd_of_mod_eq_zero h)
      have hrb : result_blocks N br - 1 = N / br := by
        unfold result_blocks; rw [if_pos hmod]; rfl
      rw [hrb]
      refine block_not_ok (i := br - 1) (k := 0) (kb := 0) hbi
        ((mem_steps hbi).2 ⟨0, by omega, hN⟩) (by omega) hbi ?_ C
      rw [hA]
      exact Nat.mul_le_mul_right N (by omega)

/-- **C25.** In all these cases some outcome exists. -/
theorem C25_outcome (N : Nat) (A Bt : Array α) (bi br : Nat) (hbr : 0 < br) :
    ∃ o, matrix_multiply N A Bt bi br o := by
  unfold matrix_multiply
  rw [if_neg (by omega)]
  exact runOn_exists _ _

section Examples
attribute [local instance] exact

/-- 4×4, blocks of 2 and 4 -/
example : matrix_multiply 4 (rowMajor 4 fun i j => i + j) (rowMajor 4 fun i j => i * j) 2 4 =
    ND.pure (rowMajor 4 fun i j => ∑ k ∈ Finset.range 4, (i + k) * (j * k)) :=
  C24_algorithms_exact 4 _ _ _ _ (holds_rect _ _ _) (holds_rect _ _ _) 2 4 (by decide) (by decide)
    (by decide) (by decide)

/-- the size of the shipped unit test with the default block sizes -/
example (o) (h : matrix_multiply 2 (rowMajor 2 fun _ _ => (1 : Nat)) (rowMajor 2 fun _ _ => 1)
    128 128 o) : o = .error .oob :=
  C25_nondividing 2 _ _ 128 128 rfl (by decide) (by decide) (by decide) (by decide) o h

example (o) (h : matrix_multiply 4 (rowMajor 4 fun _ _ => (1 : Nat)) (rowMajor 4 fun _ _ => 1)
    0 2 o) : o = .error .diverge :=
  C25_zero_block_input 4 _ _ 2 (by decide) (by decide) o h
end Examples

end Verif.Props
