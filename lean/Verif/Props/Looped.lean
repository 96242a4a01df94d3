import Verif.Proof.Looped
import Verif.Props.Naive
/-
Algorithm `looped`: properties C26 and C27.
-/
namespace Verif.Props
open Verif.Looped
variable {α : Type} [Arith α]

/-- **C26.** With block sizes that divide `N`, `looped` returns exactly (for any arithmetic)
what the transposed reference returns under every interleaving. -/
theorem C26_looped (N : Nat) (A Bt : Array α) (a b : Nat → Nat → α) (hA : Holds A N N a)
    (hB : Holds Bt N N b) (br bi : Nat) (hbr : 0 < br) (hbi : 0 < bi) (hdr : br ∣ N) (hdi : bi ∣ N) :
    matrix_multiply N A Bt br bi = .ok (rowMajor N fun i j => dot N (a i) (fun k => b j k)) ∧
    ND.ofM (matrix_multiply N A Bt br bi) = Naive.naive_matrix_multiply_transposed N A Bt := by
  have h := mm_result hA hB hbr hbi hdr hdi
  refine ⟨h, ?_⟩
  rw [C02_naive_transposed N A Bt a b hA hB, h]
  rfl

/-- **C26**, exact arithmetic. -/
theorem C26_looped_exact {R : Type} [Semiring R] (N : Nat) (A Bt : Array R) (a b : Nat → Nat → R)
    (hA : Holds A N N a) (hB : Holds Bt N N b) (br bi : Nat) (hbr : 0 < br) (hbi : 0 < bi)
    (hdr : br ∣ N) (hdi : bi ∣ N) :
    @matrix_multiply R (exact R) N A Bt br bi =
      .ok (rowMajor N fun i j => ∑ k ∈ Finset.range N, a i k * b j k) := by
  rw [(@C26_looped R (exact R) N A Bt a b hA hB br bi hbr hbi hdr hdi).1]
  congr; funext i j; exact dot_exact N _ _

/-- **C27.** A zero block size divides by zero, whatever the input. -/
theorem C27_zero_block (N : Nat) (A B : Array α) (br bi : Nat) (h : br = 0 ∨ bi = 0) :
    matrix_multiply N A B br bi = .error .divZero := mm_divZero h

/-- **C27.** A block larger than the matrix silently gives the zero matrix, whatever the
input. -/
theorem C27_large_block (N : Nat) (A B : Array α) (br bi : Nat) (hbr : 0 < br) (hbi : 0 < bi)
    (h : N < br ∨ N < bi) :
    matrix_multiply N A B br bi = .ok (rowMajor N fun _ _ => Arith.zero) := by
  have hz : N / br * (N / br) * (N / bi) = 0 := by
    rcases h with h | h
    · simp [Nat.div_eq_of_lt h]
    · simp [Nat.div_eq_of_lt h]
  rw [mm_eq hbr hbi, pts, hz]
  show Except.ok (zeros (N * N)) = _
  rw [eq_rect (zeros_size _) (zeros_holds N N)]

/-- Every index visited either is out of bounds or adds 1 to the sum of the entries. -/
theorem ones_foldlM (N : Nat) (l : List (List Nat)) : let _ := exact Nat; ∀ C : Array Nat,
    l.foldlM (fun C p => body N (rowMajor N fun _ _ => 1) (rowMajor N fun _ _ => 1) p C) C
        = .error .oob ∨
      ∃ C', l.foldlM (fun C p => body N (rowMajor N fun _ _ => 1) (rowMajor N fun _ _ => 1) p C) C
        = .ok C' ∧ C'.toList.sum = C.toList.sum + l.length := by
  intro _
  have hone : ∀ i x, rd (rowMajor N fun _ _ => 1) i = .ok x → x = 1 := by
    intro i x hx
    by_cases hi : i < N * N
    · rw [rd_ok (x := 1) (by simp [rect, hi])] at hx
      injection hx with hx; exact hx.symm
    · rw [rd_oob (by simp; omega)] at hx; cases hx
  have herr : ∀ {v : Array Nat} {i e}, rd v i = .error e → e = .oob := by
    intro v i e he
    unfold rd at he
    split at he
    · cases he
    · injection he with he; exact he.symm
  induction l with
  | nil => intro C; exact .inr ⟨C, rfl, rfl⟩
  | cons p l ih =>
    intro C
    rw [List.foldlM_cons]
    simp only [body]
    cases h1 : rd (rowMajor N fun _ _ => 1) (p.getD 0 0 * N + p.getD 2 0) with
    | error e => left; rw [herr h1]; rfl
    | ok a =>
      cases h2 : rd (rowMajor N fun _ _ => 1) (p.getD 1 0 * N + p.getD 2 0) with
      | error e => left; rw [herr h2]; rfl
      | ok b =>
        have ha := hone _ _ h1
        have hb := hone _ _ h2
        subst ha hb
        by_cases hc : p.getD 0 0 * N + p.getD 1 0 < C.size
        · simp only [M_bind_ok, rd_ok (Array.getElem?_eq_getElem hc), wr, if_pos hc]
          rcases ih (C.setIfInBounds (p.getD 0 0 * N + p.getD 1 0)
            (Arith.mac C[p.getD 0 0 * N + p.getD 1 0] 1 1)) with h | ⟨C', h3, h4⟩
          · exact .inl h
          · refine .inr ⟨C', h3, h4.trans ?_⟩
            rw [Array.toList_setIfInBounds]
            have := sum_set_succ C.toList (p.getD 0 0 * N + p.getD 1 0) (by simpa using hc)
            rw [List.length_cons]
            have e : Arith.mac C[p.getD 0 0 * N + p.getD 1 0] 1 1 =
              C.toList[p.getD 0 0 * N + p.getD 1 0]'(by simpa using hc) + 1 := rfl
            rw [e, this]
            omega
        · left
          simp only [M_bind_ok, rd_oob (Nat.le_of_not_lt hc), M_bind_error]

/-- **C27.** Whenever a block size does not divide `N > 0`, multiplying the all-ones matrices
either accesses memory out of bounds or returns a matrix whose entries sum to less than `N³`
(the entries of the product sum to `N³`). -/
theorem C27_nondividing (N br bi : Nat) (hN : 0 < N) (hbr : 0 < br) (hbi : 0 < bi)
    (h : ¬ (br ∣ N ∧ bi ∣ N)) :
    @matrix_multiply Nat (exact Nat) N (rowMajor N fun _ _ => 1) (rowMajor N fun _ _ => 1) br bi
        = .error .oob ∨
      ∃ C, @matrix_multiply Nat (exact Nat) N (rowMajor N fun _ _ => 1)
          (rowMajor N fun _ _ => 1) br bi = .ok C ∧ C.toList.sum < N ^ 3 := by
  let _ := exact Nat
  rw [mm_eq hbr hbi]
  rcases ones_foldlM N (pts N br bi) (zeros (N * N)) with h' | ⟨C, h1, h2⟩
  · exact .inl h'
  · refine .inr ⟨C, h1, ?_⟩
    have hz : (zeros (N * N) : Array Nat).toList.sum = 0 := by
      simp [zeros]
      exact .inr rfl
    rw [h2, hz, pts_length, Nat.zero_add]
    have e1 : N / br * br ≤ N := Nat.div_mul_le_self N br
    have e2 : N / bi * bi ≤ N := Nat.div_mul_le_self N bi
    have hlt : N / br * br < N ∨ N / bi * bi < N := by
      rcases Nat.lt_or_ge (N / br * br) N with h1 | h1
      · exact .inl h1
      · rcases Nat.lt_or_ge (N / bi * bi) N with h2 | h2
        · exact .inr h2
        · exact (h ⟨⟨N / br, by rw [Nat.mul_comm]; omega⟩, ⟨N / bi, by rw [Nat.mul_comm]; omega⟩⟩).elim
    calc N / br * (N / br) * (N / bi) * (br * br * bi)
        = (N / br * br) * (N / br * br) * (N / bi * bi) := by ring
      _ < N * N * N := by
        rcases hlt with hl | hl
        · have s1 : (N / br * br) * (N / br * br) < N * N := by
            exact Nat.lt_of_le_of_lt (Nat.mul_le_mul_left _ e1) (Nat.mul_lt_mul_of_pos_right hl hN)
          exact Nat.lt_of_le_of_lt (Nat.mul_le_mul_left _ e2) (Nat.mul_lt_mul_of_pos_right s1 hN)
        · have s1 : (N / br * br) * (N / br * br) ≤ N * N := Nat.mul_le_mul e1 e1
          exact Nat.lt_of_le_of_lt (Nat.mul_le_mul_right _ s1)
            (Nat.mul_lt_mul_of_pos_left hl (Nat.mul_pos hN hN))
      _ = N ^ 3 := by ring

/-- **C27.** So for every non-dividing block size the product is not returned for all inputs. -/
theorem C27_not_product (N br bi : Nat) (hN : 0 < N) (hbr : 0 < br) (hbi : 0 < bi)
    (h : ¬ (br ∣ N ∧ bi ∣ N)) :
    ¬ ∀ (A B : Array Nat) (a b : Nat → Nat → Nat), Holds A N N a → Holds B N N b →
      @matrix_multiply Nat (exact Nat) N A B br bi =
        .ok (rowMajor N fun i j => ∑ k ∈ Finset.range N, a i k * b j k) := by
  intro hall
  have := hall _ _ _ _ (holds_rect N N fun _ _ => 1) (holds_rect N N fun _ _ => 1)
  rcases C27_nondividing N br bi hN hbr hbi h with h' | ⟨C, h1, h2⟩
  · rw [this] at h'; cases h'
  · rw [this] at h1
    injection h1 with h1
    have hs : (rowMajor N fun i j => ∑ k ∈ Finset.range N, 1 * 1 : Array Nat).toList.sum = N ^ 3 := by
      simp [rect, List.ofFn_const]
      ring
    rw [← h1] at h2
    rw [hs] at h2
    exact Nat.lt_irrefl _ h2

section Examples
attribute [local instance] exact

/-- 4×4, blocks of 2 and 4 -/
example : matrix_multiply 4 (rowMajor 4 fun i j => i + j) (rowMajor 4 fun i j => i * j) 2 4 =
    .ok (rowMajor 4 fun i j => ∑ k ∈ Finset.range 4, (i + k) * (j * k)) :=
  C26_looped_exact 4 _ _ _ _ (holds_rect _ _ _) (holds_rect _ _ _) 2 4 (by decide) (by decide)
    (by decide) (by decide)

/-- the instance of the shipped unit tests that is outside the domain: blocks larger than `N` -/
example : matrix_multiply 2 (rowMajor 2 fun _ _ => (1 : Nat)) (rowMajor 2 fun _ _ => 1) 128 128 =
    .ok (rowMajor 2 fun _ _ => 0) :=
  C27_large_block 2 _ _ 128 128 (by decide) (by decide) (.inl (by decide))

example : ¬ (4 ∣ 6 ∧ 2 ∣ 6) := by decide
end Examples

end Verif.Props
