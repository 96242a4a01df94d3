import Verif.SpecDomain
import Verif.Proof.LoopedAll
import Verif.Props.Looped
import Verif.Props.Algorithms
import Verif.Props.Semi
import Verif.Props.Combined
import Verif.Props.KernelTest
import Verif.Props.KernelTiled
import Verif.Props.Proposal
import Verif.Props.Halving
/-
C109: what `looped` returns for every size and all block sizes.  C110: for every algorithm,
exactly the parameters with which it returns the product.
-/
namespace Verif.Props
variable {α : Type} [Arith α]

/-- **C109.** What `looped` does for every `N` and all block sizes different from zero. If
`block_result` divides `N`, the inner sums lack the last `N % block_input` terms. Otherwise the
result is zero if a block is larger than the matrix, the product of the first `block_input` columns
in the leading block if only one block fits, and an access out of bounds if more blocks fit. -/
theorem C109_looped (N : Nat) (A Bt : Array α) (a b : Nat → Nat → α) (hA : Holds A N N a)
    (hB : Holds Bt N N b) (hsz : A.size = N * N) (br bi : Nat) (hbr : 0 < br) (hbi : 0 < bi) :
    Looped.matrix_multiply N A Bt br bi =
      if br ∣ N then .ok (rowMajor N fun i j => dot (N - N % bi) (a i) (b j))
      else if N < br ∨ N < bi then .ok (rowMajor N fun _ _ => Arith.zero)
      else if N < 2 * br ∧ N < 2 * bi then
        .ok (rowMajor N fun i j => if i < br ∧ j < br then dot bi (a i) (b j) else Arith.zero)
      else .error .oob := by
  split
  · next hd =>
    rw [Looped.mm_dvd hA hB hbr hbi hd]
    have := Nat.div_add_mod N bi
    rw [Nat.mul_comm] at this
    rw [show N / bi * bi = N - N % bi by omega]
  · next hd =>
    split
    · next h => exact C27_large_block N A Bt br bi hbr hbi h
    · next h =>
      have l1 : 1 ≤ N / br := (Nat.one_le_div_iff hbr).2 (by omega)
      have l2 : 1 ≤ N / bi := (Nat.one_le_div_iff hbi).2 (by omega)
      split
      · next h' =>
        refine Looped.mm_one hA hB hbr hbi ?_ ?_
        · have : N / br < 2 := (Nat.div_lt_iff_lt_mul hbr).2 h'.1
          omega
        · have : N / bi < 2 := (Nat.div_lt_iff_lt_mul hbi).2 h'.2
          omega
      · next h' =>
        refine Looped.mm_oob hsz hbr hbi hd ?_
        rcases Nat.lt_or_ge N (2 * br) with h1 | h1
        · have : 2 ≤ N / bi := (Nat.le_div_iff_mul_le hbi).2 (by omega)
          exact Nat.le_trans this (Nat.le_mul_of_pos_left _ l1)
        · have : 2 ≤ N / br := (Nat.le_div_iff_mul_le hbr).2 h1
          exact Nat.le_trans this (Nat.le_mul_of_pos_right _ l2)

/-- **C109**, exact arithmetic: the sums. -/
theorem C109_looped_exact {R : Type} [Semiring R] (N : Nat) (A Bt : Array R) (a b : Nat → Nat → R)
    (hA : Holds A N N a) (hB : Holds Bt N N b) (hsz : A.size = N * N) (br bi : Nat) (hbr : 0 < br)
    (hbi : 0 < bi) :
    @Looped.matrix_multiply R (exact R) N A Bt br bi =
      if br ∣ N then
        .ok (rowMajor N fun i j => ∑ k ∈ Finset.range (N - N % bi), a i k * b j k)
      else if N < br ∨ N < bi then .ok (rowMajor N fun _ _ => 0)
      else if N < 2 * br ∧ N < 2 * bi then
        .ok (rowMajor N fun i j =>
          if i < br ∧ j < br then ∑ k ∈ Finset.range bi, a i k * b j k else 0)
      else .error .oob := by
  let _ := exact R
  rw [C109_looped N A Bt a b hA hB hsz br bi hbr hbi]
  have e : ∀ K i j, dot K (a i) (b j) = ∑ k ∈ Finset.range K, a i k * b j k :=
    fun K i j => dot_exact K _ _
  simp only [e]
  rfl

/-- **C109.** With the matrices of the driver (`B` is the identity) and a dividing `block_result`
the result is `A` with zeros in its last `N % block_input` columns. -/
theorem C109_looped_identity {R : Type} [Semiring R] (N : Nat) (A Bt : Array R) (a : Nat → Nat → R)
    (hA : Holds A N N a) (hB : Holds Bt N N fun i j => if i = j then 1 else 0)
    (hsz : A.size = N * N) (br bi : Nat) (hbr : 0 < br) (hbi : 0 < bi) (hd : br ∣ N) :
    @Looped.matrix_multiply R (exact R) N A Bt br bi =
      .ok (rowMajor N fun i j => if j < N - N % bi then a i j else 0) := by
  rw [C109_looped_exact N A Bt a _ hA hB hsz br bi hbr hbi, if_pos hd]
  refine congrArg _ (rect_congr fun i _ j _ => ?_)
  simp

omit [Arith α] in
private theorem ok_of_pure {f : ND (Array α)} {C D : Array α} (h : f = ND.pure C)
    (hf : f (.ok D)) : D = C := by
  rw [h] at hf
  injection hf

omit [Arith α] in
private theorem ne_error {f : ND (Array α)} {C : Array α} {e : Err} (h : f = ND.pure C)
    (hf : f (.error e)) : False := by
  rw [h] at hf
  cases hf

/-- The matrix that is 1 everywhere in column `k`, the other entries are 0. -/
private def col {R : Type} [Semiring R] (k : Nat) (_ j : Nat) : R := if j = k then 1 else 0

private theorem prod_col {R : Type} [Semiring R] {K k : Nat} (hk : k < K) (i j : Nat) :
    ∑ l ∈ Finset.range K, (col k i l : R) * col k j l = 1 := by
  simp [col, hk]

private theorem prod_col_zero {R : Type} [Semiring R] {K k : Nat} (hk : K ≤ k) (i j : Nat) :
    ∑ l ∈ Finset.range K, (col k i l : R) * col k j l = 0 := by
  refine Finset.sum_eq_zero fun l hl => ?_
  rw [Finset.mem_range] at hl
  rw [col, if_neg (by omega), zero_mul]

/-- The instance of `Multiplies` with both matrices 1 in the last column. -/
private theorem last_col {R : Type} [Semiring R] {N : Nat} {f : Array R → Array R → ND (Array R)}
    (h : Multiplies R true N f) : f (rowMajor N (col (N - 1))) (rowMajor N (col (N - 1))) =
      ND.pure (rowMajor N fun i j => ∑ k ∈ Finset.range N, col (N - 1) i k * col (N - 1) j k) := by
  have := h _ _ _ _ (holds_rect N N (col (N - 1))) (holds_rect N N (col (N - 1))) (by simp)
    (by simp)
  simpa using this

/-- The zero matrix is the product of all matrices exactly if they are empty. -/
private theorem multiplies_zero {R : Type} [Semiring R] [Nontrivial R] {N : Nat}
    {f : Array R → Array R → ND (Array R)} (transposed : Bool)
    (h : ∀ A B, f A B = ND.pure (rowMajor N fun _ _ => (0 : R))) :
    Multiplies R transposed N f ↔ N = 0 := by
  constructor
  · intro hm
    rcases Nat.eq_zero_or_pos N with h0 | hN
    · exact h0
    have := hm _ _ _ _ (holds_rect N N fun i j => if i = j then (1 : R) else 0)
      (holds_rect N N fun i j => if i = j then (1 : R) else 0) (by simp) (by simp)
    rw [h] at this
    have := rowMajor_inj (ok_of_pure this rfl) (i := 0) (j := 0) hN hN
    cases transposed <;> simp [hN] at this
  · rintro rfl A B a b _ _ _ _
    rw [h]
    rfl

/-- **C110.** The reference returns the product for every size. -/
theorem C110_naive (R : Type) [Semiring R] (N : Nat) :
    Multiplies R false N (@Naive.naive_matrix_multiply R (exact R) N) ∧
    Multiplies R true N (@Naive.naive_matrix_multiply_transposed R (exact R) N) := by
  constructor
  · intro A B a b hA hB _ _
    simpa using C01_naive_exact N A B a b hA hB
  · intro A B a b hA hB _ _
    rw [@C02_naive_transposed R (exact R) N A B a b hA hB]
    refine congrArg ND.pure (rect_congr fun i _ j _ => ?_)
    simpa using @dot_exact R _ N (a i) (fun k => b j k)

/-- **C110.** `single`: exactly if the size can be halved without remainder down to the block
size and the input blocks fit, with at least one repetition unless the matrices are empty. -/
theorem C110_single (R : Type) [Semiring R] [Nontrivial R] (N : Nat) (transposed : Bool)
    (br bi reps : Nat) :
    Multiplies R transposed N (fun A B =>
      @Recursive.single_matrix_multiply R (exact R) N A B transposed br bi reps) ↔
      N = 0 ∨ 0 < reps ∧ HalvesTo br N ∧ InputFits N transposed bi (leafSize br N) := by
  let _ := exact R
  rcases Nat.eq_zero_or_pos reps with h0 | hr
  · subst h0
    have hz : ∀ A B : Array R, Recursive.single_matrix_multiply N A B transposed br bi 0 =
        ND.pure (rowMajor N fun _ _ => (0 : R)) := by
      intro A B
      show ND.pure (zeros (N * N)) = _
      rw [eq_rect (zeros_size _) (zeros_holds N N)]
      rfl
    refine (multiplies_zero transposed hz).trans ?_
    simp
  · refine (C107_single_iff N transposed br bi reps hr).trans ?_
    constructor
    · exact fun h => .inr ⟨hr, h⟩
    · rintro (rfl | ⟨_, h⟩)
      · exact ⟨⟨0, 0, rfl, Nat.zero_le _, fun d hd => by omega⟩, fun _ _ h => by
          rw [leafSize, if_pos (Nat.zero_le _)] at h; omega⟩
      · exact h

/-- **C110.** `pseudodynamic`, if the schedule can be made: exactly if the packages cover the
result and the condition of `single` holds for every package, with at least one repetition. -/
theorem C110_pseudodynamic (R : Type) [Semiring R] [Nontrivial R] (p : StaticImproved.Params)
    (N : Nat) (transposed : Bool) (br bi reps L : Nat) (aw : List (List StaticImproved.Work))
    (haw : StaticImproved.create_schedule p N (if 1 < L then L - 1 else L) = .ok aw)
    (hN : 0 < N) :
    Multiplies R transposed N (fun A B =>
      @StaticImproved.pseudodynamic_matrix_multiply R (exact R) p N A B transposed br bi reps L) ↔
      0 < reps ∧ (∀ r c, r < N → c < N → ∃ ws ∈ aw, ∃ w ∈ ws, StaticImproved.Covers w r c) ∧
      ∀ ws ∈ aw, ∀ w ∈ ws, HalvesTo br w.N ∧ InputFits N transposed bi (leafSize br w.N) := by
  let _ := exact R
  rcases Nat.eq_zero_or_pos reps with h0 | hr
  · subst h0
    have hz : ∀ A B : Array R, StaticImproved.pseudodynamic_matrix_multiply p N A B transposed br bi
        0 L = ND.pure (rowMajor N fun _ _ => (0 : R)) := by
      intro A B
      unfold StaticImproved.pseudodynamic_matrix_multiply StaticImproved.matrix_multiply
      dsimp only
      rw [haw]
      show ND.bind (ND.pure aw) (fun _ => ND.pure (zeros (N * N))) = _
      rw [ND.pure_bind, eq_rect (zeros_size _) (zeros_holds N N)]
      rfl
    refine (multiplies_zero transposed hz).trans ?_
    simp
    omega
  · refine (C107_pseudodynamic_iff p N transposed br bi reps L aw haw hr).trans ?_
    simp [hr]

/-- **C110.** `looped`: exactly if both block sizes are positive and divide `N`. -/
theorem C110_looped (R : Type) [Semiring R] [Nontrivial R] (N br bi : Nat) :
    Multiplies R true N (fun A B => ND.ofM (@Looped.matrix_multiply R (exact R) N A B br bi)) ↔
      0 < br ∧ 0 < bi ∧ br ∣ N ∧ bi ∣ N := by
  let _ := exact R
  constructor
  · intro h
    have hl := last_col h
    rcases Nat.eq_zero_or_pos br with h0 | hbr
    · rw [C27_zero_block N _ _ br bi (.inl h0)] at hl
      exact (ne_error hl rfl).elim
    rcases Nat.eq_zero_or_pos bi with h0 | hbi
    · rw [C27_zero_block N _ _ br bi (.inr h0)] at hl
      exact (ne_error hl rfl).elim
    refine ⟨hbr, hbi, ?_⟩
    rcases Nat.eq_zero_or_pos N with h0 | hN
    · subst h0; exact ⟨Nat.dvd_zero _, Nat.dvd_zero _⟩
    have hone : ∀ G : Nat → Nat → R, Looped.matrix_multiply N (rowMajor N (col (N - 1)))
        (rowMajor N (col (N - 1))) br bi = .ok (rowMajor N G) → G (N - 1) (N - 1) = 1 := by
      intro G hG
      have := rowMajor_inj (ok_of_pure (D := rowMajor N G) hl (by rw [hG]; rfl))
        (i := N - 1) (j := N - 1) (by omega) (by omega)
      rw [this, prod_col (by omega)]
    have hx := C109_looped_exact N _ _ _ _ (holds_rect N N (col (R := R) (N - 1)))
      (holds_rect N N (col (R := R) (N - 1))) (by simp) br bi hbr hbi
    by_cases hd : br ∣ N
    · refine ⟨hd, ?_⟩
      rw [if_pos hd] at hx
      have := hone _ hx
      by_contra hnd
      have hmod : 0 < N % bi := Nat.pos_of_ne_zero fun h0 => hnd (Nat.dvd_of_mod_eq_zero h0)
      rw [prod_col_zero (by omega)] at this
      exact zero_ne_one this
    · exfalso
      rw [if_neg hd] at hx
      split at hx
      · exact zero_ne_one (hone _ hx)
      · split at hx
        · next h1 h2 =>
          have := hone _ hx
          have hlt : br < N := by
            rcases Nat.lt_or_ge br N with h | h
            · exact h
            · exact absurd (show br ∣ N by rw [show br = N by omega]) hd
          rw [if_neg (by omega)] at this
          exact zero_ne_one this
        · exact ne_error hl (by rw [hx]; rfl)
  · rintro ⟨hbr, hbi, hdr, hdi⟩ A B a b hA hB _ _
    dsimp only
    rw [C26_looped_exact N A B a b hA hB br bi hbr hbi hdr hdi]
    simp
    rfl

/-- **C110.** `algorithms`: exactly if `block_result` is positive and divides `N`, and
`block_input` is positive and divides `N` unless the matrices are empty. -/
theorem C110_algorithms (R : Type) [Semiring R] (N bi br : Nat) :
    Multiplies R true N (fun A B => @Algorithms.matrix_multiply R (exact R) N A B bi br) ↔
      0 < br ∧ (N = 0 ∨ 0 < bi ∧ bi ∣ N ∧ br ∣ N) := by
  let _ := exact R
  constructor
  · intro h
    have hl := last_col h
    rcases Nat.eq_zero_or_pos br with h0 | hbr
    · subst h0
      rw [C25_zero_block_result] at hl
      exact (ne_error hl rfl).elim
    refine ⟨hbr, ?_⟩
    rcases Nat.eq_zero_or_pos N with h0 | hN
    · exact .inl h0
    right
    obtain ⟨o, ho⟩ := C25_outcome N (rowMajor N (col (R := R) (N - 1)))
      (rowMajor N (col (R := R) (N - 1))) bi br hbr
    rcases Nat.eq_zero_or_pos bi with h0 | hbi
    · subst h0
      rw [C25_zero_block_input N _ _ br hN hbr o ho] at ho
      exact (ne_error hl ho).elim
    by_contra hnd
    rw [C25_nondividing N _ _ bi br (by simp) hN hbi hbr (fun h => hnd ⟨hbi, h⟩) o ho] at ho
    exact ne_error hl ho
  · rintro ⟨hbr, h⟩ A B a b hA hB _ _
    dsimp only
    simp only [if_true]
    rcases h with h0 | ⟨hbi, hdi, hdr⟩
    · subst h0
      have e : Algorithms.matrix_multiply 0 A B bi br = Algorithms.matrix_multiply 0 A B 1 br := by
        have : ∀ bi, Algorithms.tree 0 A B bi br = .par [] := by
          intro bi
          simp [Algorithms.tree, Algorithms.result_blocks]
        unfold Algorithms.matrix_multiply
        rw [this, this]
      rw [e]
      exact C24_algorithms_exact 0 A B a b hA hB 1 br (by decide) hbr (Nat.dvd_zero _)
        (Nat.dvd_zero _)
    · exact C24_algorithms_exact N A B a b hA hB bi br hbi hbr hdi hdr

/-- **C110.** `semi`: exactly if 4 and a positive `block_input` divide `N`, unless the matrices are
empty. -/
theorem C110_semi (R : Type) [Semiring R] (N bi : Nat) :
    Multiplies R true N (fun A B => @Semi.matrix_multiply R (exact R) N A B bi) ↔
      N = 0 ∨ 0 < bi ∧ 4 ∣ N ∧ bi ∣ N := by
  let _ := exact R
  constructor
  · intro h
    have hl := last_col h
    rcases Nat.eq_zero_or_pos N with h0 | hN
    · exact .inl h0
    right
    rcases Nat.eq_zero_or_pos bi with h0 | hbi
    · subst h0
      exact (ne_error hl ((C33_zero_block N _ _ _ _ (holds_rect _ _ _) (holds_rect _ _ _) hN _).2
        rfl)).elim
    by_contra hnd
    exact ne_error hl ((C33_oob N _ _ _ _ (holds_rect _ _ _) (holds_rect _ _ _) bi hN hbi
      (fun h => hnd ⟨hbi, h⟩) _).2 rfl)
  · rintro h A B a b hA hB _ _
    dsimp only
    simp only [if_true]
    rcases h with h0 | ⟨hbi, h4, hdi⟩
    · subst h0
      have e : Semi.matrix_multiply 0 A B bi = Semi.matrix_multiply 0 A B 1 := by
        have : ∀ bi, Semi.tree 0 (rowMajor 0 a) (rowMajor 0 b) bi
            ⟨3, [([4, 2, bi], [false, false, false])]⟩ = .seq [] := by
          intro bi
          rw [Semi.tree_eq, IndexIterator.loop_nest, IndexIterator.execute_looped,
            if_neg (by simp), if_neg (by simp)]
          simp [steps, IndexIterator.Calls.toTree, ceilDiv]
        rw [semi_mm_eq hA hB, semi_mm_eq hA hB, this, this]
      rw [e]
      exact C32_semi_exact 0 A B a b hA hB 1 (Nat.dvd_zero _) (by decide) (Nat.dvd_zero _)
    · exact C32_semi_exact N A B a b hA hB bi h4 hbi hdi

/-- **C110.** `combined`: exactly if the number of repetitions is 1 in `R`, or the matrices are
empty. -/
theorem C110_combined (R : Type) [Semiring R] (N r : Nat) :
    Multiplies R false N (fun A B => @Combined.matrix_multiply R (exact R) Combined.blocking N A B r) ↔
      N = 0 ∨ (r : R) = 1 := by
  let _ := exact R
  constructor
  · intro h
    rcases Nat.eq_zero_or_pos N with h0 | hN
    · exact .inl h0
    right
    have := h _ _ _ _ (holds_rect N N fun i j => if i = j then (1 : R) else 0)
      (holds_rect N N fun i j => if i = j then (1 : R) else 0) (by simp) (by simp)
    dsimp only at this
    rw [C35_combined_exact N _ _ _ _ (holds_rect _ _ _) (holds_rect _ _ _) r] at this
    have := rowMajor_inj (ok_of_pure this rfl) (i := 0) (j := 0) hN hN
    simpa [hN] using this
  · rintro h A B a b hA hB _ _
    dsimp only
    rw [C35_combined_exact N A B a b hA hB r]
    refine congrArg ND.pure (rect_congr fun i hi j hj => ?_)
    rcases h with h0 | h1
    · omega
    · rw [nsmul_eq_mul, h1, one_mul]
      rfl

/-- **C110.** `kernel_tiled`: exactly with at least one repetition, or for empty matrices. -/
theorem C110_kernel_tiled (R : Type) [Semiring R] [Nontrivial R] (N : Nat) (transposed : Bool)
    (r : Nat) :
    Multiplies R false N (fun A B =>
      @KernelTiled.matrix_multiply R (exact R) KernelTiled.blocking N A B transposed r) ↔
      N = 0 ∨ 1 ≤ r := by
  let _ := exact R
  constructor
  · intro h
    rcases Nat.eq_zero_or_pos N with h0 | hN
    · exact .inl h0
    right
    rcases Nat.eq_zero_or_pos r with h0 | hr
    · subst h0
      have := h _ _ _ _ (holds_rect N N fun i j => if i = j then (1 : R) else 0)
        (holds_rect N N fun i j => if i = j then (1 : R) else 0) (by simp) (by simp)
      dsimp only at this
      rw [C37_kernel_tiled_zero N _ _ _ _ (holds_rect _ _ _) (holds_rect _ _ _)] at this
      have := rowMajor_inj (ok_of_pure this rfl) (i := 0) (j := 0) hN hN
      simp [hN] at this
      exact (zero_ne_one this).elim
    · exact hr
  · rintro h A B a b hA hB _ _
    dsimp only
    simp only [if_false, Bool.false_eq_true]
    rcases Nat.eq_zero_or_pos r with h0 | hr
    · subst h0
      have hN : N = 0 := by omega
      subst hN
      rw [C37_kernel_tiled_zero 0 A B a b hA hB]
      rfl
    · exact C37_kernel_tiled_exact N A B a b hA hB transposed r hr

/-- **C110.** `kernel_test`: exactly for a safe size and at least one repetition, or for empty
matrices. -/
theorem C110_kernel_test (R : Type) [Semiring R] [Nontrivial R] (N : Nat) (transposed : Bool)
    (r : Nat) :
    Multiplies R false N (fun A B =>
      @KernelTest.matrix_multiply R (exact R) N A B transposed r) ↔
      N = 0 ∨ SafeSize N ∧ 1 ≤ r := by
  let _ := exact R
  constructor
  · intro h
    rcases Nat.eq_zero_or_pos N with h0 | hN
    · exact .inl h0
    right
    have := h _ _ _ _ (holds_rect N N fun i j => if i = j then (1 : R) else 0)
      (holds_rect N N fun i j => if i = j then (1 : R) else 0) (by simp) (by simp)
    dsimp only at this
    rcases Nat.eq_zero_or_pos r with h0 | hr
    · subst h0
      rw [C39_kernel_test_zero N _ _ _ _ (holds_rect _ _ _) (holds_rect _ _ _)] at this
      have := rowMajor_inj (ok_of_pure this rfl) (i := 0) (j := 0) hN hN
      simp [hN] at this
      exact (zero_ne_one this).elim
    · have hi := C39_kernel_test_iff (α := R) N (rowMajor N fun i j => if i = j then 1 else 0)
        (rowMajor N fun i j => if i = j then 1 else 0) (rect_size _ _ _) (rect_size _ _ _)
        transposed r hr
      exact ⟨hi.1 fun e he => ne_error this he, hr⟩
  · rintro h A B a b hA hB _ _
    dsimp only
    simp only [if_false, Bool.false_eq_true]
    rcases Nat.eq_zero_or_pos r with h0 | hr
    · subst h0
      have hN : N = 0 := by omega
      subst hN
      rw [C39_kernel_test_zero 0 A B a b hA hB]
      rfl
    · exact C39_kernel_test_exact N (h.elim .inl (·.1)) A B a b hA hB transposed r hr

/-- **C110.** `proposal`: never. -/
theorem C110_proposal (R : Type) [Semiring R] (N : Nat) (transposed : Bool)
    (junk : Nat → Array Nat) :
    ¬ Multiplies R transposed N (fun A B =>
      ND.ofM (@Proposal.run R (exact R) Proposal.blocking junk N A B)) := by
  let _ := exact R
  intro h
  have := h _ _ _ _ (holds_rect N N fun _ _ => (0 : R)) (holds_rect N N fun _ _ => (0 : R)) (by simp)
    (by simp)
  have hok : ND.ofM (Proposal.run Proposal.blocking junk N (rowMajor N fun _ _ => (0 : R))
      (rowMajor N fun _ _ => (0 : R))) (.ok (rowMajor N fun i j =>
      ∑ k ∈ Finset.range N, (0 : R) * (if transposed then 0 else 0))) := by
    dsimp only at this
    rw [this]; rfl
  have hrun : Proposal.run Proposal.blocking junk N (rowMajor N fun _ _ => (0 : R))
      (rowMajor N fun _ _ => (0 : R)) = .ok _ := hok.symm
  unfold Proposal.run at hrun
  obtain ⟨o, _, h2⟩ := MemoryLayout.bind_ok' hrun
  exact C47_never_returns _ _ _ _ h2

section Examples
attribute [local instance] exact

/-- 6×6, blocks of 3 and 4: the last two terms of every sum are missing -/
example : Looped.matrix_multiply 6 (rowMajor 6 fun i j => i + j) (rowMajor 6 fun i j => i * j) 3 4 =
    .ok (rowMajor 6 fun i j => dot 4 (fun k => i + k) (fun k => j * k)) := by
  rw [C109_looped 6 _ _ _ _ (holds_rect _ _ _) (holds_rect _ _ _) (by simp) 3 4 (by decide)
    (by decide)]
  rfl

/-- 5×5, blocks of 3 and 3: one block -/
example : Looped.matrix_multiply 5 (rowMajor 5 fun i j => i + j) (rowMajor 5 fun i j => i * j) 3 3 =
    .ok (rowMajor 5 fun i j => if i < 3 ∧ j < 3 then dot 3 (fun k => i + k) (fun k => j * k)
      else 0) := by
  rw [C109_looped 5 _ _ _ _ (holds_rect _ _ _) (holds_rect _ _ _) (by simp) 3 3 (by decide)
    (by decide), if_neg (by decide), if_neg (by decide), if_pos (by decide)]
  rfl

/-- 5×5, blocks of 2 and 5: out of bounds -/
example : Looped.matrix_multiply 5 (rowMajor 5 fun i j => i + j) (rowMajor 5 fun i j => i * j) 2 5 =
    .error .oob := by
  rw [C109_looped 5 _ _ _ _ (holds_rect _ _ _) (holds_rect _ _ _) (by simp) 2 5 (by decide)
    (by decide), if_neg (by decide), if_neg (by decide), if_neg (by decide)]

/-- 3×3 times the identity, blocks of 3 and 2: the last column is lost -/
example : Looped.matrix_multiply 3 (rowMajor 3 fun i j => i + j)
    (rowMajor 3 fun i j => if i = j then 1 else 0) 3 2 =
    .ok (rowMajor 3 fun i j => if j < 2 then i + j else 0) :=
  C109_looped_identity 3 _ _ _ (holds_rect _ _ _) (holds_rect _ _ _) (by simp) 3 2 (by decide)
    (by decide) (by decide)

/-- 12×12: blocks of 4 and 6 -/
example : Multiplies Nat true 12 (fun A B => ND.ofM (Looped.matrix_multiply 12 A B 4 6)) :=
  (C110_looped Nat 12 4 6).2 (by decide)

/-- blocks of 4 and 5 -/
example : ¬ Multiplies Nat true 12 (fun A B => ND.ofM (Looped.matrix_multiply 12 A B 4 5)) :=
  fun h => absurd ((C110_looped Nat 12 4 5).1 h) (by decide)

example : Multiplies Int true 12 (fun A B => Algorithms.matrix_multiply 12 A B 3 4) :=
  (C110_algorithms Int 12 3 4).2 (by decide)

example : ¬ Multiplies Int true 12 (fun A B => Algorithms.matrix_multiply 12 A B 3 5) :=
  fun h => absurd ((C110_algorithms Int 12 3 5).1 h) (by decide)

example : Multiplies Int true 12 (fun A B => Semi.matrix_multiply 12 A B 6) :=
  (C110_semi Int 12 6).2 (by decide)

example : ¬ Multiplies Int true 6 (fun A B => Semi.matrix_multiply 6 A B 6) :=
  fun h => absurd ((C110_semi Int 6 6).1 h) (by decide)

/-- two repetitions of `combined` -/
example : ¬ Multiplies Int false 3
    (fun A B => Combined.matrix_multiply Combined.blocking 3 A B 2) :=
  fun h => absurd ((C110_combined Int 3 2).1 h) (by decide)

example : Multiplies Int false 7
    (fun A B => KernelTiled.matrix_multiply KernelTiled.blocking 7 A B true 3) :=
  (C110_kernel_tiled Int 7 true 3).2 (by decide)

example : Multiplies Int false 512 (fun A B => KernelTest.matrix_multiply 512 A B false 2) :=
  (C110_kernel_test Int 512 false 2).2 (.inr ⟨by unfold SafeSize; omega, by decide⟩)

example : ¬ Multiplies Int false 256 (fun A B => KernelTest.matrix_multiply 256 A B false 2) :=
  fun h => by
    have := (C110_kernel_test Int 256 false 2).1 h
    unfold SafeSize at this
    omega

/-- 20 × 20 with blocks of at most 10 -/
example : Multiplies Int true 20 (fun A B => Recursive.single_matrix_multiply 20 A B true 10 0 1) :=
  (C110_single Int 20 true 10 0 1).2
    (.inr ⟨by decide, ⟨1, 10, rfl, by decide, fun d hd => by
      obtain rfl : d = 0 := by omega
      decide⟩, fun _ h => absurd rfl h⟩)

end Examples

end Verif.Props
