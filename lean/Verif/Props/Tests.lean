import Verif.Model.Tests
import Verif.Props.Agree
import Verif.Props.OneLocality
import Verif.Props.Domain
/-
C73–C77: the unit tests of /repo/src/tests.
-/
set_option linter.unusedSectionVars false
namespace Verif.Props
open Verif.Tests

section General
variable {α : Type} [Arith α]

/-- All checks are made, one for each element. -/
theorem checks_ok (e : Env α) (N : Nat) (C Cref : Array α) (hC : N * N ≤ C.size)
    (hR : N * N ≤ Cref.size) : checks e N C Cref =
      .ok ((List.range (N * N)).map fun k => e.close (C.getD k Arith.zero) (Cref.getD k Arith.zero)) := by
  unfold checks
  rw [forStep_eq (by decide), steps_one]
  have key : ∀ n, n ≤ N * N → ((List.range n).foldlM (fun (l : List Bool) i => do
      let x ← rd C i
      let y ← rd Cref i
      pure (l ++ [e.close x y])) [] : M (List Bool)) =
      .ok ((List.range n).map fun k => e.close (C.getD k Arith.zero) (Cref.getD k Arith.zero)) := by
    intro n
    induction n with
    | zero => intro _; rfl
    | succ n ih =>
      intro hn
      rw [List.range_succ, List.foldlM_append, ih (by omega), List.map_append]
      have h1 : rd C n = .ok (C.getD n Arith.zero) := by
        rw [rd_ok]; simp [show n < C.size by omega]
      have h2 : rd Cref n = .ok (Cref.getD n Arith.zero) := by
        rw [rd_ok]; simp [show n < Cref.size by omega]
      simp only [List.foldlM_cons, List.foldlM_nil]
      rw [h1, h2]
      rfl
  exact key _ (Nat.le_refl _)

/-- A test whose result is the reference passes all checks. -/
theorem checks_same (e : Env α) (hc : ∀ x, e.close x x = true) (N : Nat) (C : Array α)
    (hC : N * N ≤ C.size) : checks e N C C = .ok (List.replicate (N * N) true) := by
  rw [checks_ok e N C C hC hC]
  congr 1
  rw [List.eq_replicate_iff]
  simp [hc]

/-- Whether the parameters of a test are in the domain of the algorithm (in the roles in which
`hpx_main` of the tests passes the two block sizes). -/
def InDomain (c : Case) : Prop :=
  (c.algorithm = "single" ∧ (∃ e, c.N = 2 ^ e) ∧ 1 ≤ c.block_input ∧
    (c.block_result = 0 ∨ c.block_result ∣ c.N) ∧ 1 ≤ c.repetitions) ∨
  (c.algorithm = "pseudodynamic" ∧ (∃ e, c.N = 2 ^ e) ∧ 1 ≤ c.block_input ∧
    (c.block_result = 0 ∨ c.block_result ∣ c.N) ∧ 1 ≤ c.repetitions ∧
    (c.N ≠ 1 ∨ 1 ≤ c.min_work_size) ∧ c.N * c.N < 2 ^ 63) ∨
  ((c.algorithm = "algorithms" ∨ c.algorithm = "looped") ∧ c.transposed = true ∧
    0 < c.block_input ∧ 0 < c.block_result ∧ c.block_input ∣ c.N ∧ c.block_result ∣ c.N) ∨
  (c.algorithm = "semi" ∧ c.transposed = true ∧ 4 ∣ c.N ∧ 0 < c.block_input ∧
    c.block_input ∣ c.N) ∨
  (c.algorithm = "combined" ∧ c.transposed = false ∧ c.repetitions = 1)

/-- The tests with random matrices are in the domain. -/
theorem random_inDomain (c : Case) (hm : c ∈ random_cases)
    (hs : ¬ (c.algorithm = "semi" ∧ c.N = 2)) : InDomain c := by
  have p1 : ∃ e, 2 = 2 ^ e := ⟨1, rfl⟩
  have p2 : ∃ e, 4 = 2 ^ e := ⟨2, rfl⟩
  have p3 : ∃ e, 8 = 2 ^ e := ⟨3, rfl⟩
  have p8 : ∃ e, 256 = 2 ^ e := ⟨8, rfl⟩
  have p9 : ∃ e, 512 = 2 ^ e := ⟨9, rfl⟩
  have p10 : ∃ e, 1024 = 2 ^ e := ⟨10, rfl⟩
  unfold random_cases modes sizes at hm
  simp only [List.flatMap_cons, List.flatMap_nil, List.map_cons, List.map_nil, List.append_nil,
    List.cons_append, List.nil_append, List.mem_cons, List.not_mem_nil, or_false] at hm
  unfold InDomain
  rcases hm with h | h | h | h | h | h | h | h | h | h | h | h | h | h | h | h | h | h | h | h | h |
    h | h | h | h | h | h | h | h | h | h | h | h | h | h | h | h | h | h | h | h | h | h | h | h |
    h | h | h <;> subst h <;> simp_all

/-- **C74.** `semi` with a size that is no multiple of 4 (as the tests `identity_2`,
`apply_inverse_2` and `random_matrices_2` of test_semi.cpp): the test reads out of bounds, whatever
the matrices and the arithmetic. -/
theorem C74_semi_ub (e : Env α) (c : Case) (hs : c.algorithm = "semi") (ht : c.transposed = true)
    (h4 : ¬ 4 ∣ c.N) (hN : 0 < c.N) (hb : 0 < c.block_input) :
    random_matrices e c = ND.fail .oob ∧
    ∀ A B Cref : Array α, A.size = c.N * c.N → B.size = c.N * c.N →
      fixed_matrices e c A B Cref = ND.fail .oob := by
  have key : ∀ (A B C : Array α) (a b : Nat → Nat → α), Holds A c.N c.N a → Holds B c.N c.N b →
      hpx_main e c A B C = ND.fail .oob := by
    intro A B C a b hA hB
    unfold hpx_main
    rw [hs, ht]
    simp only [String.reduceEq, if_false, if_true, not_true_eq_false]
    funext o
    exact propext (C33_oob c.N A B a b hA hB c.block_input hN hb (fun h => h4 h.1) o)
  have fail_bind : ∀ {R S : Type} (f : R → ND S), (ND.fail .oob).bind f = ND.fail .oob := by
    intro R S f
    funext o
    apply propext
    constructor
    · rintro (⟨e, h, rfl⟩ | ⟨r, h, _⟩)
      · cases h; rfl
      · cases h
    · intro h; exact .inl ⟨_, rfl, h⟩
  constructor
  · unfold random_matrices
    rw [C49_random]
    refine (ND.pure_bind _ _).trans ((ND.pure_bind _ _).trans ?_)
    rw [key _ _ _ _ _ (holds_rect _ _ _) (holds_rect _ _ _)]
    exact fail_bind _
  · intro A B Cref hA hB
    unfold fixed_matrices
    rw [ht, if_pos rfl, (C48_transpose c.N B _ (Util.vec_holds (by rw [hB])))]
    refine (ND.pure_bind _ _).trans ?_
    rw [key _ _ _ _ _ (Util.vec_holds (by rw [hA])) (holds_rect _ _ _)]
    exact fail_bind _

/-- **C77.** `hpx_main` of the tests swaps the block sizes of `single` and `pseudodynamic`: with
`block_input = 0` ("no blocking of the input") every execution of `single` returns the zero matrix,
for all matrices. -/
theorem C77_swapped (e : Env α) (c : Case) (A B C : Array α) (hs : c.algorithm = "single")
    (hb : c.block_input = 0) :
    hpx_main e c A B C = ND.pure (rowMajor c.N fun _ _ => Arith.zero) := by
  unfold hpx_main
  rw [if_pos hs, hb]
  exact C12_block_result_zero c.N A B c.transposed c.block_result c.repetitions

/-- **C77.** The swap has no effect on tests with equal block sizes: `hpx_main` does what it would do
with the block sizes in the right order. -/
theorem C77_invisible (e : Env α) (c : Case) (A B C : Array α)
    (hb : c.block_input = c.block_result) :
    (c.algorithm = "single" → hpx_main e c A B C = Recursive.single_matrix_multiply c.N A B
      c.transposed c.block_result c.block_input c.repetitions) ∧
    (c.algorithm = "pseudodynamic" → hpx_main e c A B C =
      StaticImproved.pseudodynamic_matrix_multiply
        ⟨c.min_work_size, c.max_work_difference, fun _ _ => false⟩ c.N A B c.transposed
        c.block_result c.block_input c.repetitions e.localities) := by
  constructor <;> intro h <;> unfold hpx_main <;> rw [h, hb] <;> rfl

end General

section Exact
variable {R : Type} [Semiring R]

/-- Inside the domain `hpx_main` returns the product. -/
theorem hpx_main_product (e : Env R) (c : Case) (hd : InDomain c) (hl : e.localities = 1)
    (A B C : Array R) (a b : Nat → Nat → R) (hA : Holds A c.N c.N a) (hB : Holds B c.N c.N b) :
    @hpx_main R (exact R) e c A B C = ND.pure (rowMajor c.N fun i j =>
      ∑ k ∈ Finset.range c.N, a i k * (if c.transposed then b j k else b k j)) := by
  let _ := exact R
  unfold hpx_main
  rcases hd with ⟨h, ⟨n, hn⟩, h1, h2, h3⟩ | ⟨h, ⟨n, hn⟩, h1, h2, h3, h4, h5⟩ |
    ⟨h | h, ht, h1, h2, h3, h4⟩ | ⟨h, ht, h1, h2, h3⟩ | ⟨h, ht, h1⟩
  · rw [if_pos h]
    rw [hn] at hA hB h2 ⊢
    exact C10_single_pow2_exact n A B a b c.transposed _ _ _ hA hB h1 h2 h3
  · rw [if_neg (by rw [h]; decide), if_pos h, C72_one_locality _ _ _ _ _ _ _ _ _ (.inl hl) h5 h4]
    rw [hn] at hA hB h2 ⊢
    exact C10_single_pow2_exact n A B a b c.transposed _ _ _ hA hB h1 h2 h3
  · rw [h, ht]
    simp only [String.reduceEq, if_false, if_true, not_true_eq_false]
    exact C24_algorithms_exact _ A B a b hA hB _ _ h1 h2 h3 h4
  · rw [h, ht]
    simp only [String.reduceEq, if_false, if_true, not_true_eq_false]
    rw [C26_looped_exact _ A B a b hA hB _ _ h2 h1 h4 h3]
    rfl
  · rw [h, ht]
    simp only [String.reduceEq, if_false, if_true, not_true_eq_false]
    exact C32_semi_exact _ A B a b hA hB _ h1 h2 h3
  · rw [h, ht, h1]
    simp only [String.reduceEq, if_false, if_true, Bool.false_eq_true]
    exact C34_combined _ A B a b hA hB

theorem reference_product (c : Case) (A B : Array R) (a b : Nat → Nat → R)
    (hA : Holds A c.N c.N a) (hB : Holds B c.N c.N b) :
    @reference R (exact R) c A B = ND.pure (rowMajor c.N fun i j =>
      ∑ k ∈ Finset.range c.N, a i k * (if c.transposed then b j k else b k j)) := by
  unfold reference
  cases c.transposed with
  | false => exact C01_naive_exact c.N A B a b hA hB
  | true =>
    rw [if_neg (by simp), @C02_naive_transposed R (exact R) c.N A B a b hA hB]
    refine congrArg ND.pure (congrArg _ ?_)
    funext i j
    exact dot_exact _ _ _

/-- **C73.** Inside the domain a test with random matrices passes in every execution, for all random
numbers and any check that accepts equal numbers. -/
theorem C73_random_passes (e : Env R) (hc : ∀ x, e.close x x = true) (hl : e.localities = 1)
    (c : Case) (hd : InDomain c) :
    @random_matrices R (exact R) e c = ND.pure (List.replicate (c.N * c.N) true) := by
  let _ := exact R
  unfold random_matrices
  rw [C49_random]
  refine (ND.pure_bind _ _).trans ((ND.pure_bind _ _).trans ?_)
  rw [hpx_main_product e c hd hl _ _ _ _ _ (holds_rect _ _ _) (holds_rect _ _ _)]
  refine (ND.pure_bind _ _).trans ?_
  rw [reference_product c _ _ _ _ (holds_rect _ _ _) (holds_rect _ _ _)]
  refine (ND.pure_bind _ _).trans ?_
  rw [checks_same e hc c.N _ (by simp)]
  rfl

/-- **C73.** All tests with random matrices in the repository pass in every execution, for all
random numbers, except `random_matrices_2` of test_semi.cpp (C74). -/
theorem C73_all_random (e : Env R) (hc : ∀ x, e.close x x = true) (hl : e.localities = 1)
    (c : Case) (hm : c ∈ random_cases) (hs : ¬ (c.algorithm = "semi" ∧ c.N = 2)) :
    @random_matrices R (exact R) e c = ND.pure (List.replicate (c.N * c.N) true) :=
  C73_random_passes e hc hl c (random_inDomain c hm hs)

/-- **C75.** A test with constant matrices, for all matrices: one check for each entry of the
product against the reference. -/
theorem C75_fixed (e : Env R) (hl : e.localities = 1) (c : Case) (hd : InDomain c)
    (A B Cref : Array R) (a b r : Nat → Nat → R) (hA : Holds A c.N c.N a) (hB : Holds B c.N c.N b)
    (hR : Holds Cref c.N c.N r) (hRs : Cref.size = c.N * c.N) :
    ∃ l, @fixed_matrices R (exact R) e c A B Cref = ND.pure l ∧ l.length = c.N * c.N ∧
      ∀ i, i < c.N → ∀ j, j < c.N → l[i * c.N + j]? = some (e.close (matProd c.N a b i j) (r i j)) := by
  let _ := exact R
  have key : ∀ B', Holds B' c.N c.N (if c.transposed then tr b else b) →
      hpx_main e c A B' #[] = ND.pure (rowMajor c.N (matProd c.N a b)) := by
    intro B' hB'
    rw [hpx_main_product e c hd hl A B' _ a _ hA hB']
    refine congrArg ND.pure (congrArg _ ?_)
    funext i j
    cases c.transposed <;> rfl
  refine ⟨(List.range (c.N * c.N)).map fun k => e.close
    ((rowMajor c.N (matProd c.N a b)).getD k Arith.zero) (Cref.getD k Arith.zero), ?_, by simp, ?_⟩
  · unfold fixed_matrices
    have hB' : ∃ B', (if c.transposed then Util.transpose_matrix c.N B else pure B) = .ok B' ∧
        Holds B' c.N c.N (if c.transposed then tr b else b) := by
      cases c.transposed with
      | false => exact ⟨B, rfl, hB⟩
      | true => exact ⟨_, C48_transpose c.N B b hB, holds_rect _ _ _⟩
    obtain ⟨B', h1, h2⟩ := hB'
    rw [h1]
    refine (ND.pure_bind _ _).trans ?_
    rw [key B' h2]
    refine (ND.pure_bind _ _).trans ?_
    rw [checks_ok e c.N _ Cref (by simp) (by rw [hRs])]
    rfl
  · intro i hi j hj
    have hlt := idx_lt hi hj
    have e1 := holds_rect c.N c.N (matProd c.N a b) i hi j hj
    have e2 := hR i hi j hj
    simp only [List.getElem?_map, List.getElem?_range hlt, Option.map_some, Array.getD_eq_getD_getElem?]
    rw [e1, e2]
    rfl

end Exact

section Blind
variable {R : Type} [CommSemiring R]

/-- **C76.** The two random matrices of a test are the same vector, for every random engine; so the
reference of a transposed test is a symmetric matrix. -/
theorem C76_symmetric (e : Env R) (c : Case) (ht : c.transposed = true) (A B : Array R)
    (hA : @Util.create_random_matrix R (exact R) e.rand c.N = .ok A)
    (hB : @Util.create_random_matrix R (exact R) e.rand c.N = .ok B) :
    A = B ∧ ∃ G : Nat → Nat → R, @reference R (exact R) c A B = ND.pure (rowMajor c.N G) ∧
      ∀ i j, G i j = G j i := by
  have hAB : A = B := Except.ok.inj (hA.symm.trans hB)
  subst hAB
  have hA' : A = rowMajor c.N fun i j => e.rand (i * c.N + j) :=
    Except.ok.inj (hA.symm.trans (@C49_random R (exact R) e.rand c.N))
  subst hA'
  refine ⟨rfl, _, reference_product c _ _ _ _ (holds_rect _ _ _) (holds_rect _ _ _), ?_⟩
  intro i j
  rw [ht]
  exact Finset.sum_congr rfl fun k _ => mul_comm _ _

/-- **C76.** So a transposed test cannot tell a result from its transpose: all checks of the test
pass for a result matrix exactly if they pass for the transposed matrix. -/
theorem C76_blind (e : Env R) (c : Case) (ht : c.transposed = true) (A B Cref : Array R)
    (hA : @Util.create_random_matrix R (exact R) e.rand c.N = .ok A)
    (hB : @Util.create_random_matrix R (exact R) e.rand c.N = .ok B)
    (hr : @reference R (exact R) c A B (.ok Cref)) (H : Nat → Nat → R) :
    @checks R e c.N (rowMajor c.N H) Cref = .ok (List.replicate (c.N * c.N) true) ↔
    @checks R e c.N (rowMajor c.N (tr H)) Cref = .ok (List.replicate (c.N * c.N) true) := by
  let _ := exact R
  obtain ⟨rfl, G, hG, hsym⟩ := C76_symmetric e c ht A B hA hB
  rw [hG] at hr
  injection hr with hr
  subst hr
  have key : ∀ H : Nat → Nat → R, checks e c.N (rowMajor c.N H) (rowMajor c.N G) =
      .ok (List.replicate (c.N * c.N) true) ↔
      ∀ i, i < c.N → ∀ j, j < c.N → e.close (H i j) (G i j) = true := by
    intro H
    rw [checks_ok e c.N _ _ (by simp) (by simp)]
    constructor
    · intro h i hi j hj
      injection h with h
      have hlt := idx_lt hi hj
      have := congrArg (fun l : List Bool => l[i * c.N + j]?) h
      simp only [List.getElem?_map, List.getElem?_range hlt, Option.map_some,
        Array.getD_eq_getD_getElem?, List.getElem?_replicate, if_pos hlt] at this
      rw [holds_rect c.N c.N H i hi j hj, holds_rect c.N c.N G i hi j hj] at this
      exact Option.some.inj this
    · intro h
      congr 1
      rw [List.eq_replicate_iff]
      refine ⟨by simp, fun x hx => ?_⟩
      obtain ⟨k, hk, rfl⟩ := List.mem_map.1 hx
      have hk := List.mem_range.1 hk
      have hN : 0 < c.N := by
        rcases Nat.eq_zero_or_pos c.N with h0 | h0
        · rw [h0] at hk; omega
        · exact h0
      have hi : k / c.N < c.N := Nat.div_lt_of_lt_mul hk
      have hj := Nat.mod_lt k hN
      have hkk : k / c.N * c.N + k % c.N = k := Nat.div_add_mod' k c.N
      have e1 := holds_rect c.N c.N H _ hi _ hj
      have e2 := holds_rect c.N c.N G _ hi _ hj
      rw [hkk] at e1 e2
      rw [Array.getD_eq_getD_getElem?, Array.getD_eq_getD_getElem?, e1, e2]
      exact h _ hi _ hj
  rw [key, key]
  constructor
  · intro h i hi j hj; rw [hsym i j]; exact h j hj i hi
  · intro h i hi j hj; rw [hsym i j]; exact h j hj i hi

end Blind

section Examples

/-- C73: 47 of the 48 tests with random matrices are in the domain -/
example : random_cases.length = 48 ∧
    (random_cases.filter fun c => !(c.algorithm == "semi" && c.N == 2)).length = 47 := by decide

/-- C74: the test of test_semi.cpp with `N = 2` -/
example (e : Env Int) : let _ := exact Int
    random_matrices e ⟨"semi", 2, true, 1, 1, 1, 0, 0⟩ = ND.fail .oob := by
  intro _
  exact (C74_semi_ub e _ rfl rfl (by decide) (by decide) (by decide)).1

/-- C75: a skew matrix and its inverse pass the test `apply_inverse_2` -/
example (e : Env Int) (hc : ∀ x, e.close x x = true) (hl : e.localities = 1) :
    @fixed_matrices Int (exact Int) e ⟨"combined", 2, false, 1, 1, 1, 0, 0⟩ #[2, 5, 1, 3]
      #[3, -5, -1, 2] #[1, 0, 0, 1] = ND.pure [true, true, true, true] := by
  have hA := holds_rect 2 2 fun i j => (#[2, 5, 1, 3] : Array Int).getD (i * 2 + j) 0
  have hB := holds_rect 2 2 fun i j => (#[3, -5, -1, 2] : Array Int).getD (i * 2 + j) 0
  have hR := holds_rect 2 2 fun i j => (#[1, 0, 0, 1] : Array Int).getD (i * 2 + j) 0
  obtain ⟨l, h1, h2, h3⟩ := C75_fixed e hl ⟨"combined", 2, false, 1, 1, 1, 0, 0⟩
    (.inr (.inr (.inr (.inr ⟨rfl, rfl, rfl⟩)))) #[2, 5, 1, 3] #[3, -5, -1, 2] #[1, 0, 0, 1] _ _ _ hA hB
    hR rfl
  rw [h1]
  have e0 := h3 0 (by decide) 0 (by decide)
  have e1 := h3 0 (by decide) 1 (by decide)
  have e2 := h3 1 (by decide) 0 (by decide)
  have e3 := h3 1 (by decide) 1 (by decide)
  simp [matProd, Finset.sum_range_succ, hc] at e0 e1 e2 e3
  match l, h2, e0, e1, e2, e3 with
  | [w, x, y, z], _, e0, e1, e2, e3 =>
    simp at e0 e1 e2 e3
    simp [e0, e1, e2, e3]

/-- C76: the hypotheses are met by every generator -/
example (e : Env Int) : ∃ A Cref, @Util.create_random_matrix Int (exact Int) e.rand 2 = .ok A ∧
    @reference Int (exact Int) ⟨"single", 2, true, 1, 1, 1, 0, 0⟩ A A (.ok Cref) :=
  ⟨_, _, @C49_random Int (exact Int) e.rand 2, by
    rw [reference_product ⟨"single", 2, true, 1, 1, 1, 0, 0⟩ _ _ _ _ (holds_rect _ _ _)
      (holds_rect _ _ _)]
    rfl⟩

/-- C77: the driver's own call with the same options returns the product -/
example (A B : Array Int) (h : A.size = 64 ∧ B.size = 64) (e : Env Int) : let _ := exact Int
    hpx_main e ⟨"single", 8, false, 0, 4, 1, 0, 0⟩ A B #[] =
      ND.pure (rowMajor 8 fun _ _ => 0) ∧
    Recursive.single_matrix_multiply 8 A B false 4 0 1 = ND.pure (rowMajor 8 fun i j =>
      ∑ k ∈ Finset.range 8, A.getD (i * 8 + k) 0 * B.getD (k * 8 + j) 0) := by
  intro _
  exact ⟨C77_swapped e _ A B #[] rfl rfl, C10_single_pow2_exact 3 A B
    (fun i j => A.getD (i * 8 + j) 0) (fun i j => B.getD (i * 8 + j) 0) false 4 0 1
    (Util.vec_holds (by omega)) (Util.vec_holds (by omega)) (by decide) (.inl rfl) (by decide)⟩

end Examples
end Verif.Props
