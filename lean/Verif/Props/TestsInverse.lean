import Verif.Model.TestsInverse
import Verif.Props.Integers
import Verif.Props.TestsFloat
import Mathlib.Algebra.BigOperators.Field
/-
C88: the unit tests with a matrix and its inverse in floating-point arithmetic.
-/
namespace Verif.Props
open Verif.Tests

section Integers
variable {α : Type} [Arith α] {ιA ιB ι : Int → α} {lim : Int} {a b : Nat → Nat → Int}

/-- Inside the domain `hpx_main` of the tests multiplies matrices of integers exactly. -/
theorem hpx_main_integers (h : ExactOnIntegers ιA ιB ι lim) (e : Env α) (c : Case) (hd : InDomain c)
    (hl : e.localities = 1) (hs : Small lim c.N a b) (A B C : Array α)
    (hA : Holds A c.N c.N (asFloat ιA a))
    (hB : Holds B c.N c.N (asFloat ιB (if c.transposed then tr b else b))) :
    hpx_main e c A B C = exactProduct ι c.N a b := by
  have single : (∃ n, c.N = 2 ^ n) → 1 ≤ c.block_input → (c.block_result = 0 ∨ c.block_result ∣ c.N) →
      1 ≤ c.repetitions → Recursive.single_matrix_multiply c.N A B c.transposed c.block_input
        c.block_result c.repetitions = exactProduct ι c.N a b := by
    rintro ⟨n, hn⟩ h1 h2 h3
    rw [hn] at hA hB h2 hs ⊢
    exact C87_single_pow2 h n hs A B _ _ _ _ hA hB h1 h2 h3
  unfold hpx_main
  rcases hd with ⟨h0, hn, h1, h2, h3⟩ | ⟨h0, hn, h1, h2, h3, h4, h5⟩ |
    ⟨h0 | h0, ht, h1, h2, h3, h4⟩ | ⟨h0, ht, h1, h2, h3⟩ | ⟨h0, ht, h1⟩
  · rw [if_pos h0]
    exact single hn h1 h2 h3
  · rw [if_neg (by rw [h0]; decide), if_pos h0, C72_one_locality _ _ _ _ _ _ _ _ _ (.inl hl) h5 h4]
    exact single hn h1 h2 h3
  · rw [ht] at hB
    rw [h0, ht]
    simp only [String.reduceEq, if_false, if_true, not_true_eq_false]
    exact C87_algorithms h hs A B hA hB _ _ h1 h2 h3 h4
  · rw [ht] at hB
    rw [h0, ht]
    simp only [String.reduceEq, if_false, if_true, not_true_eq_false]
    exact C87_looped h hs A B hA hB _ _ h2 h1 h4 h3
  · rw [ht] at hB
    rw [h0, ht]
    simp only [String.reduceEq, if_false, if_true, not_true_eq_false]
    exact C87_semi h hs A B hA hB _ h1 h2 h3
  · rw [ht] at hB
    rw [h0, ht, h1]
    simp only [String.reduceEq, if_false, if_true, Bool.false_eq_true]
    rw [C87_combined h 1 A B hs.1 (fun i hi j hj => by
      rw [Nat.cast_one, one_mul]; exact hs.2 i hi j hj) hA hB]
    simp [exactProduct]

end Integers

set_option linter.unusedSectionVars false

section General
variable {α : Type} [Arith α]

private theorem fixed_pass (e : Env α) (c : Case) (A B : Array α) (b H : Nat → Nat → α)
    (hB : Holds B c.N c.N b)
    (h : ∀ B', Holds B' c.N c.N (if c.transposed then tr b else b) →
      ∃ G : Nat → Nat → α, hpx_main e c A B' #[] = ND.pure (rowMajor c.N G) ∧
        ∀ i, i < c.N → ∀ j, j < c.N → e.close (G i j) (H i j) = true) :
    fixed_matrices e c A B (rowMajor c.N H) = ND.pure (List.replicate (c.N * c.N) true) := by
  unfold fixed_matrices
  have hB' : ∃ B', (if c.transposed then Util.transpose_matrix c.N B else pure B) = .ok B' ∧
      Holds B' c.N c.N (if c.transposed then tr b else b) := by
    cases c.transposed with
    | false => exact ⟨B, rfl, hB⟩
    | true => exact ⟨_, C48_transpose c.N B b hB, holds_rect _ _ _⟩
  obtain ⟨B', h1, h2⟩ := hB'
  rw [h1]
  refine (ND.pure_bind _ _).trans ?_
  obtain ⟨G, h3, h4⟩ := h B' h2
  rw [h3]
  refine (ND.pure_bind _ _).trans ?_
  rw [checks_close e c.N G H h4]
  rfl

private theorem holds_congr {v : Array α} {N : Nat} {f g : Nat → Nat → α} (h : Holds v N N f)
    (hfg : ∀ i, i < N → ∀ j, j < N → f i j = g i j) : Holds v N N g :=
  fun i hi j hj => (h i hi j hj).trans (congrArg some (hfg i hi j hj))

/-- The matrices of the tests as functions. -/
def invA (N i j : Nat) : Int := (inverse_A N).getD (i * N + j) 0
def invB (N i j : Nat) : Int := (inverse_B N).getD (i * N + j) 0

private theorem holds_lit {N : Nat} (v : Array Int) (hv : N * N ≤ v.size) (F : Int → α) :
    Holds (v.map F) N N fun i j => F (v.getD (i * N + j) 0) := by
  intro i hi j hj
  have hlt : i * N + j < v.size := Nat.lt_of_lt_of_le (idx_lt hi hj) hv
  simp [hlt]

private theorem holds_vecA (lit : Int → Nat → α) {N : Nat} (hN : N = 2 ∨ N = 4 ∨ N = 8) :
    Holds (inverse_vecA lit N) N N fun i j => lit (invA N i j) 0 := by
  refine holds_lit (inverse_A N) ?_ fun m => lit m 0
  rcases hN with rfl | rfl | rfl <;> decide

private theorem holds_vecB (lit : Int → Nat → α) {N : Nat} (hN : N = 2 ∨ N = 4 ∨ N = 8) :
    Holds (inverse_vecB lit N) N N fun i j => lit (invB N i j) (inverse_digits N) := by
  refine holds_lit (inverse_B N) ?_ fun m => lit m (inverse_digits N)
  rcases hN with rfl | rfl | rfl <;> decide

theorem fixed_inDomain (c : Case) (hm : c ∈ fixed_cases) (hs : ¬ (c.algorithm = "semi" ∧ c.N = 2)) :
    InDomain c ∧ (c.N = 2 ∨ c.N = 4 ∨ c.N = 8) := by
  have p1 : ∃ e, 2 = 2 ^ e := ⟨1, rfl⟩
  have p2 : ∃ e, 4 = 2 ^ e := ⟨2, rfl⟩
  have p3 : ∃ e, 8 = 2 ^ e := ⟨3, rfl⟩
  unfold fixed_cases modes at hm
  simp only [List.flatMap_cons, List.flatMap_nil, List.map_cons, List.map_nil, List.append_nil,
    List.cons_append, List.nil_append, List.mem_cons, List.not_mem_nil, or_false] at hm
  unfold InDomain
  rcases hm with h | h | h | h | h | h | h | h | h | h | h | h | h | h | h | h | h | h | h | h | h |
    h | h | h <;> subst h <;> simp_all

private theorem inverse_2 : ∀ i, i < 2 → ∀ j, j < 2 →
    ∑ k ∈ Finset.range 2, invA 2 i k * invB 2 k j = (if i = j then 1 else 0) ∧
    ∑ k ∈ Finset.range 2, |invA 2 i k * invB 2 k j| ≤ 20 := by decide

private theorem small_2 {lim : Int} (hlim : 20 ≤ lim) : Small lim 2 (invA 2) (invB 2) := by
  have e1 : ∀ i, i < 2 → ∀ j, j < 2 → |invA 2 i j| ≤ 20 ∧ |invB 2 i j| ≤ 20 := by decide
  exact ⟨fun i hi j hj => ⟨(e1 i hi j hj).1.trans hlim, (e1 i hi j hj).2.trans hlim⟩,
    fun i hi j hj => le_trans (inverse_2 i hi j hj).2 hlim⟩

/-- **C88.** The tests `apply_inverse_2` (except that of test_semi.cpp, C74) pass with any check that
accepts equal numbers, in every arithmetic that is exact for integers up to 20. -/
theorem C88_inverse_2 {ι : Int → α} {lim : Int} (h : ExactOnIntegers ι ι ι lim) (hlim : 20 ≤ lim)
    (e : Env α) (hc : ∀ m, |m| ≤ 1 → e.close (ι m) (ι m) = true) (hl : e.localities = 1) (lit : Int → Nat → α)
    (hlit : ∀ m, |m| ≤ 5 → lit m 0 = ι m) (c : Case) (hm : c ∈ fixed_cases) (hN : c.N = 2)
    (hs : c.algorithm ≠ "semi") :
    apply_inverse e lit c = ND.pure (List.replicate (c.N * c.N) true) := by
  obtain ⟨hd, hN'⟩ := fixed_inDomain c hm fun h => hs h.1
  unfold apply_inverse
  rw [C49_identity]
  refine (ND.pure_bind _ _).trans ?_
  have hA := holds_vecA lit hN'
  refine fixed_pass e c _ _ _ _ (holds_vecB lit hN') fun B' hB' => ?_
  have e1 : ∀ i, i < 2 → ∀ j, j < 2 → |invA 2 i j| ≤ 5 ∧ |invB 2 i j| ≤ 5 := by decide
  have hd0 : inverse_digits c.N = 0 := by rw [hN]; rfl
  rw [hd0] at hB'
  rw [← hN] at e1
  refine ⟨_, hpx_main_integers (a := invA c.N) (b := invB c.N) h e c hd hl ?_ _ B' #[]
    (holds_congr hA fun i hi j hj => hlit _ (e1 i hi j hj).1) (holds_congr hB' fun i hi j hj => ?_),
    fun i hi j hj => ?_⟩
  · rw [hN]
    exact small_2 hlim
  · cases c.transposed with
    | false => exact hlit _ (e1 i hi j hj).2
    | true => exact hlit _ (e1 j hj i hi).2
  · rw [hN] at hi hj
    show e.close (ι (∑ k ∈ Finset.range c.N, invA c.N i k * invB c.N k j)) _ = true
    rw [hN, (inverse_2 i hi j hj).1]
    split
    · rw [hlit 1 (by decide)]; exact hc 1 (by decide)
    · rw [← h.zero]; exact hc 0 (by decide)

/-- **C88.** The same for `apply_inverse_2` of test_naive.cpp. -/
theorem C88_naive_2 {ι : Int → α} {lim : Int} (h : ExactOnIntegers ι ι ι lim) (hlim : 20 ≤ lim)
    (e : Env α) (hc : ∀ m, |m| ≤ 1 → e.close (ι m) (ι m) = true) (lit : Int → Nat → α)
    (hlit : ∀ m, |m| ≤ 5 → lit m 0 = ι m) :
    apply_inverse_naive e lit 2 = ND.pure (List.replicate 4 true) := by
  unfold apply_inverse_naive
  rw [C49_identity]
  refine (ND.pure_bind _ _).trans ?_
  have e1 : ∀ i, i < 2 → ∀ j, j < 2 → |invA 2 i j| ≤ 5 ∧ |invB 2 i j| ≤ 5 := by decide
  rw [C87_naive (a := invA 2) (b := invB 2) h (small_2 hlim) _ _
    (holds_congr (holds_vecA lit (.inl rfl)) fun i hi j hj => hlit _ (e1 i hi j hj).1)
    (holds_congr (holds_vecB lit (.inl rfl)) fun i hi j hj => hlit _ (e1 i hi j hj).2)]
  refine (ND.pure_bind _ _).trans ?_
  rw [checks_close e 2 _ _ fun i hi j hj => ?_]
  · rfl
  · show e.close (ι (∑ k ∈ Finset.range 2, invA 2 i k * invB 2 k j)) _ = true
    rw [(inverse_2 i hi j hj).1]
    split
    · rw [hlit 1 (by decide)]; exact hc 1 (by decide)
    · rw [← h.zero]; exact hc 0 (by decide)

private theorem rowMajor_getD (N : Nat) (f : Nat → Nat → α) (k : Nat) (hk : k < N * N) :
    (rowMajor N f).getD k Arith.zero = f (k / N) (k % N) := by
  have hN : 0 < N := Nat.pos_of_ne_zero (by rintro rfl; simp at hk)
  have h := holds_rect N N f (k / N) (Nat.div_lt_of_lt_mul hk) (k % N) (Nat.mod_lt _ hN)
  rw [Nat.div_add_mod' k N] at h
  rw [Array.getD_eq_getD_getElem?]
  exact congrArg (fun o => Option.getD o Arith.zero) h

private theorem checks_rowMajor (e : Env α) (N : Nat) (G H : Nat → Nat → α) :
    checks e N (rowMajor N G) (rowMajor N H) =
      .ok ((List.range (N * N)).map fun k => e.close (G (k / N) (k % N)) (H (k / N) (k % N))) := by
  rw [checks_ok e N _ _ (by simp [rowMajor, rect]) (by simp [rowMajor, rect])]
  refine congrArg Except.ok (List.map_congr_left fun k hk => ?_)
  rw [List.mem_range] at hk
  rw [rowMajor_getD N G k hk, rowMajor_getD N H k hk]

/-- **C88.** What the tests of test_naive.cpp compare, in any arithmetic: each element of the computed
product with the element of the identity matrix. -/
theorem C88_naive_compares (e : Env α) (lit : Int → Nat → α) (N : Nat) (hN : N = 2 ∨ N = 4 ∨ N = 8) :
    apply_inverse_naive e lit N = ND.pure ((List.range (N * N)).map fun k =>
      e.close (dot N (fun m => lit (invA N (k / N) m) 0) fun m => lit (invB N m (k % N)) (inverse_digits N))
        (if k / N = k % N then lit 1 0 else Arith.zero)) := by
  unfold apply_inverse_naive
  rw [C49_identity]
  refine (ND.pure_bind _ _).trans ?_
  rw [C01_naive N _ _ _ _ (holds_vecA lit hN) (holds_vecB lit hN)]
  refine (ND.pure_bind _ _).trans ?_
  rw [checks_rowMajor]
  rfl

/-- **C73.** What a test with random matrices compares, in any arithmetic: each element of the result of
`hpx_main` with the element of the naive product. -/
theorem C73_compares (e : Env α) (c : Case) (G : Nat → Nat → α)
    (h : hpx_main e c (rowMajor c.N fun i j => e.rand (i * c.N + j))
      (rowMajor c.N fun i j => e.rand (i * c.N + j)) #[] = ND.pure (rowMajor c.N G)) :
    random_matrices e c = ND.pure ((List.range (c.N * c.N)).map fun k =>
      e.close (G (k / c.N) (k % c.N)) (dot c.N (fun m => e.rand (k / c.N * c.N + m)) fun m =>
        e.rand (if c.transposed then k % c.N * c.N + m else m * c.N + k % c.N))) := by
  unfold random_matrices
  rw [C49_random]
  refine (ND.pure_bind _ _).trans ((ND.pure_bind _ _).trans ?_)
  rw [h]
  refine (ND.pure_bind _ _).trans ?_
  unfold reference
  cases c.transposed with
  | false =>
    rw [if_pos (by decide), C01_naive c.N _ _ _ _ (holds_rect _ _ _) (holds_rect _ _ _)]
    refine (ND.pure_bind _ _).trans ?_
    rw [checks_rowMajor]
    rfl
  | true =>
    rw [if_neg (by decide), C02_naive_transposed c.N _ _ _ _ (holds_rect _ _ _) (holds_rect _ _ _)]
    refine (ND.pure_bind _ _).trans ?_
    rw [checks_rowMajor]
    rfl

end General

section Float
variable {K : Type} [Field K] [LinearOrder K] [IsStrictOrderedRing K] {α : Type} [Arith α]

/-- The literals of the tests in double precision: small integers are exact, numbers between -1 and 1
have an error of at most `u`. -/
structure Literals (r : Rounding K α) (lit : Int → Nat → α) : Prop where
  int : ∀ m, |m| ≤ 8 → r.finite (lit m 0) ∧ r.value (lit m 0) = m
  decimal : ∀ (m : Int) (d : Nat), |m| ≤ 10 ^ d →
    r.finite (lit m d) ∧ |r.value (lit m d) - m / 10 ^ d| ≤ r.u

private theorem inverse_4 : (∀ i, i < 4 → ∀ j, j < 4 →
    |∑ k ∈ Finset.range 4, invA 4 i k * invB 4 k j - (if i = j then 1 else 0) * 10 ^ 10| * 10 ^ 10 ≤
      7 * 10 ^ 10 ∧ |invA 4 i j| ≤ 8 ∧ |invB 4 i j| ≤ 10 ^ 10) := by decide

private theorem inverse_8 : (∀ i, i < 8 → ∀ j, j < 8 →
    |∑ k ∈ Finset.range 8, invA 8 i k * invB 8 k j - (if i = j then 1 else 0) * 10 ^ 15| * 10 ^ 10 ≤
      7 * 10 ^ 15 ∧ |invA 8 i j| ≤ 8 ∧ |invB 8 i j| ≤ 10 ^ 15) := by decide

private theorem inverse_N {N : Nat} (hN : N = 4 ∨ N = 8) : (∀ i, i < N → ∀ j, j < N →
    |∑ k ∈ Finset.range N, invA N i k * invB N k j - (if i = j then 1 else 0) * 10 ^ inverse_digits N| *
      10 ^ 10 ≤ 7 * 10 ^ inverse_digits N ∧ |invA N i j| ≤ 8 ∧ |invB N i j| ≤ 10 ^ inverse_digits N) := by
  rcases hN with rfl | rfl
  · exact inverse_4
  · exact inverse_8

variable {r : Rounding K α} {lit : Int → Nat → α} {N : Nat}

private def litA (lit : Int → Nat → α) (N i j : Nat) : α := lit (invA N i j) 0
private def litB (lit : Int → Nat → α) (N i j : Nat) : α := lit (invB N i j) (inverse_digits N)

private theorem value_A (hlit : Literals r lit) (hN : N = 4 ∨ N = 8) {i j : Nat} (hi : i < N) (hj : j < N) :
    r.finite (litA lit N i j) ∧ r.value (litA lit N i j) = invA N i j ∧
      |r.value (litA lit N i j)| ≤ 8 := by
  have h := (inverse_N hN i hi j hj).2.1
  obtain ⟨h1, h2⟩ := hlit.int _ h
  refine ⟨h1, h2, ?_⟩
  rw [litA, h2]
  exact_mod_cast h

private theorem value_B (hlit : Literals r lit) (hu : r.u ≤ 1 / 2 ^ 52) (hN : N = 4 ∨ N = 8) {i j : Nat}
    (hi : i < N) (hj : j < N) : r.finite (litB lit N i j) ∧
      |r.value (litB lit N i j) - invB N i j / 10 ^ inverse_digits N| ≤ r.u ∧
      |r.value (litB lit N i j)| ≤ 2 := by
  have h := (inverse_N hN i hi j hj).2.2
  obtain ⟨h1, h2⟩ := hlit.decimal _ _ h
  refine ⟨h1, h2, ?_⟩
  have h3 : |(invB N i j : K) / 10 ^ inverse_digits N| ≤ 1 := by
    rw [abs_div, abs_of_pos (by positivity : (0 : K) < 10 ^ inverse_digits N),
      div_le_one (by positivity)]
    exact_mod_cast h
  have h4 : r.value (litB lit N i j) = (r.value (litB lit N i j) - invB N i j / 10 ^ inverse_digits N) +
      invB N i j / 10 ^ inverse_digits N := by ring
  rw [h4]
  have h5 : (1 : K) / 2 ^ 52 ≤ 1 := by norm_num
  exact (abs_add_le _ _).trans (by unfold litB; linarith)

private theorem cast_le (hN : N = 4 ∨ N = 8) : (N : K) ≤ 8 := by
  rcases hN with rfl | rfl <;> norm_num

private theorem inverse_noOverflow (hu : r.u ≤ 1 / 2 ^ 52) (hη : r.η ≤ 1 / 2 ^ 52) (hΩ : 4096 ≤ r.Ω)
    (hlit : Literals r lit) (hN : N = 4 ∨ N = 8) :
    NoOverflow r N (N + 70) (N + 256) (litA lit N) (litB lit N) := by
  have hN8 := cast_le (K := K) hN
  have hN0 : (0 : K) ≤ N := Nat.cast_nonneg _
  refine C85_no_overflow (c := 8) (d := 2)
    (fun i hi j hj => ⟨(value_A hlit hN hi hj).1, (value_B hlit hu hN hi hj).1⟩)
    (fun i hi j hj => (value_A hlit hN hi hj).2.2) (fun i hi j hj => (value_B hlit hu hN hi hj).2.2) ?_ ?_
  · push_cast
    have e1 : ((N : K) + 70) * r.u ≤ 78 * (1 / 2 ^ 52) :=
      mul_le_mul (by linarith) hu r.u_nonneg (by norm_num)
    have n1 : (2 : K) * (78 * (1 / 2 ^ 52)) ≤ 1 := by norm_num
    linarith
  · push_cast
    have e2 : ((N : K) + 256) * r.η ≤ 264 * (1 / 2 ^ 52) :=
      mul_le_mul (by linarith) hη r.η_nonneg (by norm_num)
    have n2 : (2 : K) * (8 * (8 * 2) + 264 * (1 / 2 ^ 52)) ≤ 4096 := by norm_num
    linarith

private theorem inverse_entry (hu : r.u ≤ 1 / 2 ^ 52) (hlit : Literals r lit) (hN : N = 4 ∨ N = 8)
    {i j : Nat} (hi : i < N) (hj : j < N) :
    |exactEntry r N (litA lit N) (litB lit N) i j - (if i = j then 1 else 0)| ≤
      64 * r.u + 7 / 10 ^ 10 := by
  have hN8 := cast_le (K := K) hN
  have hp : (0 : K) < 10 ^ inverse_digits N := by positivity
  have h1 : |∑ k ∈ Finset.range N, (invA N i k : K) *
      (r.value (litB lit N k j) - invB N k j / 10 ^ inverse_digits N)| ≤ N * (8 * r.u) := by
    refine (Finset.abs_sum_le_sum_abs _ _).trans ?_
    have := Finset.sum_le_card_nsmul (Finset.range N) (fun k => |(invA N i k : K) *
      (r.value (litB lit N k j) - invB N k j / 10 ^ inverse_digits N)|) (8 * r.u) fun k hk => by
        rw [Finset.mem_range] at hk
        rw [abs_mul]
        refine mul_le_mul ?_ (value_B hlit hu hN hk hj).2.1 (abs_nonneg _) (by norm_num)
        exact_mod_cast (inverse_N hN i hi k hk).2.1
    rwa [Finset.card_range, nsmul_eq_mul] at this
  have h2 : |(∑ k ∈ Finset.range N, (invA N i k : K) * (invB N k j / 10 ^ inverse_digits N)) -
      (if i = j then 1 else 0)| ≤ 7 / 10 ^ 10 := by
    have h := (inverse_N hN i hi j hj).1
    have h' : |∑ k ∈ Finset.range N, (invA N i k : K) * invB N k j -
        (if i = j then 1 else 0) * 10 ^ inverse_digits N| * 10 ^ 10 ≤ 7 * 10 ^ inverse_digits N := by
      exact_mod_cast h
    have e : (∑ k ∈ Finset.range N, (invA N i k : K) * (invB N k j / 10 ^ inverse_digits N)) -
        (if i = j then 1 else 0) = (∑ k ∈ Finset.range N, (invA N i k : K) * invB N k j -
          (if i = j then 1 else 0) * 10 ^ inverse_digits N) / 10 ^ inverse_digits N := by
      rw [sub_div, mul_div_assoc, div_self hp.ne', mul_one, Finset.sum_div]
      congr 1
      exact Finset.sum_congr rfl fun k _ => by rw [mul_div_assoc]
    rw [e, abs_div, abs_of_pos hp, div_le_div_iff₀ hp (by norm_num)]
    exact h'
  have e : exactEntry r N (litA lit N) (litB lit N) i j - (if i = j then 1 else 0) =
      (∑ k ∈ Finset.range N, (invA N i k : K) *
        (r.value (litB lit N k j) - invB N k j / 10 ^ inverse_digits N)) +
      ((∑ k ∈ Finset.range N, (invA N i k : K) * (invB N k j / 10 ^ inverse_digits N)) -
        (if i = j then 1 else 0)) := by
    rw [← add_sub_assoc, ← Finset.sum_add_distrib]
    congr 1
    unfold exactEntry
    refine Finset.sum_congr rfl fun k hk => ?_
    rw [Finset.mem_range] at hk
    rw [(value_A hlit hN hi hk).2.1]
    ring
  rw [e]
  have hu0 := r.u_nonneg
  have h3 : (N : K) * (8 * r.u) ≤ 8 * (8 * r.u) := mul_le_mul_of_nonneg_right hN8 (by linarith)
  exact (abs_add_le _ _).trans (by linarith)

/-- Whatever approximates the product is within `1E-9` of the identity. -/
private theorem inverse_close (hu : r.u ≤ 1 / 2 ^ 52) (hη : r.η ≤ 1 / 2 ^ 52) (hlit : Literals r lit)
    (hN : N = 4 ∨ N = 8) {x : α} {i j : Nat} (hi : i < N) (hj : j < N)
    (h : |r.value x - exactEntry r N (litA lit N) (litB lit N) i j| ≤
      r.bound (N + 70) (N + 256) (absEntry r N (litA lit N) (litB lit N) i j)) :
    |r.value x - r.value (if i = j then lit 1 0 else Arith.zero)| ≤ 1 / 10 ^ 9 := by
  have hN8 := cast_le (K := K) hN
  have hN0 : (0 : K) ≤ N := Nat.cast_nonneg _
  have hu0 := r.u_nonneg
  have hη0 := r.η_nonneg
  have hv : r.value (if i = j then lit 1 0 else Arith.zero) = (if i = j then 1 else 0) := by
    split
    · rw [(hlit.int 1 (by decide)).2, Int.cast_one]
    · exact r.zero_value
  rw [hv]
  have h1 := inverse_entry hu hlit hN hi hj
  have hW0 : 0 ≤ absEntry r N (litA lit N) (litB lit N) i j := Rounding.sum_abs_nonneg _ _
  have hW : absEntry r N (litA lit N) (litB lit N) i j ≤ N * (8 * 2) :=
    absEntry_le (fun i hi j hj => (value_A hlit hN hi hj).2.2)
      (fun i hi j hj => (value_B hlit hu hN hi hj).2.2) i j hi hj
  have e1 : ((N : K) + 70) * r.u ≤ 78 * (1 / 2 ^ 52) :=
    mul_le_mul (by linarith) hu hu0 (by norm_num)
  have e2 : ((N : K) + 256) * r.η ≤ 264 * (1 / 2 ^ 52) :=
    mul_le_mul (by linarith) hη hη0 (by norm_num)
  have hb := C85_bound (r := r) (N + 70) (N + 256) _ hW0 (by
    push_cast
    have n1 : (2 : K) * (78 * (1 / 2 ^ 52)) ≤ 1 := by norm_num
    linarith)
  push_cast at hb
  have e3 : ((N : K) + 70) * r.u * absEntry r N (litA lit N) (litB lit N) i j ≤
      78 * (1 / 2 ^ 52) * 128 := mul_le_mul e1 (by linarith) hW0 (by norm_num)
  have n3 : (64 : K) * (1 / 2 ^ 52) + 7 / 10 ^ 10 +
      (2 * (78 * (1 / 2 ^ 52) * 128) + 2 * (264 * (1 / 2 ^ 52))) ≤ 1 / 10 ^ 9 := by norm_num
  have e4 : r.value x - (if i = j then 1 else 0) =
      (r.value x - exactEntry r N (litA lit N) (litB lit N) i j) +
      (exactEntry r N (litA lit N) (litB lit N) i j - (if i = j then 1 else 0)) := by ring
  rw [e4]
  exact (abs_add_le _ _).trans (by linarith)

/-- **C88.** The tests `apply_inverse_4` and `apply_inverse_8` pass in double precision: it is enough
that the check accepts differences of up to a tenth of its tolerance `1E-8`. -/
theorem C88_inverse (r : Rounding K α) (hu : r.u ≤ 1 / 2 ^ 52) (hη : r.η ≤ 1 / 2 ^ 52)
    (hΩ : 4096 ≤ r.Ω) (e : Env α) (lit : Int → Nat → α) (hlit : Literals r lit)
    (hclose : ∀ x y, r.finite x → r.finite y → |r.value x - r.value y| ≤ 1 / 10 ^ 9 →
      e.close x y = true)
    (hl : e.localities = 1) (c : Case) (hm : c ∈ fixed_cases) (hN : c.N ≠ 2) :
    apply_inverse e lit c = ND.pure (List.replicate (c.N * c.N) true) := by
  obtain ⟨hd, hN'⟩ := fixed_inDomain c hm fun h => hN h.2
  have hN4 : c.N = 4 ∨ c.N = 8 := hN'.resolve_left hN
  unfold apply_inverse
  rw [C49_identity]
  refine (ND.pure_bind _ _).trans ?_
  refine fixed_pass e c _ _ (litB lit c.N) _ (holds_vecB lit hN') fun B' hB' => ?_
  obtain ⟨G, h1, h2⟩ := hpx_main_approx (a := litA lit c.N) e c hd hl _ B' #[] (holds_vecA lit hN') hB'
    (inverse_noOverflow hu hη hΩ hlit hN4)
  refine ⟨G, h1, fun i hi j hj => ?_⟩
  obtain ⟨f1, g1⟩ := h2 i hi j hj
  refine hclose _ _ f1 ?_ (inverse_close hu hη hlit hN4 hi hj g1)
  split
  · exact (hlit.int 1 (by decide)).1
  · exact r.zero_finite

/-- **C88.** The same for test_naive.cpp (whose tolerance is `1E-5`). -/
theorem C88_naive (r : Rounding K α) (hu : r.u ≤ 1 / 2 ^ 52) (hη : r.η ≤ 1 / 2 ^ 52)
    (hΩ : 4096 ≤ r.Ω) (e : Env α) (lit : Int → Nat → α) (hlit : Literals r lit)
    (hclose : ∀ x y, r.finite x → r.finite y → |r.value x - r.value y| ≤ 1 / 10 ^ 9 →
      e.close x y = true) (N : Nat) (hN : N = 4 ∨ N = 8) :
    apply_inverse_naive e lit N = ND.pure (List.replicate (N * N) true) := by
  unfold apply_inverse_naive
  rw [C49_identity]
  refine (ND.pure_bind _ _).trans ?_
  have hno := inverse_noOverflow hu hη hΩ hlit hN
  obtain ⟨G, h1, h2⟩ := (C85_naive (a := litA lit N) (b := litB lit N) _ _ (holds_vecA lit (.inr hN))
    (holds_vecB lit (.inr hN)) (hno.mono (by omega) (by omega))).mono (n' := N + 70) (m' := N + 256)
      (fun _ => by omega) (by omega)
  rw [h1]
  refine (ND.pure_bind _ _).trans ?_
  rw [checks_close e N _ _ fun i hi j hj => ?_]
  · rfl
  · obtain ⟨f1, g1⟩ := h2 i hi j hj
    refine hclose _ _ f1 ?_ (inverse_close hu hη hlit hN hi hj g1)
    split
    · exact (hlit.int 1 (by decide)).1
    · exact r.zero_finite

end Float

section Examples
open FixedPoint

private def env (tol : Int) : Env Int where
  rand _ := 0
  close x y := |x - y| ≤ tol
  localities := 1
  junk _ := #[]

private def lit (m : Int) (d : Nat) : Int := m * 2 ^ 60 / 10 ^ d

private theorem lit_ok : @Literals ℚ _ _ _ Int fixed60 fixedRounding lit := by
  refine @Literals.mk ℚ _ _ _ Int fixed60 _ _ (fun m _ => ⟨trivial, ?_⟩) fun m d _ => ⟨trivial, ?_⟩
  · show ((m * 2 ^ 60 / 10 ^ 0 : Int) : ℚ) / 2 ^ 60 = m
    rw [pow_zero, Int.ediv_one]
    rw [div_eq_iff (by norm_num)]
    norm_num
  · show |((m * 2 ^ 60 / 10 ^ d : Int) : ℚ) / 2 ^ 60 - m / 10 ^ d| ≤ 1 / 2 ^ 52
    have hp : (0 : Int) < 10 ^ d := by positivity
    have hp' : (0 : ℚ) < 10 ^ d := by positivity
    have h1 := Int.emod_nonneg (m * 2 ^ 60) hp.ne'
    have h2 := (Int.emod_lt_of_pos (m * 2 ^ 60) hp).le
    have h3 : m * 2 ^ 60 / 10 ^ d * 10 ^ d + m * 2 ^ 60 % 10 ^ d = m * 2 ^ 60 := Int.ediv_mul_add_emod _ _
    generalize m * 2 ^ 60 / 10 ^ d = q at *
    generalize m * 2 ^ 60 % 10 ^ d = t at *
    have h1' : (0 : ℚ) ≤ t := by exact_mod_cast h1
    have h2' : (t : ℚ) ≤ 10 ^ d := by exact_mod_cast h2
    have h3' : (q : ℚ) * 10 ^ d + t = m * 2 ^ 60 := by exact_mod_cast h3
    have e : (q : ℚ) / 2 ^ 60 - m / 10 ^ d = -(t / 10 ^ d) / 2 ^ 60 := by
      field_simp
      linarith
    have e' : (t : ℚ) / 10 ^ d ≤ 1 := by rw [div_le_one hp']; exact h2'
    rw [e, abs_div, abs_neg, abs_of_nonneg (div_nonneg h1' hp'.le), abs_of_pos (by norm_num),
      div_le_div_iff₀ (by norm_num) (by norm_num)]
    linarith

-- apply_inverse_8 of test_semi.cpp
example : @apply_inverse Int fixed60 (env (2 ^ 32)) lit ⟨"semi", 8, true, 1, 1, 1, 0, 0⟩ =
    ND.pure (List.replicate 64 true) := by
  refine @C88_inverse ℚ _ _ _ Int fixed60 fixedRounding (le_refl _) ?_ (le_refl _) _ lit lit_ok ?_ rfl
    ⟨"semi", 8, true, 1, 1, 1, 0, 0⟩ (by decide) (by decide)
  · show (1 : ℚ) / 2 ^ 60 ≤ _
    norm_num
  · intro x y _ _ h
    have h' : |(x : ℚ) / 2 ^ 60 - (y : ℚ) / 2 ^ 60| ≤ 1 / 10 ^ 9 := h
    rw [← sub_div, abs_div, abs_of_pos (by norm_num : (0 : ℚ) < 2 ^ 60), div_le_iff₀ (by norm_num)] at h'
    have h2 : |(x : ℚ) - y| ≤ 2 ^ 32 := h'.trans (by norm_num)
    show decide (|x - y| ≤ 2 ^ 32) = true
    rw [decide_eq_true_iff]
    exact_mod_cast h2

/-- fixed-point numbers are exact for integers -/
private theorem fixed_int : @ExactOnIntegers Int fixed60 (fun x => x * 2 ^ 60) (fun x => x * 2 ^ 60)
    (fun x => x * 2 ^ 60) 20 := by
  refine @ExactOnIntegers.mk Int fixed60 _ _ _ 20 rfl rfl rfl (fun x y _ _ _ => ?_) fun c x y _ _ _ _ _ => ?_
  · show x * 2 ^ 60 + y * 2 ^ 60 = (x + y) * 2 ^ 60
    ring
  · show c * 2 ^ 60 + x * 2 ^ 60 * (y * 2 ^ 60) / 2 ^ 60 = (c + x * y) * 2 ^ 60
    rw [show x * 2 ^ 60 * (y * 2 ^ 60) = x * y * 2 ^ 60 * 2 ^ 60 by ring,
      Int.mul_ediv_cancel _ (by decide)]
    ring

-- apply_inverse_2_transposed of test_pseudodynamic.cpp passes even with tolerance 0
example : @apply_inverse Int fixed60 (env 0) lit ⟨"pseudodynamic", 2, true, 1, 1, 1, 0, 0⟩ =
    ND.pure (List.replicate 4 true) :=
  @C88_inverse_2 Int fixed60 _ 20 fixed_int (le_refl _) (env 0) (fun x _ => by simp [env]) rfl lit
    (fun m _ => by show m * 2 ^ 60 / 10 ^ 0 = _; rw [pow_zero, Int.ediv_one])
    ⟨"pseudodynamic", 2, true, 1, 1, 1, 0, 0⟩ (by decide) rfl (by decide)

/-- With a check that is never satisfied all comparisons fail. -/
example : @apply_inverse_naive Int (exact Int) { env 0 with close := fun _ _ => false } (fun m _ => m) 2 =
    ND.pure (List.replicate 4 false) :=
  (@C88_naive_compares Int (exact Int) _ _ 2 (.inl rfl)).trans rfl

example : ∃ l, @random_matrices Int (exact Int) (env 0) ⟨"semi", 4, true, 4, 1, 1, 0, 0⟩ = ND.pure l ∧
    l.length = 16 :=
  ⟨_, @C73_compares Int (exact Int) (env 0) ⟨"semi", 4, true, 4, 1, 1, 0, 0⟩ _
    (hpx_main_product (R := Int) (env 0) _ (.inr (.inr (.inr (.inl ⟨rfl, rfl, by decide, by decide,
      by decide⟩)))) rfl _ _ _ _ _ (holds_rect _ _ _) (holds_rect _ _ _)), by simp⟩

end Examples
end Verif.Props
