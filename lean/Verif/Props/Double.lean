import Verif.Proof.Double
import Verif.Props.TestsInverse
import Verif.Props.DriverFloat
/-
C97: the statements about floating-point arithmetic (C83 to C88) hold for IEEE double precision, with
the comparisons of the unit tests and of the driver program.
-/
namespace Verif.Props
open Verif.IEEE

/-- **C97.** Sums, products and fused operations of finite doubles are finite unless they exceed the
largest double, and no double is nearer to the exact result. -/
theorem C97_nearest (c x y : Double) (hc : c.finite) (hx : x.finite) (hy : y.finite) (z : Double) :
    (|x.value + y.value| ≤ maxDouble → (x.add y).finite ∧
      |(x.add y).value - (x.value + y.value)| ≤ |z.value - (x.value + y.value)|) ∧
    (|x.value * y.value| ≤ maxDouble → (x.mul y).finite ∧
      |(x.mul y).value - x.value * y.value| ≤ |z.value - x.value * y.value|) ∧
    (|c.value + x.value * y.value| ≤ maxDouble → (Double.fma c x y).finite ∧
      |(Double.fma c x y).value - (c.value + x.value * y.value)| ≤
        |z.value - (c.value + x.value * y.value)|) := by
  refine ⟨fun h => ?_, fun h => ?_, fun h => ?_⟩
  · obtain ⟨h1, h2⟩ := Double.add_value hx hy h
    exact ⟨h1, by rw [h2]; exact roundNum_nearest _ z.isDouble_value⟩
  · obtain ⟨h1, h2⟩ := Double.mul_value hx hy h
    exact ⟨h1, by rw [h2]; exact roundNum_nearest _ z.isDouble_value⟩
  · obtain ⟨h1, h2⟩ := Double.fma_value hc hx hy h
    exact ⟨h1, by rw [h2]; exact roundNum_nearest _ z.isDouble_value⟩

/-- **C97.** Doubles satisfy the assumptions of C85, C86 and C88 with `u = 2^-53`, `η = 2^-1075` and
the largest double, whether products are fused or not. -/
theorem C97_standard_model (fuse : Double → Double → Double → Bool) :
    letI := Double.arith fuse
    ∃ r : Rounding ℚ Double, r.value = Double.value ∧
      r.finite = Double.finite ∧ r.u = 2 ^ (-53 : ℤ) ∧ r.η = 2 ^ (-1075 : ℤ) ∧ r.Ω = maxDouble :=
  ⟨Double.rounding fuse, rfl, rfl, rfl, rfl, rfl⟩

/-- **C97.** Doubles satisfy the assumption of C87 up to `2^53`, also for integers with common scales. -/
theorem C97_integers (fuse : Double → Double → Double → Bool) (s t : ℤ) (hs : -1074 ≤ s ∧ s ≤ 970)
    (ht : -1074 ≤ t ∧ t ≤ 970) (hst : -1074 ≤ s + t ∧ s + t ≤ 970) :
    @ExactOnIntegers Double (Double.arith fuse) (Double.ofInt s) (Double.ofInt t) (Double.ofInt (s + t))
      (2 ^ 53) :=
  Double.exact_int fuse hs.1 hs.2 ht.1 ht.2 hst.1 hst.2

/-- **C97.** The limit is sharp: integers up to `2^53 + 1` are not exact. -/
theorem C97_integers_sharp (fuse : Double → Double → Double → Bool) :
    ¬ @ExactOnIntegers Double (Double.arith fuse) (Double.ofInt 0) (Double.ofInt 0) (Double.ofInt 0)
      (2 ^ 53 + 1) := by
  intro h
  have h1 : Double.add (Double.ofInt 0 (2 ^ 53 + 1)) (Double.ofInt 0 (-1)) = Double.ofInt 0 (2 ^ 53) :=
    @ExactOnIntegers.add Double (Double.arith fuse) _ _ _ _ h (2 ^ 53 + 1) (-1) (by norm_num)
      (by norm_num) (by norm_num)
  have h2 : Double.ofInt 0 (2 ^ 53 + 1) = Double.ofInt 0 (2 ^ 53) := by
    apply Subtype.ext
    rw [Double.ofInt_num (n := 2 ^ 53) (by norm_num) (by norm_num) (by norm_num) (by norm_num)]
    show Ext.round (if _ then _ else _) = _
    rw [if_neg (by norm_num)]
    have e1 : ¬ 2 ^ (1024 : ℤ) ≤ |roundNum (((2 ^ 53 + 1 : ℤ) : ℚ) * 2 ^ (0 : ℤ))| := by decide +kernel
    have e2 : roundNum (((2 ^ 53 + 1 : ℤ) : ℚ) * 2 ^ (0 : ℤ)) = ((2 ^ 53 : ℤ) : ℚ) * 2 ^ (0 : ℤ) := by
      decide +kernel
    refine (if_neg e1).trans ?_
    rw [e2]
    exact if_neg (by norm_num)
  rw [h2, Double.add_int (by norm_num) (by norm_num) (by norm_num) (by norm_num) (by norm_num)] at h1
  have h3 := congrArg Subtype.val h1
  rw [Double.ofInt_num (by norm_num) (by norm_num) (by norm_num) (by norm_num),
    Double.ofInt_num (by norm_num) (by norm_num) (by norm_num) (by norm_num)] at h3
  injection h3 with h3
  norm_num at h3

theorem u_le52 : (2 : ℚ) ^ (-53 : ℤ) ≤ 1 / 2 ^ 52 := by norm_num

theorem η_le {k : ℤ} (h : -1075 ≤ k) : (2 : ℚ) ^ (-1075 : ℤ) ≤ 2 ^ k := two_zpow_le h

theorem η_le52 : (2 : ℚ) ^ (-1075 : ℤ) ≤ 1 / 2 ^ 52 :=
  (η_le (by norm_num)).trans (le_of_eq (by norm_num) : (2 : ℚ) ^ (-52 : ℤ) ≤ 1 / 2 ^ 52)

private theorem le_max {k : ℤ} (h : k ≤ 1023) : (2 : ℚ) ^ k ≤ maxDouble := by
  unfold maxDouble
  refine (two_zpow_le h).trans ?_
  rw [show (1023 : ℤ) = 52 + 971 by norm_num, two_zpow_add]
  exact mul_le_mul_of_nonneg_right (by norm_num) (two_zpow_pos _).le

theorem max_4096 : (4096 : ℚ) ≤ maxDouble :=
  le_trans (le_of_eq (by norm_num)) (le_max (k := 12) (by norm_num))

/-- **C97.** The accuracy of C85 holds for all matrices of doubles up to `2^500` with less than `2^20`
rows: there is no overflow. -/
theorem C97_no_overflow (fuse : Double → Double → Double → Bool) {N n m : Nat}
    {a b : Nat → Nat → Double} (hN : N ≤ 2 ^ 20) (hn : n ≤ 2 ^ 52) (hm : m ≤ 2 ^ 64)
    (ha : ∀ i, i < N → ∀ j, j < N → (a i j).finite ∧ |(a i j).value| ≤ 2 ^ (500 : ℤ))
    (hb : ∀ i, i < N → ∀ j, j < N → (b i j).finite ∧ |(b i j).value| ≤ 2 ^ (500 : ℤ)) :
    @NoOverflow ℚ _ _ _ Double (Double.arith fuse) (Double.rounding fuse) N n m a b := by
  refine @C85_no_overflow ℚ _ _ _ Double (Double.arith fuse) (Double.rounding fuse) N a b _ _ n m
    (fun i hi j hj => ⟨(ha i hi j hj).1, (hb i hi j hj).1⟩) (fun i hi j hj => (ha i hi j hj).2)
    (fun i hi j hj => (hb i hi j hj).2) ?_ ?_
  · show 2 * (n : ℚ) * 2 ^ (-53 : ℤ) ≤ 1
    have : (n : ℚ) ≤ 2 ^ 52 := by exact_mod_cast hn
    have h := mul_le_mul_of_nonneg_right this (two_zpow_pos (-53)).le
    have e : (2 : ℚ) ^ 52 * 2 ^ (-53 : ℤ) = 1 / 2 := by norm_num
    rw [e] at h
    rw [mul_assoc]
    generalize (n : ℚ) * 2 ^ (-53 : ℤ) = X at *
    linarith
  · show 2 * ((N : ℚ) * (2 ^ (500 : ℤ) * 2 ^ (500 : ℤ)) + m * 2 ^ (-1075 : ℤ)) ≤ maxDouble
    have h1 : (N : ℚ) ≤ 2 ^ (20 : ℤ) := by exact_mod_cast hN
    have h2 : (m : ℚ) ≤ 2 ^ (64 : ℤ) := by exact_mod_cast hm
    have h3 := mul_le_mul_of_nonneg_right h1 (two_zpow_pos (500 + 500)).le
    have h4 := mul_le_mul_of_nonneg_right h2 (two_zpow_pos (-1075)).le
    rw [← two_zpow_add] at h3 h4
    rw [two_zpow_add] at h3
    have h5 := (two_zpow_le (show (64 + -1075 : ℤ) ≤ 20 + (500 + 500) by norm_num))
    have h6 := le_max (k := (20 + (500 + 500)) + 2) (by norm_num)
    rw [two_zpow_add _ 2] at h6
    have h7 : (2 : ℚ) ^ (2 : ℤ) = 4 := by norm_num
    rw [h7] at h6
    generalize (2 : ℚ) ^ (20 + (500 + 500) : ℤ) = X at *
    linarith

/-! ### The comparisons -/

theorem lit_int (m : Int) :
    Double.lit m 0 = Double.ofInt 0 m := by
  unfold Double.lit Double.ofInt
  congr 1
  norm_num

private theorem ofRat_value {q : ℚ} (h : |q| ≤ maxDouble) :
    (Double.ofRat q).finite ∧ (Double.ofRat q).value = roundNum q := by
  unfold Double.ofRat
  by_cases h0 : q = 0
  · rw [if_pos h0, h0]
    obtain ⟨h1, h2⟩ := Double.ofExt_finite (x := .zero false) trivial (by rw [h0] at h; exact h)
    exact ⟨h1, h2⟩
  · rw [if_neg h0]
    exact Double.ofExt_finite (x := .num q) trivial h

private theorem small_one : (1 : ℚ) ≤ maxDouble :=
  le_trans (by norm_num) max_4096

/-- A literal between -1 and 1 is off by at most `2^-53`. -/
theorem ofRat_err {q : ℚ} (h : |q| ≤ 1) :
    (Double.ofRat q).finite ∧ |(Double.ofRat q).value - q| ≤ 2 ^ (-53 : ℤ) * |q| + 2 ^ (-1075 : ℤ) := by
  obtain ⟨h1, h2⟩ := ofRat_value (h.trans small_one)
  refine ⟨h1, ?_⟩
  rw [h2]
  have hu := two_zpow_pos (-53)
  have hη := two_zpow_pos (-1075)
  rcases roundNum_law q with ⟨δ, h3, h4⟩ | ⟨-, ε, h3, h4⟩
  · rw [h4, show q * (1 + δ) - q = δ * q by ring, abs_mul]
    have := mul_le_mul_of_nonneg_right h3 (abs_nonneg q)
    linarith
  · rw [h4, add_sub_cancel_left]
    have := mul_nonneg hu.le (abs_nonneg q)
    linarith

/-- The literal `1E-k`. -/
private theorem lit_lower (k : Nat) (hk : k ≤ 10) : (9 / 10 : ℚ) * (1 / 10 ^ k) ≤ (Double.lit 1 k).value := by
  have hp : (0 : ℚ) < 10 ^ k := by positivity
  have h1 : |(1 : ℚ) / 10 ^ k| = 1 / 10 ^ k := abs_of_pos (by positivity)
  have h10 : (10 : ℚ) ^ k ≤ 10 ^ 10 := pow_le_pow_right₀ (by norm_num) hk
  have h11 : (1 : ℚ) / 10 ^ 10 ≤ 1 / 10 ^ k := one_div_le_one_div_of_le hp h10
  have h12 : (1 : ℚ) / 10 ^ k ≤ 1 := by
    rw [div_le_one hp]
    exact one_le_pow₀ (by norm_num)
  obtain ⟨-, h2⟩ := ofRat_err (q := 1 / 10 ^ k) (by rw [h1]; exact h12)
  rw [h1] at h2
  have e : Double.lit 1 k = Double.ofRat (1 / 10 ^ k) := by unfold Double.lit; rw [Int.cast_one]
  rw [e]
  have h3 := (abs_le.1 h2).1
  have h4 : (2 : ℚ) ^ (-53 : ℤ) ≤ 1 / 100 := by norm_num
  have h5 : (2 : ℚ) ^ (-1075 : ℤ) ≤ 1 / 100 * (1 / 10 ^ 10) :=
    (η_le (k := -52) (by norm_num)).trans (by norm_num)
  have h6 := mul_le_mul_of_nonneg_right h4 (show (0 : ℚ) ≤ 1 / 10 ^ k by positivity)
  linarith

private theorem absLt_finite {x : Double} (hx : x.finite) {t : ℚ} (h : |x.value| < t) :
    Double.absLt x t = true := by
  obtain ⟨x, hd⟩ := x
  cases x with
  | nan => exact absurd hx id
  | inf => exact absurd hx id
  | zero s =>
    have h' : |(0 : ℚ)| < t := h
    rw [abs_zero] at h'
    exact decide_eq_true h'
  | num q => exact decide_eq_true h

/-- `BOOST_CHECK_SMALL(fabs(x - y), 1E-k)` accepts differences up to half the tolerance. -/
theorem small_accepts (k : Nat) (hk : k ≤ 10) {x y : Double} (hx : x.finite) (hy : y.finite)
    (h : |x.value - y.value| ≤ 1 / 2 * (1 / 10 ^ k)) : Double.small (Double.lit 1 k) x y = true := by
  have hp : (0 : ℚ) < 10 ^ k := by positivity
  have h12 : (1 : ℚ) / 10 ^ k ≤ 1 := by
    rw [div_le_one hp]
    exact one_le_pow₀ (by norm_num)
  have h10 : (10 : ℚ) ^ k ≤ 10 ^ 10 := pow_le_pow_right₀ (by norm_num) hk
  have h11 : (1 : ℚ) / 10 ^ 10 ≤ 1 / 10 ^ k := one_div_le_one_div_of_le hp h10
  obtain ⟨h1, h2⟩ := Double.sub_value hx hy (h.trans (by linarith [small_one]))
  refine absLt_finite h1 (lt_of_lt_of_le ?_ (lit_lower k hk))
  rw [h2]
  generalize x.value - y.value = d at *
  have h3 : |roundNum d| ≤ |d| * (1 + 2 ^ (-53 : ℤ)) + 2 ^ (-1075 : ℤ) := by
    have hu := two_zpow_pos (-53)
    have hη := two_zpow_pos (-1075)
    have h0 := mul_nonneg (abs_nonneg d) hu.le
    rcases roundNum_law d with ⟨δ, h3, h4⟩ | ⟨-, ε, h3, h4⟩
    · rw [h4, abs_mul]
      have h5 : |1 + δ| ≤ 1 + 2 ^ (-53 : ℤ) := (abs_add_le _ _).trans (by rw [abs_one]; linarith)
      have := mul_le_mul_of_nonneg_left h5 (abs_nonneg d)
      linarith
    · rw [h4]
      exact (abs_add_le _ _).trans (by linarith)
  have h4 : (1 : ℚ) + 2 ^ (-53 : ℤ) ≤ 11 / 10 := by norm_num
  have h5 : (2 : ℚ) ^ (-1075 : ℤ) ≤ 1 / 100 * (1 / 10 ^ 10) :=
    (η_le (k := -52) (by norm_num)).trans (by norm_num)
  have h6 := mul_le_mul_of_nonneg_left h4 (abs_nonneg d)
  have h7 : (0 : ℚ) < 1 / 10 ^ k := by positivity
  have h8 : (1 : ℚ) / 100 * (1 / 10 ^ 10) ≤ 1 / 100 * (1 / 10 ^ k) :=
    mul_le_mul_of_nonneg_left h11 (by norm_num)
  have h9 := h5.trans h8
  have h13 := h3.trans (add_le_add h6 h9)
  clear h3 h5 h6 h9 h8
  generalize (1 : ℚ) / 10 ^ k = X at *
  linarith

/-- `x - x` is zero. -/
theorem sub_self_zero {x : Double} (hx : x.finite) : ∃ s, (Double.sub x x).1 = .zero s := by
  obtain ⟨x, hd⟩ := x
  cases x with
  | nan => exact absurd hx id
  | inf => exact absurd hx id
  | zero s => exact ⟨_, rfl⟩
  | num q =>
    refine ⟨false, ?_⟩
    show Ext.round (if q + -q = 0 then .zero false else .num (q + -q)) = _
    rw [if_pos (by ring)]
    rfl

/-! ### The unit tests -/

/-- **C97.** All tests with random matrices in the repository except `random_matrices_2` of
test_semi.cpp pass with doubles, in every execution on one locality, for all random numbers from -1 to
1, compiled with fused operations or without. -/
theorem C97_all_random (fuse : Double → Double → Double → Bool) (e : Tests.Env Double)
    (hrand : ∀ k, (e.rand k).finite ∧ |(e.rand k).value| ≤ 1)
    (hclose : e.close = Double.small (Double.lit 1 8)) (hl : e.localities = 1) (c : Tests.Case)
    (hm : c ∈ Tests.random_cases) (hs : ¬ (c.algorithm = "semi" ∧ c.N = 2)) :
    @Tests.random_matrices Double (Double.arith fuse) e c =
      ND.pure (List.replicate (c.N * c.N) true) :=
  @C86_all_random ℚ _ _ _ Double (Double.arith fuse) (Double.rounding fuse) u_le52 η_le52 max_4096 e hrand
    (fun x y hx hy h => by
      rw [hclose]
      exact small_accepts 8 (by decide) hx hy (h.trans (by norm_num))) hl c hm hs

private theorem literals (fuse : Double → Double → Double → Bool) :
    @Literals ℚ _ _ _ Double (Double.arith fuse) (Double.rounding fuse) Double.lit := by
  refine @Literals.mk ℚ _ _ _ Double (Double.arith fuse) (Double.rounding fuse) Double.lit
    (fun m hm => ?_) fun m d hm => ?_
  · show (Double.lit m 0).finite ∧ (Double.lit m 0).value = m
    have hm' : |m| ≤ 2 ^ 53 := hm.trans (by norm_num)
    have hd : IsDouble (m : ℚ) := by
      have := Double.isDouble_int (s := 0) hm' (by norm_num) (by norm_num)
      rwa [zpow_zero, mul_one] at this
    have e : Double.lit m 0 = Double.ofRat m := by unfold Double.lit; rw [pow_zero, div_one]
    obtain ⟨h1, h2⟩ := ofRat_value (q := m) (le_maxDouble hd)
    rw [e]
    exact ⟨h1, h2.trans (roundNum_exact hd)⟩
  · show (Double.lit m d).finite ∧ |(Double.lit m d).value - m / 10 ^ d| ≤ 2 ^ (-53 : ℤ)
    have hp : (0 : ℚ) < 10 ^ d := by positivity
    have h1 : |(m : ℚ) / 10 ^ d| ≤ 1 := by
      rw [abs_div, abs_of_pos hp, div_le_one hp]
      exact_mod_cast hm
    obtain ⟨h2, h3⟩ := ofRat_value (q := m / 10 ^ d) (h1.trans small_one)
    refine ⟨h2, ?_⟩
    show |(Double.ofRat _).value - _| ≤ _
    rw [h3]
    rcases roundNum_law ((m : ℚ) / 10 ^ d) with ⟨δ, h4, h5⟩ | ⟨-, ε, h4, h5⟩
    · rw [h5, show (m : ℚ) / 10 ^ d * (1 + δ) - m / 10 ^ d = δ * (m / 10 ^ d) by ring, abs_mul]
      have := mul_le_mul h4 h1 (abs_nonneg _) (two_zpow_pos (-53)).le
      rwa [mul_one] at this
    · rw [h5, add_sub_cancel_left]
      exact h4.trans (two_zpow_le (by norm_num))

theorem finite_int {m : Int} (hm : |m| ≤ 1) : (Double.ofInt 0 m).finite := by
  rw [Double.finite_iff, Double.ext_ofInt (hm.trans (by norm_num)) (by norm_num) (by norm_num)]
  split <;> trivial

private theorem exact_int0 (fuse : Double → Double → Double → Bool) :
    @ExactOnIntegers Double (Double.arith fuse) (Double.ofInt 0) (Double.ofInt 0) (Double.ofInt 0)
      (2 ^ 53) :=
  C97_integers fuse 0 0 (by norm_num) (by norm_num) (by norm_num)

/-- **C97.** The tests `apply_inverse_2`, with either of their checks (`BOOST_CHECK_CLOSE` in line 67
or 68 of the files, `BOOST_CHECK_SMALL` if `B` is transposed for test_single.cpp and test_pseudodynamic.cpp),
`apply_inverse_4` and `apply_inverse_8` pass with doubles, with literals rounded to nearest. -/
theorem C97_inverse (fuse : Double → Double → Double → Bool) (rel : Double → Double → Bool)
    (e : Tests.Env Double) (hl : e.localities = 1) (c : Tests.Case) (hm : c ∈ Tests.fixed_cases)
    (hs : ¬ (c.algorithm = "semi" ∧ c.N = 2))
    (hclose : e.close = Double.small (Double.lit 1 8) ∨ c.N = 2 ∧ e.close = Double.close rel) :
    @Tests.apply_inverse Double (Double.arith fuse) e Double.lit c =
      ND.pure (List.replicate (c.N * c.N) true) := by
  by_cases hN : c.N = 2
  · refine @C88_inverse_2 Double (Double.arith fuse) (Double.ofInt 0) (2 ^ 53) (exact_int0 fuse)
      (by norm_num) e (fun m hm => ?_) hl Double.lit (fun m _ => lit_int m) c hm hN
      fun h => hs ⟨h, hN⟩
    rcases hclose with hclose | ⟨-, hclose⟩
    · rw [hclose]
      refine small_accepts 8 (by decide) (finite_int hm) (finite_int hm) ?_
      rw [sub_self, abs_zero]
      positivity
    · rw [hclose]
      obtain ⟨s, h⟩ := sub_self_zero (finite_int hm)
      unfold Double.close
      rw [h]
  · have hclose := hclose.resolve_right fun h => hN h.1
    exact @C88_inverse ℚ _ _ _ Double (Double.arith fuse) (Double.rounding fuse) u_le52 η_le52 max_4096 e
      Double.lit (literals fuse) (fun x y hx hy h => by
        rw [hclose]
        exact small_accepts 8 (by decide) hx hy (h.trans (by norm_num))) hl c hm hN

/-- **C97.** The tests of test_naive.cpp pass with doubles. -/
theorem C97_naive (fuse : Double → Double → Double → Bool) (e : Tests.Env Double) (N : Nat)
    (hN : N = 2 ∨ N = 4 ∨ N = 8) (hclose : e.close = Double.small (Double.lit 1 5)) :
    @Tests.apply_inverse_naive Double (Double.arith fuse) e Double.lit N =
      ND.pure (List.replicate (N * N) true) := by
  rcases hN with rfl | hN
  · refine @C88_naive_2 Double (Double.arith fuse) (Double.ofInt 0) (2 ^ 53) (exact_int0 fuse)
      (by norm_num) e (fun m hm => ?_) Double.lit fun m _ => lit_int m
    rw [hclose]
    refine small_accepts 5 (by decide) (finite_int hm) (finite_int hm) ?_
    rw [sub_self, abs_zero]
    positivity
  · exact @C88_naive ℚ _ _ _ Double (Double.arith fuse) (Double.rounding fuse) u_le52 η_le52 max_4096 e
      Double.lit (literals fuse) (fun x y hx hy h => by
        rw [hclose]
        exact small_accepts 5 (by decide) hx hy (h.trans (by norm_num))) N hN

/-! ### The driver program -/

/-- Finite and not the negative zero. -/
def Drawn (x : Double) : Prop := x.finite ∧ x.1 ≠ .zero true

private theorem mac_one {x : Double} (hx : Drawn x) (fuse : Double → Double → Double → Bool) :
    (Double.arith fuse).mac Double.zero x (Double.lit 1 0) = x := by
  have h1 : (Double.lit 1 0).1 = .num 1 := by
    rw [lit_int, Double.ofInt_num (by norm_num) (by norm_num) (by norm_num) (by norm_num)]
    norm_num
  have hm : x.1.mul (Double.lit 1 0).1 = x.1 := by
    rw [h1]
    obtain ⟨⟨x, hd⟩, hf, hz⟩ := x, hx
    cases x with
    | nan => rfl
    | inf => exact absurd hf id
    | zero s =>
      cases s with
      | true => exact absurd rfl hz
      | false =>
        show Ext.zero (false ^^ decide ((1 : ℚ) < 0)) = _
        rw [decide_eq_false (by norm_num)]
        rfl
    | num q => show Ext.num (q * 1) = _; rw [mul_one]
  have ha : Ext.add (Double.zero).1 x.1 = x.1 := by
    obtain ⟨⟨x, hd⟩, hf, hz⟩ := x, hx
    cases x with
    | nan => rfl
    | inf => rfl
    | zero s =>
      cases s with
      | true => exact absurd rfl hz
      | false => rfl
    | num q => rfl
  apply Subtype.ext
  show (if fuse _ _ _ then Double.fma _ _ _ else Double.add _ (Double.mul _ _)).1 = _
  split
  · show Ext.round (Ext.add _ (Ext.mul _ _)) = _
    rw [hm, ha]
    exact Ext.round_exact x.2
  · show Ext.round (Ext.add _ (Ext.round (Ext.mul _ _))) = _
    rw [hm, Ext.round_exact x.2, ha]
    exact Ext.round_exact x.2

private theorem add_zero' {x : Double} (hx : Drawn x) (s : Bool) : Ext.add x.1 (.zero s) = x.1 := by
  obtain ⟨⟨x, hd⟩, hf, hz⟩ := x, hx
  cases x with
  | nan => rfl
  | inf => rfl
  | zero t =>
    cases t with
    | true => exact absurd rfl hz
    | false => rfl
  | num q => rfl

private theorem mul_zero' {y : Double} (hy : Drawn y) : ∃ s, y.1.mul (Double.zero).1 = .zero s := by
  obtain ⟨⟨y, hd⟩, hf, hz⟩ := y, hy
  cases y with
  | nan => exact absurd hf id
  | inf => exact absurd hf id
  | zero s => exact ⟨_, rfl⟩
  | num q => exact ⟨_, rfl⟩

private theorem mac_zero {x y : Double} (hx : Drawn x) (hy : Drawn y)
    (fuse : Double → Double → Double → Bool) : (Double.arith fuse).mac x y Double.zero = x := by
  obtain ⟨s, hs⟩ := mul_zero' hy
  apply Subtype.ext
  show (if fuse _ _ _ then Double.fma _ _ _ else Double.add _ (Double.mul _ _)).1 = _
  split
  · show Ext.round (Ext.add _ (Ext.mul _ _)) = _
    rw [hs, add_zero' hx]
    exact Ext.round_exact x.2
  · show Ext.round (Ext.add _ (Ext.round (Ext.mul _ _))) = _
    rw [hs]
    show Ext.round (Ext.add _ (.zero s)) = _
    rw [add_zero' hx]
    exact Ext.round_exact x.2

private theorem drawn_zero : Drawn Double.zero := ⟨trivial, fun h => by injection h with h; cases h⟩

/-- **C97.** Doubles satisfy the assumptions of C83 and C84. -/
theorem C97_identity (fuse : Double → Double → Double → Bool) (e : Driver.Env Double)
    (hone : e.one = Double.lit 1 0) (hrand : ∀ p, Drawn (e.rand p)) :
    @ExactForIdentity Double (Double.arith fuse) e := by
  have hd : ∀ x, (x = Double.zero ∨ ∃ p, x = e.rand p) → Drawn x := by
    rintro x (rfl | ⟨p, rfl⟩)
    · exact drawn_zero
    · exact hrand p
  refine @ExactForIdentity.mk Double (Double.arith fuse) e (fun p => ?_) (fun x y hx hy => ?_)
    (fun x hx => ?_) fun x hx => ?_
  · rw [hone]
    exact mac_one (hrand p) fuse
  · exact mac_zero (hd x hx) (hd y hy) fuse
  · apply Subtype.ext
    obtain ⟨⟨x, h1⟩, hf, hz⟩ := x, hd x hx
    cases x with
    | nan => exact absurd hf id
    | inf => exact absurd hf id
    | zero s =>
      cases s with
      | true => exact absurd rfl hz
      | false => rfl
    | num q => exact Ext.round_exact h1
  · apply Subtype.ext
    show Ext.round (Ext.add x.1 (.zero false)) = _
    rw [add_zero' (hd x hx)]
    exact Ext.round_exact x.2

/-- **C97.** The driver program with doubles: with admissible parameters every run ends with status 0,
the result is the matrix `A` bit for bit, and the check `std::abs(first - second) < 1E-10` passes. -/
theorem C97_driver (fuse : Double → Double → Double → Bool) (e : Driver.Env Double)
    (hone : e.one = Double.lit 1 0) (hrand : ∀ p, Drawn (e.rand p))
    (hclose : e.close = Double.small (Double.lit 1 10)) (o : Driver.Opts) (hh : o.help = false)
    (h : @Admissible Double e o) :
    @Driver.main Double (Double.arith fuse) e o =
      ND.pure (passed e o (rowMajor o.N (@Driver.entryA Double e o.N))) := by
  refine @C84_check_passes Double (Double.arith fuse) e (C97_identity fuse e hone hrand) (fun p => ?_) o hh h
  rw [hclose]
  refine small_accepts 10 (by decide) (hrand p).1 (hrand p).1 ?_
  rw [sub_self, abs_zero]
  positivity

section Examples

-- known facts about doubles: 0.1, ties, underflow, overflow, lost associativity
example : roundNum (1 / 10) = 3602879701896397 / 2 ^ 55 := by decide +kernel
example : roundNum (2 ^ 53 + 1) = 2 ^ 53 ∧ roundNum (2 ^ 53 + 3) = 2 ^ 53 + 4 := by decide +kernel
example : roundNum (3 * 2 ^ (-1076 : ℤ)) = 2 ^ (-1074 : ℤ) ∧ roundNum (2 ^ (-1075 : ℤ)) = 0 := by
  decide +kernel
example : roundNum (maxDouble + 2 ^ (970 : ℤ)) = 2 ^ (1024 : ℤ) := by decide +kernel
example : roundNum (roundNum (roundNum (1 / 10) + roundNum (2 / 10)) + roundNum (3 / 10)) ≠
    roundNum (roundNum (1 / 10) + roundNum (roundNum (2 / 10) + roundNum (3 / 10))) := by
  decide +kernel

/-- numbers from 0 to 0.9 -/
def sampleNumbers (k : Nat) : Double := Double.lit (k % 10 : Nat) 1

theorem sampleNumbers_ok (k : Nat) : (sampleNumbers k).finite ∧ |(sampleNumbers k).value| ≤ 1 := by
  have h : k % 10 < 10 := Nat.mod_lt _ (by decide)
  have h0 : ((k % 10 : Nat) : ℚ) ≤ 9 := by exact_mod_cast (by omega : k % 10 ≤ 9)
  have h1 : (0 : ℚ) ≤ (k % 10 : Nat) := Nat.cast_nonneg _
  have h2 : |(((k % 10 : Nat) : Int) : ℚ) / 10 ^ 1| ≤ 9 / 10 := by
    rw [Int.cast_natCast, abs_of_nonneg (by positivity)]
    linarith
  obtain ⟨h3, h4⟩ := ofRat_err (q := (((k % 10 : Nat) : Int) : ℚ) / 10 ^ 1) (h2.trans (by norm_num))
  refine ⟨h3, ?_⟩
  show |(Double.ofRat _).value| ≤ 1
  have h5 := abs_sub_abs_le_abs_sub (Double.ofRat ((((k % 10 : Nat) : Int) : ℚ) / 10 ^ 1)).value
    ((((k % 10 : Nat) : Int) : ℚ) / 10 ^ 1)
  have h6 : (2 : ℚ) ^ (-53 : ℤ) * |(((k % 10 : Nat) : Int) : ℚ) / 10 ^ 1| ≤ 1 / 100 * (9 / 10) :=
    mul_le_mul (by norm_num) h2 (abs_nonneg _) (by norm_num)
  have h7 : (2 : ℚ) ^ (-1075 : ℤ) ≤ 1 / 100 := (η_le (k := -52) (by norm_num)).trans (by norm_num)
  have h8 := (h5.trans h4).trans (add_le_add h6 h7)
  linarith

theorem sampleNumbers_drawn (k : Nat) : Drawn (sampleNumbers k) := by
  refine ⟨(sampleNumbers_ok k).1, ?_⟩
  have h : k % 10 < 10 := Nat.mod_lt _ (by decide)
  show (Double.lit (k % 10 : Nat) 1).1 ≠ _
  rcases Nat.eq_zero_or_pos (k % 10) with h0 | h0
  · rw [h0]
    have e : Double.lit ((0 : Nat) : Int) 1 = Double.zero := by
      unfold Double.lit Double.ofRat
      rw [if_pos (by norm_num)]
      rfl
    rw [e]
    exact drawn_zero.2
  · have hq : (((k % 10 : Nat) : Int) : ℚ) / 10 ^ 1 ≠ 0 := by
      have : (0 : ℚ) < (k % 10 : Nat) := by exact_mod_cast h0
      rw [Int.cast_natCast]
      positivity
    have hq' : ¬ (((k % 10 : Nat) : Int) : ℚ) / 10 ^ 1 < 0 := not_lt.2 (by positivity)
    show Ext.round (if _ then _ else _) ≠ _
    rw [if_neg hq]
    unfold Ext.round
    simp only [decide_eq_false hq']
    split
    · exact fun h => by cases h
    · split
      · exact fun h => by injection h with h; cases h
      · exact fun h => by cases h

private def never : Double → Double → Double → Bool := fun _ _ _ => false
private def always : Double → Double → Double → Bool := fun _ _ _ => true

private def env (t : Double → Double → Bool) : Tests.Env Double where
  rand := sampleNumbers
  close := t
  localities := 1
  junk _ := #[]

-- a test of test_combined.cpp, not fused, and one of test_single.cpp, fused
example : @Tests.random_matrices Double (Double.arith never) (env (Double.small (Double.lit 1 8)))
    ⟨"combined", 256, false, 128, 128, 1, 0, 0⟩ = ND.pure (List.replicate (256 * 256) true) :=
  C97_all_random never _ sampleNumbers_ok rfl rfl _ (by decide) (by decide)

example : @Tests.apply_inverse Double (Double.arith always) (env (Double.small (Double.lit 1 8)))
    Double.lit ⟨"semi", 8, true, 1, 1, 1, 0, 0⟩ = ND.pure (List.replicate 64 true) :=
  C97_inverse always (fun _ _ => false) _ rfl _ (by decide) (by decide) (.inl rfl)

-- the relative check of the tests of size 2 rejects all differences here
example : @Tests.apply_inverse Double (Double.arith always) (env (Double.close fun _ _ => false))
    Double.lit ⟨"pseudodynamic", 2, false, 1, 1, 1, 0, 0⟩ = ND.pure (List.replicate 4 true) :=
  C97_inverse always (fun _ _ => false) _ rfl _ (by decide) (by decide) (.inr ⟨rfl, rfl⟩)

example : @Tests.apply_inverse_naive Double (Double.arith never) (env (Double.small (Double.lit 1 5)))
    Double.lit 4 = ND.pure (List.replicate 16 true) :=
  C97_naive never _ 4 (.inr (.inl rfl)) rfl

private def driver : Driver.Env Double where
  one := Double.lit 1 0
  rand := sampleNumbers
  close := Double.small (Double.lit 1 10)
  absDiff x y := Double.sub x y
  root := true
  localities := 3
  relOk _ _ := false
  junk _ := #[]

private def opts : Driver.Opts := { Driver.Globals.init (α := Double) |>.o with
  N := 100, algorithm := "kernel_tiled", repetitions := 2, check := true, transposed := true }

example : @Driver.main Double (Double.arith always) driver opts =
    ND.pure (passed driver opts (rowMajor 100 (Driver.entryA driver 100))) :=
  C97_driver always driver rfl sampleNumbers_drawn rfl opts rfl (.kernel_tiled rfl (by decide))

-- products of integer matrices with doubles
example : @Combined.matrix_multiply Double (Double.arith always) Combined.blocking 8
    (rowMajor 8 (asFloat (Double.ofInt 0) fun i k => (i : Int) - k))
    (rowMajor 8 (asFloat (Double.ofInt 0) fun k j => (k : Int) * j)) 3 =
    ND.pure (rowMajor 8 (asFloat (Double.ofInt 0) fun i j =>
      3 * ∑ k ∈ Finset.range 8, ((i : Int) - k) * ((k : Int) * j))) :=
  @C87_combined Double (Double.arith always) _ _ _ _ 8 (fun i k => (i : Int) - k)
    (fun k j => (k : Int) * j) (exact_int0 always) 3 _ _ (by unfold Entries; decide) (by decide)
    (holds_rect 8 8 (asFloat (Double.ofInt 0) fun i k => (i : Int) - k))
    (holds_rect 8 8 (asFloat (Double.ofInt 0) fun k j => (k : Int) * j))

-- the error bound of C85 applies to matrices of such numbers
example : @NoOverflow ℚ _ _ _ Double (Double.arith never) (Double.rounding never) 1000 1070 1256
    (fun i j => sampleNumbers (i * 1000 + j)) (fun i j => sampleNumbers (i + j)) :=
  C97_no_overflow never (by norm_num) (by norm_num) (by norm_num)
    (fun i _ j _ => ⟨(sampleNumbers_ok _).1, (sampleNumbers_ok _).2.trans (one_le_zpow₀ (by norm_num) (by norm_num))⟩)
    (fun i _ j _ => ⟨(sampleNumbers_ok _).1, (sampleNumbers_ok _).2.trans (one_le_zpow₀ (by norm_num) (by norm_num))⟩)

end Examples
end Verif.Props
