import Verif.Model.Report
import Verif.Proof.DoubleUse
/-
Relative errors of products and quotients of doubles.
-/
namespace Verif.Report
open IEEE Double

/-- `x` is a positive double that differs from `q` by at most `k` relative errors of `2^-53`. -/
structure Near (k : Nat) (x : Double) (q : ℚ) : Prop where
  finite : x.finite
  lower : (1 - 2 ^ (-53 : ℤ)) ^ k * q ≤ x.value
  upper : x.value ≤ (1 + 2 ^ (-53 : ℤ)) ^ k * q

theorem u_pos : (0 : ℚ) < 2 ^ (-53 : ℤ) := two_zpow_pos _

theorem u_le : (2 : ℚ) ^ (-53 : ℤ) ≤ 1 / 2 ^ 10 :=
  (two_zpow_le (by norm_num)).trans (le_of_eq (by norm_num : (2 : ℚ) ^ (-10 : ℤ) = 1 / 2 ^ 10))

theorem low_nonneg : (0 : ℚ) ≤ 1 - 2 ^ (-53 : ℤ) := by
  have := u_le
  norm_num at this ⊢

/-- A few relative errors do not change the order of magnitude. -/
theorem low_half {k : Nat} (hk : k ≤ 8) : (1 / 2 : ℚ) ≤ (1 - 2 ^ (-53 : ℤ)) ^ k := by
  have h1 : (1 - 1 / 2 ^ 10 : ℚ) ^ k ≤ (1 - 2 ^ (-53 : ℤ)) ^ k :=
    pow_le_pow_left₀ (by norm_num) (by have := u_le; linarith) k
  have h2 : (1 - 1 / 2 ^ 10 : ℚ) ^ 8 ≤ (1 - 1 / 2 ^ 10 : ℚ) ^ k :=
    pow_le_pow_of_le_one (by norm_num) (by norm_num) hk
  have h3 : (1 / 2 : ℚ) ≤ (1 - 1 / 2 ^ 10) ^ 8 := by norm_num
  exact h3.trans (h2.trans h1)

theorem up_two {k : Nat} (hk : k ≤ 8) : (1 + 2 ^ (-53 : ℤ) : ℚ) ^ k ≤ 2 := by
  have h1 : (1 + 2 ^ (-53 : ℤ) : ℚ) ^ k ≤ (1 + 1 / 2 ^ 10 : ℚ) ^ k :=
    pow_le_pow_left₀ (by have := u_pos; linarith) (by have := u_le; linarith) k
  have h2 : (1 + 1 / 2 ^ 10 : ℚ) ^ k ≤ (1 + 1 / 2 ^ 10 : ℚ) ^ 8 :=
    pow_le_pow_right₀ (by norm_num) hk
  have h3 : (1 + 1 / 2 ^ 10 : ℚ) ^ 8 ≤ 2 := by norm_num
  exact h1.trans (h2.trans h3)

/-- Rounding is one more relative error, away from the ends of the range. -/
theorem near_round {k : Nat} {q v : ℚ} (hk : k ≤ 8) (hq1 : 2 ^ (-1000 : ℤ) ≤ q) (hq2 : q ≤ 2 ^ (1000 : ℤ))
    (h1 : (1 - 2 ^ (-53 : ℤ)) ^ k * q ≤ v) (h2 : v ≤ (1 + 2 ^ (-53 : ℤ)) ^ k * q) :
    |v| ≤ maxDouble ∧ (1 - 2 ^ (-53 : ℤ)) ^ (k + 1) * q ≤ roundNum v ∧
      roundNum v ≤ (1 + 2 ^ (-53 : ℤ)) ^ (k + 1) * q := by
  have hq0 : 0 < q := (two_zpow_pos _).trans_le hq1
  have hlo : 2 ^ (-1001 : ℤ) ≤ v := by
    have e : (2 : ℚ) ^ (-1000 : ℤ) = 2 ^ (-1001 : ℤ) * 2 := by
      rw [show (-1000 : ℤ) = -1001 + 1 by norm_num, two_zpow_add]; norm_num
    have := mul_le_mul_of_nonneg_right (low_half hk) hq0.le
    refine le_trans ?_ (this.trans h1)
    rw [e] at hq1
    generalize (2 : ℚ) ^ (-1001 : ℤ) = z at hq1
    linarith
  have hhi : v ≤ 2 ^ (1001 : ℤ) := by
    have e : (2 : ℚ) ^ (1001 : ℤ) = 2 ^ (1000 : ℤ) * 2 := by
      rw [show (1001 : ℤ) = 1000 + 1 by norm_num, two_zpow_add]; norm_num
    have := mul_le_mul_of_nonneg_right (up_two hk) hq0.le
    refine (h2.trans this).trans ?_
    rw [e]
    generalize (2 : ℚ) ^ (1000 : ℤ) = z at hq2
    linarith
  have hv0 : 0 < v := (two_zpow_pos _).trans_le hlo
  refine ⟨?_, ?_⟩
  · rw [abs_of_pos hv0]
    refine hhi.trans ?_
    have := le_maxDouble (isDouble_two_zpow (e := 971) (by norm_num) (by norm_num))
    unfold maxDouble
    rw [show (1001 : ℤ) = 30 + 971 by norm_num, two_zpow_add]
    exact mul_le_mul_of_nonneg_right (by norm_num) (two_zpow_pos _).le
  · rcases roundNum_law v with ⟨δ, hδ, e⟩ | ⟨hs, -⟩
    · rw [e]
      have hδ' := abs_le.1 hδ
      rw [pow_succ, pow_succ]
      constructor
      · have a1 := mul_le_mul_of_nonneg_right h1 low_nonneg
        have a2 := mul_le_mul_of_nonneg_left (show (1 - 2 ^ (-53 : ℤ) : ℚ) ≤ 1 + δ by linarith) hv0.le
        nlinarith
      · have a1 := mul_le_mul_of_nonneg_right h2 (show (0 : ℚ) ≤ 1 + 2 ^ (-53 : ℤ) by have := u_pos; linarith)
        have a2 := mul_le_mul_of_nonneg_left (show 1 + δ ≤ (1 + 2 ^ (-53 : ℤ) : ℚ) by linarith) hv0.le
        nlinarith
    · exfalso
      rw [abs_of_pos hv0] at hs
      have : (2 : ℚ) ^ (-1022 : ℤ) ≤ 2 ^ (-1001 : ℤ) := two_zpow_le (by norm_num)
      linarith

theorem Near.pos {k : Nat} {x : Double} {q : ℚ} (h : Near k x q) (hk : k ≤ 8) (hq : 0 < q) : 0 < x.value := by
  have := mul_le_mul_of_nonneg_right (low_half hk) hq.le
  exact lt_of_lt_of_le (by linarith) (this.trans h.lower)

theorem near_exact {x : Double} (hx : x.finite) : Near 0 x x.value := ⟨hx, by simp, by simp⟩

/-- A product with an exact number. -/
theorem Near.mul {k : Nat} {x y : Double} {q : ℚ} (h : Near k x q) (hk : k ≤ 8) (hy : y.finite)
    (hy0 : 0 ≤ y.value) (h1 : 2 ^ (-1000 : ℤ) ≤ q * y.value) (h2 : q * y.value ≤ 2 ^ (1000 : ℤ)) :
    Near (k + 1) (Double.mul x y) (q * y.value) := by
  have a1 := mul_le_mul_of_nonneg_right h.lower hy0
  have a2 := mul_le_mul_of_nonneg_right h.upper hy0
  rw [mul_assoc] at a1 a2
  obtain ⟨b1, b2, b3⟩ := near_round hk h1 h2 a1 a2
  obtain ⟨c1, c2⟩ := mul_value h.finite hy b1
  exact ⟨c1, by rwa [c2], by rwa [c2]⟩

theorem mul_comm (x y : Double) : Double.mul x y = Double.mul y x := by
  unfold Double.mul
  congr 1
  rcases x.1 with _ | s | s | p <;> rcases y.1 with _ | t | t | q <;>
    simp [Ext.mul, Bool.xor_comm, _root_.mul_comm]

theorem div_value {x y : Double} (hx : x.finite) (hy : y.finite) (hx0 : x.value ≠ 0) (hy0 : y.value ≠ 0)
    (h : |x.value / y.value| ≤ maxDouble) :
    (Double.div x y).finite ∧ (Double.div x y).value = roundNum (x.value / y.value) := by
  have num : ∀ {z : Double}, z.finite → z.value ≠ 0 → z.1 = .num z.value := by
    intro z hz hz0
    unfold Double.finite at hz
    unfold Double.value at hz0 ⊢
    cases hz' : z.1 <;> simp_all
  unfold Double.div
  rw [num hx hx0, num hy hy0]
  exact ofExt_finite (x := .num (x.value / y.value)) trivial h

/-- A quotient by an exact number. -/
theorem Near.div {k : Nat} {x y : Double} {q : ℚ} (h : Near k x q) (hk : k ≤ 8) (hq : 0 < q) (hy : y.finite)
    (hy0 : 0 < y.value) (h1 : 2 ^ (-1000 : ℤ) ≤ q / y.value) (h2 : q / y.value ≤ 2 ^ (1000 : ℤ)) :
    Near (k + 1) (Double.div x y) (q / y.value) := by
  have a1 := div_le_div_of_nonneg_right h.lower hy0.le
  have a2 := div_le_div_of_nonneg_right h.upper hy0.le
  rw [mul_div_assoc] at a1 a2
  obtain ⟨b1, b2, b3⟩ := near_round hk h1 h2 a1 a2
  obtain ⟨c1, c2⟩ := div_value h.finite hy (h.pos hk hq).ne' hy0.ne' b1
  exact ⟨c1, by rwa [c2], by rwa [c2]⟩

/-! ### the reported numbers -/

theorem ofNat_value {n : Nat} (h : n ≤ 2 ^ 53) : (ofNat n).finite ∧ (ofNat n).value = n := by
  rcases Nat.eq_zero_or_pos n with rfl | h0
  · rw [ofNat_zero]
    exact ⟨trivial, by simp [zero_value]⟩
  · have := ofNat_exact h h0
    unfold Double.finite Double.value
    rw [this]
    exact ⟨trivial, rfl⟩

theorem isDouble_even {n : Nat} (h : n ≤ 2 ^ 53) : IsDouble (2 * n : Nat) := by
  have := isDouble_int (n := n) (s := 1) (by rw [Nat.abs_cast]; exact_mod_cast h) (by norm_num) (by norm_num)
  rw [zpow_one] at this
  push_cast
  rwa [_root_.mul_comm] at this

/-- A product of numbers that can be represented, if it can be represented. -/
theorem mul_exact {x y : Double} {m n : Nat} (hx : x.finite ∧ x.value = m) (hy : y.finite ∧ y.value = n)
    (h : IsDouble (m * n : Nat)) : (Double.mul x y).finite ∧ (Double.mul x y).value = (m * n : Nat) := by
  push_cast at h ⊢
  obtain ⟨h1, h2⟩ := mul_value hx.1 hy.1 (by rw [hx.2, hy.2]; exact le_maxDouble h)
  rw [hx.2, hy.2, roundNum_exact h] at h2
  exact ⟨h1, h2⟩

theorem twice_value {n : Nat} (h : n ≤ 2 ^ 53) :
    (Double.mul (ofNat 2) (ofNat n)).finite ∧ (Double.mul (ofNat 2) (ofNat n)).value = (2 * n : Nat) :=
  mul_exact (ofNat_value (by norm_num)) (ofNat_value h) (isDouble_even h)

theorem flops_value {X Y K : Nat} (hX : X ≤ 2 ^ 53) (hY : Y ≤ 2 ^ 53) (hK : K ≤ 2 ^ 53)
    (h : X * Y ≤ 2 ^ 53) (h' : IsDouble (2 * X * Y * K : Nat)) :
    (flops X Y K).finite ∧ (flops X Y K).value = (2 * X * Y * K : Nat) :=
  mul_exact (mul_exact (twice_value hX) (ofNat_value hY) (by rw [Nat.mul_assoc]; exact isDouble_even h))
    (ofNat_value hK) h'

theorem nat_range {n : Nat} (h0 : 0 < n) {k : Nat} (h : n ≤ 2 ^ k) (hk : k ≤ 1000) :
    (2 : ℚ) ^ (-1000 : ℤ) ≤ n ∧ (n : ℚ) ≤ 2 ^ (1000 : ℤ) := by
  constructor
  · have h1 : (2 : ℚ) ^ (-1000 : ℤ) ≤ 2 ^ (0 : ℤ) := two_zpow_le (by norm_num)
    rw [zpow_zero] at h1
    exact h1.trans (by exact_mod_cast h0)
  · have h1 : (2 : ℚ) ^ (k : ℤ) ≤ 2 ^ (1000 : ℤ) := two_zpow_le (by omega)
    rw [zpow_natCast] at h1
    exact le_trans (by exact_mod_cast h) h1

theorem flops_near {X Y K : Nat} (hX : X ≤ 2 ^ 53) (hY : Y ≤ 2 ^ 53) (hK : K ≤ 2 ^ 53) (hX0 : 0 < X)
    (hY0 : 0 < Y) (hK0 : 0 < K) : Near 2 (flops X Y K) (2 * X * Y * K : Nat) := by
  have h1 := twice_value hX
  have n1 := near_exact h1.1
  rw [h1.2] at n1
  have b1 : 2 * X * Y ≤ 2 ^ 54 * 2 ^ 53 := Nat.mul_le_mul (by omega) hY
  have b2 : 2 * X * Y * K ≤ 2 ^ 54 * 2 ^ 53 * 2 ^ 53 := Nat.mul_le_mul b1 hK
  have p1 : 0 < 2 * X * Y := Nat.mul_pos (by omega) hY0
  obtain ⟨c1, c2⟩ := nat_range (k := 107) p1 (by omega) (by norm_num)
  obtain ⟨d1, d2⟩ := nat_range (k := 160) (Nat.mul_pos p1 hK0) (by omega) (by norm_num)
  rw [Nat.cast_mul] at c1 c2 d1 d2
  rw [← (ofNat_value hY).2] at c1 c2
  have n2 := n1.mul (by norm_num) (ofNat_value hY).1 (by rw [(ofNat_value hY).2]; exact Nat.cast_nonneg _) c1 c2
  rw [(ofNat_value hY).2, ← Nat.cast_mul] at n2
  rw [← (ofNat_value hK).2] at d1 d2
  have n3 := n2.mul (by norm_num) (ofNat_value hK).1 (by rw [(ofNat_value hK).2]; exact Nat.cast_nonneg _) d1 d2
  rw [(ofNat_value hK).2, ← Nat.cast_mul] at n3
  exact n3

theorem lit_value {n : Nat} (h : n ≤ 2 ^ 53) : (lit n 0).finite ∧ (lit n 0).value = n := by
  have : lit n 0 = ofNat n := by
    unfold lit ofNat
    congr 1
    simp
  rw [this]
  exact ofNat_value h

end Verif.Report
