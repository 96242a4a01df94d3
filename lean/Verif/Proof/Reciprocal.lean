import Verif.Model.Reciprocal
import Verif.Proof.DoubleUse
import Verif.Proof.Combined
import Mathlib.Tactic.LinearCombination
/-
Helper lemmas about numbers of blocks computed with reciprocals.
-/
set_option linter.unusedSectionVars false
namespace Verif.Reciprocal
open IEEE IEEE.Double

/-! ### the quotient -/

/-- Rounding of a number that is neither tiny nor huge. -/
theorem roundNum_rel {q : ℚ} (h : (2 : ℚ) ^ (-1022 : ℤ) ≤ q) :
    ∃ δ, |δ| ≤ 2 ^ (-53 : ℤ) ∧ roundNum q = q * (1 + δ) := by
  rcases roundNum_law q with h1 | ⟨h1, -⟩
  · exact h1
  · exfalso
    rw [abs_of_pos ((two_zpow_pos _).trans_le h)] at h1
    exact absurd h1 (not_lt.2 h)

theorem small_pow {b : ℕ} (h0 : 0 < b) (hb : b < 2 ^ 53) : (2 : ℚ) ^ (-53 : ℤ) ≤ 1 / b := by
  rw [le_div_iff₀ (by exact_mod_cast h0)]
  have h1 : (b : ℚ) ≤ 2 ^ 53 := by exact_mod_cast hb.le
  have h2 := mul_le_mul_of_nonneg_left h1 (two_zpow_pos (-53)).le
  have h3 : (2 : ℚ) ^ (-53 : ℤ) * 2 ^ 53 = 1 := by norm_num
  linarith

theorem pow_tiny : (2 : ℚ) ^ (-1022 : ℤ) ≤ 2 ^ (-53 : ℤ) := two_zpow_le (by norm_num)

theorem recip_le_one {b : ℕ} (h0 : 0 < b) : (1 : ℚ) / b ≤ 1 := by
  rw [div_le_iff₀ (by exact_mod_cast h0), one_mul]
  exact_mod_cast h0

/-- The reciprocal as a double. -/
theorem recip_num {b : ℕ} (h0 : 0 < b) (hb : b < 2 ^ 53) :
    (div (ofNat 1) (ofNat b)).1 = .num (roundNum (1 / b)) ∧ 2 ^ (-53 : ℤ) ≤ roundNum (1 / b) ∧
      roundNum (1 / b) ≤ 1 := by
  have h1 : (2 : ℚ) ^ (-53 : ℤ) ≤ roundNum (1 / b) :=
    le_roundNum_of_le (isDouble_two_zpow (by norm_num) (by norm_num)) (small_pow h0 hb)
  have h2 : roundNum (1 / b) ≤ 1 := by
    have := roundNum_le_of_le (isDouble_nat (n := 1) (by norm_num)) (by simpa using recip_le_one h0)
    simpa using this
  refine ⟨?_, h1, h2⟩
  have e : (div (ofNat 1) (ofNat b)).1 = Ext.round (.num (1 / b)) := by
    show Ext.round (Ext.div _ _) = _
    rw [ofNat_exact hb.le h0, ofNat_exact (by norm_num) (by norm_num), Nat.cast_one]
    rfl
  rw [e]
  exact round_pos (.inr ((two_zpow_pos _).trans_le h1)) (h2.trans (by norm_num))

/-- The product with the reciprocal as a double. -/
theorem mul_num {a b : ℕ} (ha0 : 0 < a) (ha : a < 2 ^ 53) (h0 : 0 < b) (hb : b < 2 ^ 53) :
    (mul (ofNat a) (div (ofNat 1) (ofNat b))).1 = .num (roundNum (a * roundNum (1 / b))) := by
  obtain ⟨e, h1, h2⟩ := recip_num h0 hb
  have ha1 : (1 : ℚ) ≤ a := by exact_mod_cast ha0
  have e' : (mul (ofNat a) (div (ofNat 1) (ofNat b))).1 = Ext.round (.num (a * roundNum (1 / b))) := by
    show Ext.round (Ext.mul _ _) = _
    rw [e, ofNat_exact ha.le ha0]
    rfl
  rw [e']
  have h3 : (2 : ℚ) ^ (-53 : ℤ) ≤ a * roundNum (1 / b) := by nlinarith
  refine round_pos (.inr ?_) ?_
  · exact (two_zpow_pos _).trans_le
      (le_roundNum_of_le (isDouble_two_zpow (by norm_num) (by norm_num)) h3)
  · have h4 : (a : ℚ) * roundNum (1 / b) ≤ a := by nlinarith
    have h5 := roundNum_le_of_le (isDouble_nat ha.le) h4
    have h6 : (a : ℚ) ≤ 2 ^ 53 := by exact_mod_cast ha.le
    linarith

theorem ceilDiv_bounds {a b : ℕ} (h0 : 0 < b) (ha : 0 < a) :
    1 ≤ ceilDiv a b ∧ ceilDiv a b ≤ a ∧ (ceilDiv a b - 1) * b + 1 ≤ a ∧ a ≤ ceilDiv a b * b := by
  unfold ceilDiv
  have h1 := Nat.div_mul_le_self (a + b - 1) b
  have h2 := Nat.lt_div_mul_add (a := a + b - 1) h0
  refine ⟨?_, ?_, ?_, ?_⟩
  · rw [Nat.le_div_iff_mul_le h0]; omega
  · rw [← Nat.lt_succ_iff, Nat.div_lt_iff_lt_mul h0, Nat.succ_mul]
    have := Nat.le_mul_of_pos_right a h0
    omega
  · rw [Nat.sub_mul]; omega
  · omega

theorem count_zero {b : ℕ} (h0 : 0 < b) (hb : b < 2 ^ 53) : count true 0 b = .ok 0 := by
  obtain ⟨e, h1, h2⟩ := recip_num h0 hb
  have e' : ∃ s, (mul (ofNat 0) (div (ofNat 1) (ofNat b))).1 = .zero s := by
    refine ⟨false ^^ decide (roundNum (1 / b) < 0), ?_⟩
    show Ext.round (Ext.mul _ _) = _
    rw [e, ofNat_zero]
    rfl
  obtain ⟨s, e'⟩ := e'
  unfold count quotient
  rw [if_pos rfl]
  have h3 : ceil (mul (ofNat 0) (div (ofNat 1) (ofNat b))) = mul (ofNat 0) (div (ofNat 1) (ofNat b)) := by
    unfold ceil
    rw [e']
  rw [h3]
  unfold toSize
  rw [e']

theorem count_of {a b n : ℕ} (ha0 : 0 < a) (ha : a < 2 ^ 53) (h0 : 0 < b) (hb : b < 2 ^ 53)
    (hn0 : 1 ≤ n) (hn : n ≤ 2 ^ 53) (h1 : (n : ℚ) - 1 < roundNum (a * roundNum (1 / b)))
    (h2 : roundNum (a * roundNum (1 / b)) ≤ n) : count true a b = .ok n := by
  unfold count quotient
  rw [if_pos rfl]
  exact toSize_nat (ceil_num (mul_num ha0 ha h0 hb) hn0 hn h1 h2) (by omega)

/-- Two roundings. -/
theorem two_roundings {a b : ℕ} (ha0 : 0 < a) (h0 : 0 < b) (hb : b < 2 ^ 53) :
    ∃ ε, |ε| ≤ 2 ^ (-52 : ℤ) + 2 ^ (-106 : ℤ) ∧
      roundNum (a * roundNum (1 / b)) = a / b * (1 + ε) := by
  obtain ⟨e, h1, h2⟩ := recip_num h0 hb
  have ha1 : (1 : ℚ) ≤ a := by exact_mod_cast ha0
  obtain ⟨δ, hδ, e1⟩ := roundNum_rel (pow_tiny.trans (small_pow h0 hb))
  obtain ⟨γ, hγ, e2⟩ := roundNum_rel (q := a * roundNum (1 / b))
    (pow_tiny.trans (by nlinarith [two_zpow_pos (-53)]))
  refine ⟨δ + γ + δ * γ, ?_, ?_⟩
  · have h3 : |δ * γ| ≤ 2 ^ (-53 : ℤ) * 2 ^ (-53 : ℤ) := by
      rw [abs_mul]
      exact mul_le_mul hδ hγ (abs_nonneg _) (two_zpow_pos _).le
    have h4 : (2 : ℚ) ^ (-53 : ℤ) * 2 ^ (-53 : ℤ) = 2 ^ (-106 : ℤ) := by norm_num
    have h5 : (2 : ℚ) ^ (-52 : ℤ) = 2 * 2 ^ (-53 : ℤ) := by norm_num
    have := abs_add_le (δ + γ) (δ * γ)
    have := abs_add_le δ γ
    linarith
  · rw [e2, e1]
    ring

/-- The number of blocks, or one more if the blocks fill the range exactly. -/
theorem count_general {a b : ℕ} (ha : a < 2 ^ 52) (h0 : 0 < b) (hb : b < 2 ^ 53) :
    count true a b = .ok (ceilDiv a b) ∨
      0 < a ∧ b ∣ a ∧ count true a b = .ok (ceilDiv a b + 1) := by
  rcases Nat.eq_zero_or_pos a with rfl | ha0
  · left
    rw [count_zero h0 hb]
    exact congrArg _ (Nat.div_eq_of_lt (by omega)).symm
  obtain ⟨hn1, hna, hlo, hhi⟩ := ceilDiv_bounds h0 ha0
  obtain ⟨ε, hε, e⟩ := two_roundings ha0 h0 hb
  generalize ceilDiv a b = n at *
  have hb' : (0 : ℚ) < b := by exact_mod_cast h0
  have ha1 : (1 : ℚ) ≤ a := by exact_mod_cast ha0
  -- the error is less than `1 / b`
  have herr : |(a : ℚ) * ε| < 1 := by
    have h1 : (a : ℚ) ≤ 2 ^ 52 - 1 := by
      have : a + 1 ≤ 2 ^ 52 := ha
      have : (a : ℚ) + 1 ≤ 2 ^ 52 := by exact_mod_cast this
      linarith
    rw [abs_mul, abs_of_pos (by linarith)]
    refine lt_of_le_of_lt (mul_le_mul h1 hε (abs_nonneg _) (by norm_num)) ?_
    norm_num
  rw [abs_lt] at herr
  have e' : roundNum (a * roundNum (1 / b)) = (a + a * ε) / b := by rw [e]; ring
  have h1 : (((n - 1) * b + 1 : ℕ) : ℚ) ≤ a := by exact_mod_cast hlo
  have h2 : (a : ℚ) ≤ ((n * b : ℕ) : ℚ) := by exact_mod_cast hhi
  rw [Nat.cast_add, Nat.cast_mul, Nat.cast_sub hn1] at h1
  rw [Nat.cast_mul] at h2
  push_cast at h1 h2
  have hlow : (n : ℚ) - 1 < roundNum (a * roundNum (1 / b)) := by
    rw [e', lt_div_iff₀ hb']
    linarith
  rcases Nat.lt_or_ge a (n * b) with hlt | hge
  · left
    refine count_of ha0 (by omega) h0 hb hn1 (by omega) hlow ?_
    rw [e', div_le_iff₀ hb']
    have h3 : ((a + 1 : ℕ) : ℚ) ≤ ((n * b : ℕ) : ℚ) := by exact_mod_cast hlt
    push_cast at h3
    linarith
  · have hab : a = n * b := by omega
    rcases le_or_gt (roundNum (a * roundNum (1 / b))) n with h | h
    · left
      exact count_of ha0 (by omega) h0 hb hn1 (by omega) hlow h
    · right
      refine ⟨ha0, hab ▸ Nat.dvd_mul_left b n, ?_⟩
      refine count_of ha0 (by omega) h0 hb (by omega) (by omega) (by push_cast; linarith) ?_
      rw [e', div_le_iff₀ hb']
      push_cast
      have h4 : (1 : ℚ) ≤ b := by exact_mod_cast h0
      linarith

/-- Blocks whose size is a power of two. -/
theorem count_pow2 {a k : ℕ} (ha : a < 2 ^ 53) (hk : k < 53) :
    count true a (2 ^ k) = .ok (ceilDiv a (2 ^ k)) := by
  have h0 : 0 < 2 ^ k := Nat.two_pow_pos k
  have hb : 2 ^ k < 2 ^ 53 := Nat.pow_lt_pow_right (by norm_num) hk
  rcases Nat.eq_zero_or_pos a with rfl | ha0
  · rw [count_zero h0 hb]
    exact congrArg _ (Nat.div_eq_of_lt (by omega)).symm
  obtain ⟨hn1, hna, hlo, hhi⟩ := ceilDiv_bounds h0 ha0
  have e1 : (1 : ℚ) / (2 ^ k : ℕ) = 2 ^ (-(k : ℤ)) := by
    rw [zpow_neg, zpow_natCast]; push_cast; rw [one_div]
  have e2 : roundNum (1 / (2 ^ k : ℕ)) = 1 / (2 ^ k : ℕ) := by
    rw [e1]
    exact roundNum_exact (isDouble_two_zpow (by omega) (by omega))
  have e3 : roundNum (a * roundNum (1 / (2 ^ k : ℕ))) = a / (2 ^ k : ℕ) := by
    rw [e2, e1]
    have : IsDouble ((a : ℤ) * 2 ^ (-(k : ℤ))) :=
      ⟨a, _, by rw [Nat.abs_cast]; exact_mod_cast ha, by omega, by omega, rfl⟩
    rw [Int.cast_natCast] at this
    rw [roundNum_exact this, ← e1]
    ring
  generalize ceilDiv a (2 ^ k) = n at *
  have hb' : (0 : ℚ) < (2 ^ k : ℕ) := by exact_mod_cast h0
  have h1 : (((n - 1) * 2 ^ k + 1 : ℕ) : ℚ) ≤ a := by exact_mod_cast hlo
  have h2 : (a : ℚ) ≤ ((n * 2 ^ k : ℕ) : ℚ) := by exact_mod_cast hhi
  rw [Nat.cast_add, Nat.cast_mul, Nat.cast_sub hn1] at h1
  rw [Nat.cast_mul] at h2
  refine count_of ha0 ha h0 hb hn1 (by omega) ?_ ?_
  · rw [e3, lt_div_iff₀ hb']
    push_cast at h1 ⊢
    linarith
  · rw [e3, div_le_iff₀ hb']
    exact h2

/-- The error of a rounded reciprocal is strictly below half of the last place. -/
theorem recip_strict {b : ℕ} (h0 : 0 < b) (hb : b < 2 ^ 53) :
    roundNum (1 / b) < 1 / b * (1 + 2 ^ (-53 : ℤ)) := by
  have hq := small_pow h0 hb
  have hp : (0 : ℚ) < 1 / b := (two_zpow_pos _).trans_le hq
  have hq1 := recip_le_one h0
  generalize (1 : ℚ) / b = q at *
  have hl := log_le hp.ne'
  rw [abs_of_pos hp] at hl
  have hl' := lt_log q
  rw [abs_of_pos hp] at hl'
  have hlog : (-53 : ℤ) ≤ Int.log 2 q := by
    have := two_zpow_of_lt (hq.trans_lt hl')
    omega
  have hx : expo q = Int.log 2 q - 52 := by
    unfold expo
    rw [abs_of_pos hp]
    exact max_eq_left (by omega)
  have herr := (abs_le.1 (roundNum_err q)).2
  have e : (2 : ℚ) ^ expo q = 2 ^ Int.log 2 q * 2 ^ (-52 : ℤ) := by
    rw [hx, ← two_zpow_add]; rfl
  rw [e] at herr
  have e2 : (2 : ℚ) ^ (-52 : ℤ) = 2 * 2 ^ (-53 : ℤ) := by norm_num
  rcases lt_or_eq_of_le hl with h | h
  · have := mul_lt_mul_of_pos_right h (two_zpow_pos (-53))
    rw [e2] at herr
    generalize (2 : ℚ) ^ (-53 : ℤ) = u at *
    nlinarith
  · have hle1 : Int.log 2 q ≤ 971 := by
      have : (2 : ℚ) ^ Int.log 2 q < 2 ^ (1 : ℤ) := by rw [h]; norm_num; linarith
      have := two_zpow_of_lt this
      omega
    have : roundNum q = q := by
      rw [← h]
      exact roundNum_exact (isDouble_two_zpow (by omega) hle1)
    rw [this]
    nlinarith [two_zpow_pos (-53)]

/-- A number little above a power of two is rounded to it. -/
theorem roundNum_pow2_le {q : ℚ} {j : ℕ} (hj : j ≤ 52) (h : q < 2 ^ j * (1 + 2 ^ (-53 : ℤ))) :
    roundNum q ≤ 2 ^ j := by
  have hd : IsDouble ((2 : ℚ) ^ j) := by
    have := isDouble_nat (n := 2 ^ j) (Nat.pow_le_pow_right (by norm_num) (by omega))
    exact_mod_cast this
  rcases le_or_gt q (2 ^ j) with h1 | h1
  · exact roundNum_le_of_le hd h1
  by_contra hc
  rw [not_le] at hc
  have hn := roundNum_nearest q hd
  have hle := le_roundNum_of_le hd h1.le
  have hub : roundNum q < 2 ^ j * (1 + 2 ^ (-52 : ℤ)) := by
    rw [abs_of_neg (by linarith : (2 : ℚ) ^ j - q < 0)] at hn
    have := (abs_le.1 hn).2
    have e2 : (2 : ℚ) ^ (-52 : ℤ) = 2 * 2 ^ (-53 : ℤ) := by norm_num
    rw [e2]
    linarith
  have hj' : (2 : ℚ) ^ j ≤ 2 ^ 52 := pow_le_pow_right₀ (by norm_num) hj
  have hpj : (0 : ℚ) < 2 ^ j := by positivity
  obtain ⟨m, e, hm, he, -, hr⟩ := isDouble_roundNum (q := q) (by
    rw [abs_of_pos (hpj.trans hc)]
    refine hub.trans ?_
    have : (2 : ℚ) ^ j * (1 + 2 ^ (-52 : ℤ)) ≤ 2 ^ 52 * (1 + 2 ^ (-52 : ℤ)) :=
      mul_le_mul_of_nonneg_right hj' (by norm_num)
    refine this.trans_lt ?_
    have : (2 : ℚ) ^ (54 : ℤ) < 2 ^ (1024 : ℤ) := zpow_lt_zpow_right₀ (by norm_num) (by norm_num)
    refine lt_trans ?_ this
    norm_num)
  rw [hr] at hc hub
  -- both are multiples of the last place
  have hm' : (m : ℚ) < 2 ^ (53 : ℤ) := by
    have h2 : m < 2 ^ 53 := (abs_lt.1 hm).2
    have h3 : (m : ℚ) < 2 ^ 53 := by exact_mod_cast h2
    exact_mod_cast h3
  have h3 : (2 : ℚ) ^ (j : ℤ) < 2 ^ (53 + e) := by
    rw [two_zpow_add, zpow_natCast]
    exact hc.trans (mul_lt_mul_of_pos_right hm' (two_zpow_pos e))
  have h4 := two_zpow_of_lt h3
  obtain ⟨d, hd'⟩ := Int.le.dest (show (j : ℤ) - 52 ≤ e by omega)
  have e5 : (2 : ℚ) ^ e = 2 ^ d * 2 ^ ((j : ℤ) - 52) := by
    rw [← hd', two_zpow_add, zpow_natCast, mul_comm]
  have e6 : (2 : ℚ) ^ j = 2 ^ 52 * 2 ^ ((j : ℤ) - 52) := by
    have : (2 : ℚ) ^ 52 = 2 ^ (52 : ℤ) := by norm_cast
    rw [this, ← two_zpow_add, show (52 : ℤ) + (j - 52) = j by omega, zpow_natCast]
  have hpp := two_zpow_pos ((j : ℤ) - 52)
  rw [e5, e6] at hc hub
  have h7 : (2 : ℚ) ^ 52 < m * 2 ^ d := by
    have : (2 : ℚ) ^ 52 * 2 ^ ((j : ℤ) - 52) < m * 2 ^ d * 2 ^ ((j : ℤ) - 52) := by linarith
    exact lt_of_mul_lt_mul_right this hpp.le
  have h8 : (m : ℚ) * 2 ^ d < 2 ^ 52 + 1 := by
    have : (m : ℚ) * 2 ^ d * 2 ^ ((j : ℤ) - 52) < (2 ^ 52 + 1) * 2 ^ ((j : ℤ) - 52) := by
      have e9 : (2 : ℚ) ^ 52 * 2 ^ ((j : ℤ) - 52) * (1 + 2 ^ (-52 : ℤ)) =
        (2 ^ 52 + 1) * 2 ^ ((j : ℤ) - 52) := by
        have : (2 : ℚ) ^ 52 * 2 ^ (-52 : ℤ) = 1 := by norm_num
        linear_combination 2 ^ ((j : ℤ) - 52) * this
      linarith
    exact lt_of_mul_lt_mul_right this hpp.le
  have h9 : (2 : ℤ) ^ 52 < m * 2 ^ d := by exact_mod_cast h7
  have h10 : m * 2 ^ d < (2 : ℤ) ^ 52 + 1 := by exact_mod_cast h8
  omega

/-- A number of blocks that is a power of two. -/
theorem count_quot_pow2 {j b : ℕ} (h : 2 ^ j * b < 2 ^ 52) (h0 : 0 < b) :
    count true (2 ^ j * b) b = .ok (2 ^ j) := by
  have hj0 : 0 < 2 ^ j := Nat.two_pow_pos j
  have hb : b < 2 ^ 52 := (Nat.le_mul_of_pos_left b hj0).trans_lt h
  have hjl : 2 ^ j < 2 ^ 52 := (Nat.le_mul_of_pos_right _ h0).trans_lt h
  have hj : j < 52 := (Nat.pow_lt_pow_iff_right (by norm_num)).1 hjl
  have ha0 : 0 < 2 ^ j * b := Nat.mul_pos hj0 h0
  have hb' : (0 : ℚ) < b := by exact_mod_cast h0
  obtain ⟨ε, hε, e⟩ := two_roundings ha0 h0 (by omega)
  refine count_of ha0 (by omega) h0 (by omega) hj0 (by omega) ?_ ?_
  · rw [e]
    have e1 : ((2 ^ j * b : ℕ) : ℚ) / b = 2 ^ j := by
      push_cast
      exact mul_div_cancel_right₀ _ hb'.ne'
    rw [e1]
    push_cast
    have h1 : (2 : ℚ) ^ j ≤ 2 ^ 52 - 1 := by
      have : 2 ^ j + 1 ≤ 2 ^ 52 := hjl
      have : (2 : ℚ) ^ j + 1 ≤ 2 ^ 52 := by exact_mod_cast this
      linarith
    have h2 : |(2 : ℚ) ^ j * ε| < 1 := by
      rw [abs_mul, abs_of_pos (by positivity)]
      refine lt_of_le_of_lt (mul_le_mul h1 hε (abs_nonneg _) (by norm_num)) ?_
      norm_num
    have := (abs_lt.1 h2).1
    linarith
  · have h3 : roundNum ((2 ^ j * b : ℕ) * roundNum (1 / b)) ≤ 2 ^ j := by
      refine roundNum_pow2_le hj.le ?_
      have h4 := recip_strict h0 (by omega : b < 2 ^ 53)
      have h5 : (0 : ℚ) < ((2 ^ j * b : ℕ) : ℚ) := by exact_mod_cast ha0
      refine (mul_lt_mul_of_pos_left h4 h5).trans_eq ?_
      push_cast
      field_simp
    push_cast at h3 ⊢
    exact h3

/-! ### running concurrent parts one after the other -/

section Runs
variable {α : Type}

/-- Some schedule of `t` performs the updates `us`. -/
def Runs (t : Tree α) (us : List (Upd α)) : Prop :=
  ∀ m : Mem α, ∃ m' t', PSteps m t m' t' ∧ Done t' ∧ m'.cell = applyF us m.cell

theorem Runs.of_does {A} {t : Tree α} {us : List (Upd α)} (h : Tree.Does A t us) : Runs t us := by
  intro m
  have h1 : ND.run m.cell m.flag t (.ok (applyF us m.cell)) := by
    rw [h.run]
    rfl
  rcases h1 with ⟨m', t', h2, h3, h4⟩ | ⟨m', t', e, -, -, h4⟩
  · exact ⟨m', t', h2, h3, (Except.ok.inj h4).symm⟩
  · cases h4

theorem Runs.par_aux {l : List ι} {f : ι → Tree α} {us : ι → List (Upd α)}
    (h : ∀ i ∈ l, Runs (f i) (us i)) : ∀ (pre : List (Tree α)), (∀ t ∈ pre, Done t) → ∀ m : Mem α,
    ∃ m' ts', PSteps m (.par (pre ++ l.map f)) m' (.par ts') ∧ (∀ t ∈ ts', Done t) ∧
      m'.cell = applyF (l.flatMap us) m.cell := by
  induction l with
  | nil =>
    intro pre hp m
    exact ⟨m, pre ++ [], .refl, by simpa using hp, rfl⟩
  | cons i l ih =>
    intro pre hp m
    obtain ⟨m1, t1, h1, h2, h3⟩ := h i (by simp) m
    obtain ⟨m2, ts, h4, h5, h6⟩ := ih (fun j hj => h j (by simp [hj])) (pre ++ [t1])
      (by
        intro t ht
        rcases List.mem_append.1 ht with ht | ht
        · exact hp t ht
        · rw [List.mem_singleton] at ht; rw [ht]; exact h2) m1
    have hs := h1.par (ts := pre ++ (i :: l).map f) (n := pre.length) (by simp)
    have e : (pre ++ (i :: l).map f).set pre.length t1 = pre ++ [t1] ++ l.map f := by
      simp
    rw [e] at hs
    refine ⟨m2, ts, hs.trans h4, h5, ?_⟩
    rw [h6, h3, List.flatMap_cons]
    funext p
    rw [applyF_append]

theorem Runs.par {l : List ι} {f : ι → Tree α} {us : ι → List (Upd α)}
    (h : ∀ i ∈ l, Runs (f i) (us i)) : Runs (.par (l.map f)) (l.flatMap us) := by
  intro m
  obtain ⟨m', ts, h1, h2, h3⟩ := Runs.par_aux h [] (by simp) m
  exact ⟨m', .par ts, h1, .par h2, h3⟩

theorem PStep.next_write {m m' : Mem α} {t t' : Tree α} {i : Nat} (h : PStep m t m' t')
    (hne : m'.cell i ≠ m.cell i) : Next t (.cell i) true := by
  induction h with
  | rd => exact absurd rfl hne
  | @wr j v k =>
    by_cases e : i = j
    · rw [e]; exact .wr
    · exact absurd (if_neg e) hne
  | rdFlag => exact absurd rfl hne
  | wrFlag => exact absurd rfl hne
  | seqStep _ ih => exact .seq (ih hne)
  | seqNext => exact absurd rfl hne
  | parStep n hn _ ih => exact .par n hn (ih hne)

theorem PSteps.next_write {m m' : Mem α} {t t' : Tree α} {i : Nat} (h : PSteps m t m' t')
    (hne : m'.cell i ≠ m.cell i) : ∃ m1 t1, PSteps m t m1 t1 ∧ Next t1 (.cell i) true := by
  induction h with
  | refl => exact absurd rfl hne
  | @step m t m1 t1 m2 t2 hs _ ih =>
    by_cases e : m1.cell i = m.cell i
    · obtain ⟨m3, t3, h3, h4⟩ := ih (by rw [e]; exact hne)
      exact ⟨m3, t3, .step hs h3, h4⟩
    · exact ⟨m, t, .refl, PStep.next_write hs e⟩

/-- Two concurrent runs of a part that changes a cell race on it. -/
theorem Runs.race {ts : List (Tree α)} {n n' : Nat} {t : Tree α} {us : List (Upd α)} (h : Runs t us)
    (hn : ts[n]? = some t) (hn' : ts[n']? = some t) (hne : n ≠ n') {i : Nat}
    (hi : ∀ v, cellFold us i v ≠ v) (m : Mem α) :
    ∃ m' t', PSteps m (.par ts) m' t' ∧ RaceOn (.cell i) t' := by
  have key : ∀ m : Mem α, ∃ m1 t1, PSteps m t m1 t1 ∧ Next t1 (.cell i) true := by
    intro m
    obtain ⟨m', t', h1, -, h3⟩ := h m
    exact PSteps.next_write h1 (by rw [h3]; exact hi _)
  obtain ⟨m1, t1, h1, h2⟩ := key m
  obtain ⟨m2, t2, h3, h4⟩ := key m1
  have hl : n < ts.length := (List.getElem?_eq_some_iff.1 hn).1
  have hl' : n' < ts.length := (List.getElem?_eq_some_iff.1 hn').1
  have h5 := h1.par hn
  have h6 := h3.par (ts := ts.set n t1) (n := n') (by rw [List.getElem?_set_ne hne]; exact hn')
  refine ⟨m2, _, h5.trans h6, .here n n' hne (t := t1) (u := t2) ?_ ?_ h2 h4⟩
  · rw [List.getElem?_set_ne (Ne.symm hne), List.getElem?_set_self hl]
  · rw [List.getElem?_set_self (by simpa using hl')]

theorem Runs.runOn [Arith α] {t : Tree α} {us : List (Upd α)} (h : Runs t us) (a : Array α) :
    ND.runOn a t (.ok (applyA us a)) := by
  obtain ⟨m', t', h1, h2, h3⟩ := h ⟨(Mem.ofArray a).cell, fun _ => true⟩
  refine .inr ⟨m'.cell, .inl ⟨m', t', h1, h2, rfl⟩, ?_⟩
  have h4 : applyA us a = toArray a.size m'.cell := by
    rw [h3]
    exact (toArray_applyF us a).symm
  exact congrArg Except.ok h4

end Runs

/-! ### the iteration -/

section Iteration
open IndexIterator Tiled

theorem blockCounts_eq {recip : List Nat → List Nat → List Nat → Nat → Bool} {mn mx block ds : List Nat}
    (h : ∀ d ∈ ds, blockCount recip mn mx block d = IndexIterator.blockCount mn mx block d) :
    blockCounts recip mn mx block ds = IndexIterator.blockCounts mn mx block ds := by
  unfold blockCounts IndexIterator.blockCounts
  generalize 1 = c
  induction ds generalizing c with
  | nil => rfl
  | cons d ds ih =>
    rw [List.foldlM_cons, List.foldlM_cons, h d (by simp)]
    congr 1
    funext c'
    exact ih (fun d hd => h d (by simp [hd])) c'

theorem count_false {a b : ℕ} (ha : a < 2 ^ 53) (hb : b < 2 ^ 64) (h0 : 0 < b) :
    count false a b = .ok (ceilDiv a b) := toSize_ceil_div ha hb h0

/-- The calls of one repetition. -/
def calls (recip : List Nat → List Nat → List Nat → Nat → Bool) (b : Blocking) (X Y K : Nat) :
    Calls (List Nat) :=
  iterateRevBy (blockCounts recip) 3 (Combined.levels b ++ [(Combined.final b, [false, false, false])])
    [0, 0, 0] [X, Y, K]

theorem tree_eq {α : Type} [Arith α] (recip : List Nat → List Nat → List Nat → Nat → Bool) (b : Blocking)
    (X Y K : Nat) (At Bp : Array α) : tree recip b (Combined.pol b) X Y K At Bp =
      (calls recip b X Y K).toTree (Combined.body b X Y At Bp) := rfl

/-- The numbers of blocks of one level, for any choice of compilation. -/
def Exact (n b : Nat) : Prop := ∀ r, count r n b = .ok (ceilDiv n b)

theorem blockCount_of {recip : List Nat → List Nat → List Nat → Nat → Bool} {mn mx block : List Nat}
    {d : Nat} (hle : mn.getD d 0 ≤ mx.getD d 0) (h0 : 0 < block.getD d 0)
    (h : Exact (mx.getD d 0 - mn.getD d 0) (block.getD d 0)) :
    blockCount recip mn mx block d = IndexIterator.blockCount mn mx block d := by
  unfold blockCount IndexIterator.blockCount
  rw [usub, if_pos hle, if_neg (by omega)]
  exact h _

/-- The inner levels of a block. -/
theorem inner_eq {recip : List Nat → List Nat → List Nat → Nat → Bool} {b : Blocking} (hv : b.Valid)
    (hx : Exact b.L3_X b.L2_X) (hy : Exact b.L3_Y b.L2_Y) (hk : Exact b.L3_K_STEP b.L2_K_STEP)
    (cur : List Nat) :
    iterateRevBy (blockCounts recip) 3 [([b.L2_X, b.L2_Y, b.L2_K_STEP], [false, false, false]),
        (Combined.final b, [false, false, false])] cur
        ((List.range 3).map fun d => cur.getD d 0 + [b.L3_X, b.L3_Y, b.L3_K_STEP].getD d 0) =
      iterateRev 3 [([b.L2_X, b.L2_Y, b.L2_K_STEP], [false, false, false]),
        (Combined.final b, [false, false, false])] cur
        ((List.range 3).map fun d => cur.getD d 0 + [b.L3_X, b.L3_Y, b.L3_K_STEP].getD d 0) := by
  have hp := Combined.l2_pos hv
  have e : ∀ ds : List Nat, (∀ d ∈ ds, d < 3) →
      blockCounts recip cur ((List.range 3).map fun d => cur.getD d 0 +
        [b.L3_X, b.L3_Y, b.L3_K_STEP].getD d 0) [b.L2_X, b.L2_Y, b.L2_K_STEP] ds =
      IndexIterator.blockCounts cur ((List.range 3).map fun d => cur.getD d 0 +
        [b.L3_X, b.L3_Y, b.L3_K_STEP].getD d 0) [b.L2_X, b.L2_Y, b.L2_K_STEP] ds := fun ds hds =>
    blockCounts_eq fun d hd => by
      have hd := hds d hd
      refine blockCount_of ?_ ?_ ?_
      · rw [getD_map_range _ _ _ hd]; omega
      · exact Combined.forall_three (P := fun d => 0 < [b.L2_X, b.L2_Y, b.L2_K_STEP].getD d 0)
          hp.1 hp.2.1 hp.2.2 d hd
      · rw [getD_map_range _ _ _ hd, Nat.add_sub_cancel_left]
        exact Combined.forall_three (P := fun d => Exact ([b.L3_X, b.L3_Y, b.L3_K_STEP].getD d 0)
          ([b.L2_X, b.L2_Y, b.L2_K_STEP].getD d 0)) hx hy hk d hd
  rw [iterateRev, iterateRevBy, iterateRevBy]
  simp only [e ((List.range 3).filter fun d => [false, false, false].getD d false)
        (fun d hd => List.mem_range.1 (List.mem_filter.1 hd).1),
      e ((List.range 3).filter fun d => ![false, false, false].getD d false)
        (fun d hd => List.mem_range.1 (List.mem_filter.1 hd).1)]
  rfl

/-- The outermost level with a wrong number of concurrent blocks. -/
theorem calls_level {recip : List Nat → List Nat → List Nat → Nat → Bool} {b : Blocking} (hv : b.Valid)
    (hx : Exact b.L3_X b.L2_X) (hy : Exact b.L3_Y b.L2_Y) (hk : Exact b.L3_K_STEP b.L2_K_STEP)
    {X Y K c : Nat} (hY : Exact Y b.L3_Y) (hK : Exact K b.L3_K_STEP)
    (hX : blockCount recip [0, 0, 0] [X, Y, K] [b.L3_X, b.L3_Y, b.L3_K_STEP] 0 = .ok c) :
    ∃ (T : Nat → Calls (List Nat)) (L : Calls (List Nat)),
      Combined.calls b X Y K = .par ((List.range (ceilDiv X b.L3_X * ceilDiv Y b.L3_Y)).map T) ∧
      calls recip b X Y K = .par ((List.range (c * ceilDiv Y b.L3_Y)).map T) ∧
      ∀ n, ceilDiv X b.L3_X * ceilDiv Y b.L3_Y ≤ n + 1 →
        0 < X → 0 < Y → b.L3_X ∣ X → b.L3_Y ∣ Y →
        T n = L ∧ L.leaves = (iterateRev 3 (Combined.levels b ++ [(Combined.final b, [false, false, false])])
          [X - b.L3_X, Y - b.L3_Y, 0] [X, Y, K]).leaves := by
  have e1 := iterateRev_level (dim := 3) (b := [b.L3_X, b.L3_Y, b.L3_K_STEP])
    (f := [true, true, false]) (c := ([b.L2_X, b.L2_Y, b.L2_K_STEP], [false, false, false]))
    (rest := [(Combined.final b, [false, false, false])]) (mn := [0, 0, 0]) (mx := [X, Y, K]) rfl rfl
    rfl rfl (Combined.forall_three hv.x3 hv.y3 hv.k3)
    (Combined.forall_three (P := fun d => [0, 0, 0].getD d 0 ≤ [X, Y, K].getD d 0) (Nat.zero_le _)
      (Nat.zero_le _) (Nat.zero_le _))
  have c1 : blockCounts recip [0, 0, 0] [X, Y, K] [b.L3_X, b.L3_Y, b.L3_K_STEP]
      ((List.range 3).filter fun d => [true, true, false].getD d false) =
      .ok (c * ceilDiv Y b.L3_Y) := by
    show blockCounts recip _ _ _ [0, 1] = _
    have h1 : blockCount recip [0, 0, 0] [X, Y, K] [b.L3_X, b.L3_Y, b.L3_K_STEP] 1 =
        .ok (ceilDiv Y b.L3_Y) := by
      show count _ (usub Y 0) b.L3_Y = _
      rw [usub, if_pos (Nat.zero_le _)]
      exact hY _
    simp [blockCounts, hX, h1, Functor.map, Except.map, Bind.bind, Except.bind, Pure.pure, Except.pure]
  have c2 : blockCounts recip [0, 0, 0] [X, Y, K] [b.L3_X, b.L3_Y, b.L3_K_STEP]
      ((List.range 3).filter fun d => ![true, true, false].getD d false) =
      .ok (ceilDiv K b.L3_K_STEP) := by
    show blockCounts recip _ _ _ [2] = _
    have h1 : blockCount recip [0, 0, 0] [X, Y, K] [b.L3_X, b.L3_Y, b.L3_K_STEP] 2 =
        .ok (ceilDiv K b.L3_K_STEP) := by
      show count _ (usub K 0) b.L3_K_STEP = _
      rw [usub, if_pos (Nat.zero_le _)]
      exact hK _
    simp [blockCounts, h1, Functor.map, Except.map, Bind.bind, Except.bind, Pure.pure, Except.pure]
  have e2 := iterateRevBy_level (bc := blockCounts recip) (dim := 3) (b := [b.L3_X, b.L3_Y, b.L3_K_STEP])
    (f := [true, true, false]) (c := ([b.L2_X, b.L2_Y, b.L2_K_STEP], [false, false, false]))
    (rest := [(Combined.final b, [false, false, false])]) (mn := [0, 0, 0]) (mx := [X, Y, K]) rfl rfl
    rfl rfl (Combined.forall_three hv.x3 hv.y3 hv.k3) c1 c2
  refine ⟨fun n1 => .seq ((List.range (ceilDiv K b.L3_K_STEP)).map fun n2 =>
    iterateRev 3 [([b.L2_X, b.L2_Y, b.L2_K_STEP], [false, false, false]),
        (Combined.final b, [false, false, false])]
      (blockPos (lvDims 3 [0, 0, 0] [X, Y, K] [b.L3_X, b.L3_Y, b.L3_K_STEP] [true, true, false]) n1 n2)
      ((List.range 3).map fun d =>
        (blockPos (lvDims 3 [0, 0, 0] [X, Y, K] [b.L3_X, b.L3_Y, b.L3_K_STEP] [true, true, false]) n1
          n2).getD d 0 + [b.L3_X, b.L3_Y, b.L3_K_STEP].getD d 0)),
    .seq ((List.range (ceilDiv K b.L3_K_STEP)).map fun n2 =>
    iterateRev 3 [([b.L2_X, b.L2_Y, b.L2_K_STEP], [false, false, false]),
        (Combined.final b, [false, false, false])]
      (blockPos (lvDims 3 [X - b.L3_X, Y - b.L3_Y, 0] [X, Y, K] [b.L3_X, b.L3_Y, b.L3_K_STEP]
        [true, true, false]) 0 n2)
      ((List.range 3).map fun d =>
        (blockPos (lvDims 3 [X - b.L3_X, Y - b.L3_Y, 0] [X, Y, K] [b.L3_X, b.L3_Y, b.L3_K_STEP]
          [true, true, false]) 0 n2).getD d 0 + [b.L3_X, b.L3_Y, b.L3_K_STEP].getD d 0)), ?_, ?_, ?_⟩
  · have h3 : ((redDs (lvDims 3 [0, 0, 0] [X, Y, K] [b.L3_X, b.L3_Y, b.L3_K_STEP]
        [true, true, false])).map ext).prod = ceilDiv X b.L3_X * ceilDiv Y b.L3_Y := by
      simp [redDs, lvDims, ext, List.range_succ]
    have h4 : ((((lvDims 3 [0, 0, 0] [X, Y, K] [b.L3_X, b.L3_Y, b.L3_K_STEP]
        [true, true, false]).filter fun f => !f.2).map (·.1)).map ext).prod = ceilDiv K b.L3_K_STEP := by
      simp [lvDims, ext, List.range_succ]
    dsimp only at e1
    rw [h3, h4] at e1
    exact e1
  · dsimp only at e2
    simp only [inner_eq hv hx hy hk] at e2
    exact e2
  · rintro n hn h0X h0Y ⟨x, rfl⟩ ⟨y, rfl⟩
    have hx0 : 0 < x := Nat.pos_of_mul_pos_left h0X
    have hy0 : 0 < y := Nat.pos_of_mul_pos_left h0Y
    have hx3 := hv.x3
    have hy3 := hv.y3
    have ex : b.L3_X * x - b.L3_X = (x - 1) * b.L3_X := by
      rw [Nat.sub_mul, Nat.one_mul, Nat.mul_comm]
    have ey : b.L3_Y * y - b.L3_Y = (y - 1) * b.L3_Y := by
      rw [Nat.sub_mul, Nat.one_mul, Nat.mul_comm]
    have lx : b.L3_X ≤ b.L3_X * x := Nat.le_mul_of_pos_right _ hx0
    have ly : b.L3_Y ≤ b.L3_Y * y := Nat.le_mul_of_pos_right _ hy0
    have cx : ceilDiv (b.L3_X * x) b.L3_X = x := by rw [Nat.mul_comm]; exact ceilDiv_mul _ _ hv.x3
    have cy : ceilDiv (b.L3_Y * y) b.L3_Y = y := by rw [Nat.mul_comm]; exact ceilDiv_mul _ _ hv.y3
    have one : ∀ {d : Nat}, 0 < d → ceilDiv d d = 1 := fun {d} h => by
      have := ceilDiv_mul 1 d h
      rwa [Nat.one_mul] at this
    rw [cx, cy] at hn
    have e3 := iterateRev_level (dim := 3) (b := [b.L3_X, b.L3_Y, b.L3_K_STEP])
      (f := [true, true, false]) (c := ([b.L2_X, b.L2_Y, b.L2_K_STEP], [false, false, false]))
      (rest := [(Combined.final b, [false, false, false])])
      (mn := [b.L3_X * x - b.L3_X, b.L3_Y * y - b.L3_Y, 0]) (mx := [b.L3_X * x, b.L3_Y * y, K]) rfl rfl
      rfl rfl (Combined.forall_three hv.x3 hv.y3 hv.k3)
      (Combined.forall_three (P := fun d => [b.L3_X * x - b.L3_X, b.L3_Y * y - b.L3_Y, 0].getD d 0 ≤
        [b.L3_X * x, b.L3_Y * y, K].getD d 0) (Nat.sub_le _ _) (Nat.sub_le _ _) (Nat.zero_le _))
    have h3 : ((redDs (lvDims 3 [b.L3_X * x - b.L3_X, b.L3_Y * y - b.L3_Y, 0]
        [b.L3_X * x, b.L3_Y * y, K] [b.L3_X, b.L3_Y, b.L3_K_STEP] [true, true, false])).map ext).prod =
        1 := by
      simp [redDs, lvDims, ext, List.range_succ, Nat.sub_sub_self lx, Nat.sub_sub_self ly, one hx3, one hy3]
    have h4 : ((((lvDims 3 [b.L3_X * x - b.L3_X, b.L3_Y * y - b.L3_Y, 0]
        [b.L3_X * x, b.L3_Y * y, K] [b.L3_X, b.L3_Y, b.L3_K_STEP] [true, true, false]).filter
          fun f => !f.2).map (·.1)).map ext).prod = ceilDiv K b.L3_K_STEP := by
      simp [lvDims, ext, List.range_succ]
    dsimp only at e3
    rw [h3, h4] at e3
    have hpos : ∀ n2, blockPos (lvDims 3 [0, 0, 0] [b.L3_X * x, b.L3_Y * y, K]
          [b.L3_X, b.L3_Y, b.L3_K_STEP] [true, true, false]) n n2 =
        blockPos (lvDims 3 [b.L3_X * x - b.L3_X, b.L3_Y * y - b.L3_Y, 0] [b.L3_X * x, b.L3_Y * y, K]
          [b.L3_X, b.L3_Y, b.L3_K_STEP] [true, true, false]) 0 n2 := by
      intro n2
      have hm1 : max 1 x = x := by omega
      have hm2 : max 1 y = y := by omega
      have hmin : min n (x * y - 1) = x * y - 1 := by omega
      have hmod : (x * y - 1) % x = x - 1 := by
        rw [show x * y - 1 = x - 1 + x * (y - 1) by
          rw [Nat.mul_sub, Nat.mul_one]
          have := Nat.le_mul_of_pos_right x hy0
          omega, Nat.add_mul_mod_self_left]
        exact Nat.mod_eq_of_lt (by omega)
      have hdiv : (x * y - 1) / x % y = y - 1 := by
        rw [show x * y - 1 = x - 1 + x * (y - 1) by
          rw [Nat.mul_sub, Nat.mul_one]
          have := Nat.le_mul_of_pos_right x hy0
          omega, Nat.add_mul_div_left _ _ hx0, Nat.div_eq_of_lt (by omega), Nat.zero_add]
        exact Nat.mod_eq_of_lt (by omega)
      simp [blockPos, lvDims, redDs, List.range_succ, total, cnt, pos, serDs, cx, cy, hm1, hm2, hmin, hmod,
        hdiv, ex, ey]
    unfold Combined.levels
    rw [List.cons_append, List.singleton_append, e3, leaves_par]
    simp only [hpos]
    simp

/-- The points with given first two coordinates, in order. -/
theorem filter_k' {l : List (List Nat)} {K sk : Nat} (hl : l.Pairwise SomeLt)
    (hm : ∀ p ∈ l, p.length = 3) (hk : 0 < sk) {x y : Nat}
    (h : ∀ k, [x, y, k] ∈ l ↔ ∃ t, k = t * sk ∧ k < K) :
    l.filter (fun p => decide (p.getD 0 0 = x ∧ p.getD 1 0 = y)) =
      (steps 0 K sk).map fun k => [x, y, k] := by
  have h1 : (l.filter (fun p => decide (p.getD 0 0 = x ∧ p.getD 1 0 = y))).Pairwise
      fun p q => p.getD 2 0 < q.getD 2 0 := by
    refine (List.Pairwise.and_mem.1 (hl.filter _)).imp ?_
    rintro p q ⟨hp, hq, d, hd⟩
    obtain ⟨hp, hp'⟩ := List.mem_filter.1 hp
    obtain ⟨hq, hq'⟩ := List.mem_filter.1 hq
    have hp' := of_decide_eq_true hp'
    have hq' := of_decide_eq_true hq'
    have l1 := hm p hp
    have l2 := hm q hq
    match d with
    | 0 => omega
    | 1 => omega
    | 2 => exact hd
    | d + 3 =>
      rw [List.getD_eq_default _ _ (by omega), List.getD_eq_default _ _ (by omega)] at hd
      omega
  have h2 : ((steps 0 K sk).map fun k => [x, y, k]).Pairwise
      fun p q => p.getD 2 0 < q.getD 2 0 := by
    rw [List.pairwise_map]
    exact (steps_sorted 0 K sk hk).imp fun h => h
  refine List.Perm.eq_of_pairwise (fun a b _ _ h h' => by omega) h1 h2 ?_
  refine (List.perm_ext_iff_of_nodup ?_ ?_).2 fun p => ?_
  · exact h1.imp fun h he => by subst he; omega
  · exact h2.imp fun h he => by subst he; omega
  · rw [List.mem_filter, List.mem_map]
    constructor
    · rintro ⟨hp, he⟩
      obtain ⟨e0, e1⟩ := of_decide_eq_true he
      have e := getD_three (hm p hp)
      rw [e0, e1] at e
      obtain ⟨t, e2, e3⟩ := (h (p.getD 2 0)).1 (e ▸ hp)
      exact ⟨p.getD 2 0, (mem_steps hk).2 ⟨t, by omega, e3⟩, e.symm⟩
    · rintro ⟨k, hk', rfl⟩
      obtain ⟨t, e, hlt⟩ := (mem_steps hk).1 hk'
      exact ⟨(h k).2 ⟨t, by omega, hlt⟩, by simp⟩

variable {α : Type} [Arith α]

/-- One more run of the last block. -/
theorem last_cell {b : Blocking} (h : b.Valid) {QX QY QK : Nat} {f g : Nat → Nat → α}
    (hX : b.L3_X ∣ QX * b.L1_X) (hY : b.L3_Y ∣ QY * b.L1_Y) (hK : b.L3_K_STEP ∣ QK * b.L1_K_STEP)
    (h0X : 0 < QX) (h0Y : 0 < QY)
    {l : List (List Nat)} (hl : l = (iterateRev 3 (Combined.levels b ++
        [(Combined.final b, [false, false, false])]) [QX * b.L1_X - b.L3_X, QY * b.L1_Y - b.L3_Y, 0]
        [QX * b.L1_X, QY * b.L1_Y, QK * b.L1_K_STEP]).leaves) {bx by' r c : Nat} (hbx : bx < QX)
    (hby : by' < QY) (hr : r < b.L1_X) (hc : c < b.L1_Y) (v : α) :
    cellFold (l.flatMap (Combined.upd b QY f g)) (cbase b QY bx by' + r * b.L1_Y + c) v =
      if QX * b.L1_X - b.L3_X ≤ bx * b.L1_X + r ∧ QY * b.L1_Y - b.L3_Y ≤ by' * b.L1_Y + c then
        bdotFrom v b.L1_K_STEP QK (fun k => f (bx * b.L1_X + r) k) (fun k => g k (by' * b.L1_Y + c))
      else v := by
  have hgX : b.L1_X ∣ b.L3_X := h.x21.trans h.x32
  have hgY : b.L1_Y ∣ b.L3_Y := h.y21.trans h.y32
  obtain ⟨ux, hux⟩ := hgX
  obtain ⟨uy, huy⟩ := hgY
  have h1X := h.x1
  have h1Y := h.y1
  have hlX : b.L3_X ≤ QX * b.L1_X := Nat.le_of_dvd (Nat.mul_pos h0X h1X) hX
  have hlY : b.L3_Y ≤ QY * b.L1_Y := Nat.le_of_dvd (Nat.mul_pos h0Y h1Y) hY
  have hx0 : QX * b.L1_X - b.L3_X = (QX - ux) * b.L1_X := by
    rw [Nat.sub_mul, hux, Nat.mul_comm ux]
  have hy0 : QY * b.L1_Y - b.L3_Y = (QY - uy) * b.L1_Y := by
    rw [Nat.sub_mul, huy, Nat.mul_comm uy]
  obtain ⟨h1, h2, h3⟩ := iterateRev_spec (f0 := [false, false, false])
    (Combined.forall_three (P := fun d => 0 < (Combined.final b).getD d 0) h.x1 h.y1 h.k1) rfl
    (Combined.levels b) (Combined.lvOk h) [QX * b.L1_X - b.L3_X, QY * b.L1_Y - b.L3_Y, 0]
    [QX * b.L1_X, QY * b.L1_Y, QK * b.L1_K_STEP] rfl rfl
    (Combined.forall_three (P := fun d => [QX * b.L1_X - b.L3_X, QY * b.L1_Y - b.L3_Y, 0].getD d 0 ≤
      [QX * b.L1_X, QY * b.L1_Y, QK * b.L1_K_STEP].getD d 0) (Nat.sub_le _ _) (Nat.sub_le _ _)
      (Nat.zero_le _))
  have one : ∀ {d : Nat}, 0 < d → ceilDiv d d = 1 := fun {d} h => by
    have := ceilDiv_mul 1 d h
    rwa [Nat.one_mul] at this
  have hb : bound 3 (Combined.levels b) [QX * b.L1_X - b.L3_X, QY * b.L1_Y - b.L3_Y, 0]
      [QX * b.L1_X, QY * b.L1_Y, QK * b.L1_K_STEP] = [QX * b.L1_X, QY * b.L1_Y, QK * b.L1_K_STEP] := by
    obtain ⟨k, hk⟩ := hK
    rw [hk]
    simp [bound, Combined.levels, List.range_succ, Nat.mul_comm b.L3_K_STEP, ceilDiv_mul _ _ h.k3,
      Nat.sub_sub_self hlX, Nat.sub_sub_self hlY, one h.x3, one h.y3, Nat.sub_add_cancel hlX,
      Nat.sub_add_cancel hlY]
  rw [hb, ← hl] at h3
  rw [← hl] at h2
  have hgrid : ∀ p ∈ l, OnGrid [0, 0, 0] [QX * b.L1_X, QY * b.L1_Y, QK * b.L1_K_STEP]
      (Combined.final b) p := by
    intro p hp
    obtain ⟨e1, e2⟩ := (h3 p).1 hp
    obtain ⟨t0, a0, b0⟩ := e2 0 (by simp)
    obtain ⟨t1, a1, b1⟩ := e2 1 (by simp)
    obtain ⟨t2, a2, b2⟩ := e2 2 (by simp)
    rw [hx0, hy0] at a0 a1
    refine onGrid_three.2 ⟨e1, ⟨QX - ux + t0, ?_, b0⟩, ⟨QY - uy + t1, ?_, b1⟩, ⟨t2, ?_, b2⟩⟩
    · rw [Nat.add_mul]; exact a0
    · rw [Nat.add_mul]; exact a1
    · exact a2.trans (Nat.zero_add _)
  have hne : ∀ p ∈ l, decide (p.getD 0 0 = bx * b.L1_X ∧ p.getD 1 0 = by' * b.L1_Y) = false →
      ∀ u ∈ Combined.upd b QY f g p, u.1 ≠ cbase b QY bx by' + r * b.L1_Y + c := by
    intro p hp' hq' u hu he
    have hq' := of_decide_eq_false hq'
    obtain ⟨bx', by'', bk', e0, e1, e2, h0, h1, h2⟩ := Combined.grid_tile (hgrid p hp')
    unfold Combined.upd at hu
    rw [e0, e1, Nat.mul_div_cancel _ h.x1, Nat.mul_div_cancel _ h.y1] at hu
    obtain ⟨r', c', hr', hc', eu⟩ := mem_tileUpd h hu
    rw [eu] at he
    obtain ⟨h3, h4, _, _⟩ := tpos_inj rfl h1 hr' hc' hby hr hc he
    exact hq' ⟨by rw [e0, h3], by rw [e1, h4]⟩
  rw [cellFold_filter _ hne]
  have hcx : QX * b.L1_X - b.L3_X ≤ bx * b.L1_X + r ↔ QX - ux ≤ bx := by
    rw [hx0]
    constructor
    · intro hh
      have : (QX - ux) * b.L1_X < (bx + 1) * b.L1_X := by rw [Nat.succ_mul]; omega
      exact Nat.lt_succ_iff.1 (Nat.lt_of_mul_lt_mul_right this)
    · intro hh
      exact (Nat.mul_le_mul_right _ hh).trans (Nat.le_add_right _ _)
  have hcy : QY * b.L1_Y - b.L3_Y ≤ by' * b.L1_Y + c ↔ QY - uy ≤ by' := by
    rw [hy0]
    constructor
    · intro hh
      have : (QY - uy) * b.L1_Y < (by' + 1) * b.L1_Y := by rw [Nat.succ_mul]; omega
      exact Nat.lt_succ_iff.1 (Nat.lt_of_mul_lt_mul_right this)
    · intro hh
      exact (Nat.mul_le_mul_right _ hh).trans (Nat.le_add_right _ _)
  simp only [hcx, hcy]
  split
  · rename_i hin
    rw [filter_k' (K := QK * b.L1_K_STEP) h2 (fun p hp => (onGrid_three.1 (hgrid p hp)).1) h.k1,
      List.flatMap_map, cellFold_flatMap, steps_mul _ _ h.k1, List.foldl_map]
    · unfold bdotFrom
      refine foldl_congr' (fun t _ s => ?_) _
      unfold Combined.upd
      simp only [List.getD_cons_zero, List.getD_cons_succ, Nat.mul_div_cancel _ h.x1,
        Nat.mul_div_cancel _ h.y1, Nat.mul_div_cancel _ h.k1]
      rw [tileUpd_cell h hr hc]
      rfl
    · intro k
      rw [h3]
      constructor
      · rintro ⟨-, e2⟩
        obtain ⟨t2, a2, b2⟩ := e2 2 (by simp)
        exact ⟨t2, a2.trans (Nat.zero_add _), b2⟩
      · rintro ⟨t, e1, e2⟩
        refine ⟨rfl, Combined.forall_three ⟨bx - (QX - ux), ?_, ?_⟩ ⟨by' - (QY - uy), ?_, ?_⟩ ⟨t, ?_, e2⟩⟩
        · show bx * b.L1_X = QX * b.L1_X - b.L3_X + (bx - (QX - ux)) * b.L1_X
          rw [hx0, ← Nat.add_mul]
          congr 1
          omega
        · exact Nat.mul_lt_mul_of_pos_right hbx h.x1
        · show by' * b.L1_Y = QY * b.L1_Y - b.L3_Y + (by' - (QY - uy)) * b.L1_Y
          rw [hy0, ← Nat.add_mul]
          congr 1
          omega
        · exact Nat.mul_lt_mul_of_pos_right hby h.y1
        · show k = 0 + t * b.L1_K_STEP
          omega
  · rename_i hout
    rw [List.filter_eq_nil_iff.2]
    · rfl
    · intro p hp hd
      have hd := of_decide_eq_true hd
      obtain ⟨e1, e2⟩ := (h3 p).1 hp
      obtain ⟨t0, a0, -⟩ := e2 0 (by simp)
      obtain ⟨t1, a1, -⟩ := e2 1 (by simp)
      rw [hd.1] at a0
      rw [hd.2] at a1
      refine hout ⟨?_, ?_⟩
      · have : QX * b.L1_X - b.L3_X ≤ bx * b.L1_X := by
          rw [a0]; exact Nat.le_add_right _ _
        rw [hx0] at this
        exact Nat.le_of_mul_le_mul_right this h.x1
      · have : QY * b.L1_Y - b.L3_Y ≤ by' * b.L1_Y := by
          rw [a1]; exact Nat.le_add_right _ _
        rw [hy0] at this
        exact Nat.le_of_mul_le_mul_right this h.y1

theorem cellFold_repeat {us : List (Upd α)} {p : Nat} (n : Nat) (v : α) :
    cellFold ((List.range n).flatMap fun _ => us) p v = (fun v => cellFold us p v)^[n] v := by
  induction n with
  | zero => rfl
  | succ n ih =>
    rw [List.range_succ, List.flatMap_append, cellFold_append, ih, Function.iterate_succ_apply',
      List.flatMap_singleton]

theorem iterate_ite {β : Type} (p : Prop) [Decidable p] (f : β → β) (n : Nat) (v : β) :
    (fun v => if p then f v else v)^[n] v = if p then f^[n] v else v := by
  split
  · rfl
  · induction n with
    | zero => rfl
    | succ n ih => rw [Function.iterate_succ_apply']; exact ih

/-- How often one repetition adds the product to an entry. -/
def times (b : Blocking) (X Y : Nat) (i j : Nat) : Nat :=
  if X - b.L3_X ≤ i ∧ Y - b.L3_Y ≤ j then 1 + ceilDiv Y b.L3_Y else 1

/-- The concurrent parts of a repetition with a block too many in the first dimension. -/
theorem tree_parts {recip : List Nat → List Nat → List Nat → Nat → Bool} {b : Blocking} (h : b.Valid)
    (hx : Exact b.L3_X b.L2_X) (hy : Exact b.L3_Y b.L2_Y) (hk : Exact b.L3_K_STEP b.L2_K_STEP)
    {QX QY QK : Nat} (hYe : Exact (QY * b.L1_Y) b.L3_Y) (hKe : Exact (QK * b.L1_K_STEP) b.L3_K_STEP)
    (hXe : blockCount recip [0, 0, 0] [QX * b.L1_X, QY * b.L1_Y, QK * b.L1_K_STEP]
      [b.L3_X, b.L3_Y, b.L3_K_STEP] 0 = .ok (ceilDiv (QX * b.L1_X) b.L3_X + 1))
    (h0X : 0 < QX) (h0Y : 0 < QY) {At Bp : Array α} {f g : Nat → Nat → α}
    (hX : b.L3_X ∣ QX * b.L1_X) (hY : b.L3_Y ∣ QY * b.L1_Y) (hK : b.L3_K_STEP ∣ QK * b.L1_K_STEP)
    (hA : HoldsTiled At QK QX b.L1_K_STEP b.L1_X (fun k i => f i k))
    (hB : HoldsTiled Bp QK QY b.L1_K_STEP b.L1_Y g) :
    ∃ (T : Nat → Tree α) (us : Nat → List (Upd α)) (c : Nat) (l : List (List Nat)), 0 < c ∧
      tree recip b (Combined.pol b) (QX * b.L1_X) (QY * b.L1_Y) (QK * b.L1_K_STEP) At Bp =
        .par ((List.range (c + ceilDiv (QY * b.L1_Y) b.L3_Y)).map T) ∧
      (∀ n ∈ List.range (c + ceilDiv (QY * b.L1_Y) b.L3_Y), Runs (T n) (us n)) ∧
      (List.range c).flatMap us = (Combined.calls b (QX * b.L1_X) (QY * b.L1_Y)
        (QK * b.L1_K_STEP)).leaves.flatMap (Combined.upd b QY f g) ∧
      l = (iterateRev 3 (Combined.levels b ++
        [(Combined.final b, [false, false, false])]) [QX * b.L1_X - b.L3_X, QY * b.L1_Y - b.L3_Y, 0]
        [QX * b.L1_X, QY * b.L1_Y, QK * b.L1_K_STEP]).leaves ∧
      ∀ n, c ≤ n + 1 → us n = l.flatMap (Combined.upd b QY f g) ∧ T n = T (c - 1) := by
  obtain ⟨T, L, e1, e2, e3⟩ := calls_level h hx hy hk hYe hKe hXe
  obtain ⟨hg, hp, hm⟩ := Combined.calls_spec h hX hY hK
  have hX0 : 0 < QX * b.L1_X := Nat.mul_pos h0X h.x1
  have hY0 : 0 < QY * b.L1_Y := Nat.mul_pos h0Y h.y1
  have hc1 : 0 < ceilDiv (QX * b.L1_X) b.L3_X * ceilDiv (QY * b.L1_Y) b.L3_Y :=
    Nat.mul_pos (Combined.lt_ceilDiv' (t := 0) h.x3 (by omega))
      (Combined.lt_ceilDiv' (t := 0) h.y3 (by omega))
  have hmul : (ceilDiv (QX * b.L1_X) b.L3_X + 1) * ceilDiv (QY * b.L1_Y) b.L3_Y =
      ceilDiv (QX * b.L1_X) b.L3_X * ceilDiv (QY * b.L1_Y) b.L3_Y + ceilDiv (QY * b.L1_Y) b.L3_Y :=
    Nat.succ_mul _ _
  rw [hmul] at e2
  have hlast := fun n hn => e3 n hn hX0 hY0 hX hY
  have hLl : L.leaves = _ := (hlast _ (Nat.le_succ _)).2
  clear e3
  generalize ceilDiv (QX * b.L1_X) b.L3_X * ceilDiv (QY * b.L1_Y) b.L3_Y = c1 at *
  generalize hcy : ceilDiv (QY * b.L1_Y) b.L3_Y = cy at *
  -- every part performs its updates
  have hdoes : ∀ n, n < c1 → Tree.Does true ((T n).toTree
      (Combined.body b (QX * b.L1_X) (QY * b.L1_Y) At Bp)) ((T n).leaves.flatMap
        (Combined.upd b QY f g)) := by
    intro n hn
    have hg' := hg.mono_mem
    rw [e1] at hg' hm
    cases hg' with
    | par h1 h2 =>
      have hmem : T n ∈ (List.range c1).map T := List.mem_map.2 ⟨n, List.mem_range.2 hn, rfl⟩
      refine (h1 (T n) hmem).does (fun p q hpq u hu v hv he => ?_) fun p hp =>
        Combined.body_does h hA hB ((hm p).1 (by
          rw [leaves_par]; exact List.mem_flatMap.2 ⟨_, hmem, hp⟩))
      obtain ⟨hp, hq, d, ⟨lv, hlv, ht⟩, hne⟩ := hpq
      have := Combined.upd_disjoint h ((hm p).1 hp) ((hm q).1 hq) hu hv he
      match d with
      | 0 => exact hne this.1
      | 1 => exact hne this.2
      | d + 2 =>
        revert ht
        unfold Combined.levels at hlv
        rw [List.mem_cons, List.mem_singleton] at hlv
        rcases hlv with rfl | rfl <;> match d with
          | 0 => simp
          | d + 1 => simp
  have hruns : ∀ n ∈ List.range (c1 + cy), Runs ((T n).toTree
      (Combined.body b (QX * b.L1_X) (QY * b.L1_Y) At Bp)) ((T n).leaves.flatMap
        (Combined.upd b QY f g)) := by
    intro n _
    rcases Nat.lt_or_ge n c1 with hn | hn
    · exact Runs.of_does (hdoes n hn)
    · rw [(hlast n (by omega)).1, ← (hlast (c1 - 1) (by omega)).1]
      exact Runs.of_does (hdoes (c1 - 1) (by omega))
  have e4 : tree recip b (Combined.pol b) (QX * b.L1_X) (QY * b.L1_Y) (QK * b.L1_K_STEP) At Bp =
      .par ((List.range (c1 + cy)).map fun n => (T n).toTree
        (Combined.body b (QX * b.L1_X) (QY * b.L1_Y) At Bp)) := by
    rw [tree_eq, e2, toTree_par, List.map_map]
    rfl
  refine ⟨fun n => (T n).toTree (Combined.body b (QX * b.L1_X) (QY * b.L1_Y) At Bp),
    fun n => (T n).leaves.flatMap (Combined.upd b QY f g), c1, L.leaves, hc1, e4, hruns, ?_, hLl,
    fun n hn => ?_⟩
  · rw [e1, leaves_par, List.flatMap_map, List.flatMap_assoc]
  · dsimp only
    rw [(hlast n hn).1, (hlast (c1 - 1) (by omega)).1]
    exact ⟨rfl, rfl⟩

theorem rep_wrong {recip : List Nat → List Nat → List Nat → Nat → Bool} {b : Blocking} (h : b.Valid)
    (hx : Exact b.L3_X b.L2_X) (hy : Exact b.L3_Y b.L2_Y) (hk : Exact b.L3_K_STEP b.L2_K_STEP)
    {QX QY QK : Nat} (hYe : Exact (QY * b.L1_Y) b.L3_Y) (hKe : Exact (QK * b.L1_K_STEP) b.L3_K_STEP)
    (hXe : blockCount recip [0, 0, 0] [QX * b.L1_X, QY * b.L1_Y, QK * b.L1_K_STEP]
      [b.L3_X, b.L3_Y, b.L3_K_STEP] 0 = .ok (ceilDiv (QX * b.L1_X) b.L3_X + 1))
    (h0X : 0 < QX) (h0Y : 0 < QY) {At Bp C : Array α} {f g d : Nat → Nat → α}
    (hX : b.L3_X ∣ QX * b.L1_X) (hY : b.L3_Y ∣ QY * b.L1_Y) (hK : b.L3_K_STEP ∣ QK * b.L1_K_STEP)
    (hA : HoldsTiled At QK QX b.L1_K_STEP b.L1_X (fun k i => f i k))
    (hB : HoldsTiled Bp QK QY b.L1_K_STEP b.L1_Y g) (hC : HoldsTiled C QX QY b.L1_X b.L1_Y d) :
    ∃ C', ND.runOn C (tree recip b (Combined.pol b) (QX * b.L1_X) (QY * b.L1_Y) (QK * b.L1_K_STEP) At Bp)
        (.ok C') ∧ HoldsTiled C' QX QY b.L1_X b.L1_Y (fun i j =>
          (fun v => bdotFrom v b.L1_K_STEP QK (fun k => f i k) (fun k => g k j))^[times b (QX * b.L1_X)
            (QY * b.L1_Y) i j] (d i j)) := by
  obtain ⟨T, us, c1, l, hc1, e4, hruns, e1, hLl, hlast⟩ := tree_parts h hx hy hk hYe hKe hXe h0X h0Y hX hY hK
    hA hB
  have hr := Runs.par hruns
  rw [← e4] at hr
  generalize hcy : ceilDiv (QY * b.L1_Y) b.L3_Y = cy at *
  refine ⟨_, hr.runOn C, fun bx hbx by' hby r hr c hc => ?_⟩
  rw [applyA_get, hC bx hbx by' hby r hr c hc, Option.map_some]
  refine congrArg some ?_
  show cellFold _ (cbase b QY bx by' + r * b.L1_Y + c) _ = _
  have e5 : (List.range (c1 + cy)).flatMap us =
      (Combined.calls b (QX * b.L1_X) (QY * b.L1_Y) (QK * b.L1_K_STEP)).leaves.flatMap
        (Combined.upd b QY f g) ++
      (List.range cy).flatMap fun _ => l.flatMap (Combined.upd b QY f g) := by
    rw [List.range_add, List.flatMap_append, e1]
    congr 1
    rw [List.flatMap_map]
    refine List.flatMap_congr fun n _ => ?_
    rw [(hlast (c1 + n) (by omega)).1]
  rw [e5, cellFold_append, Combined.tree_cell h hX hY hK hbx hby hr hc, cellFold_repeat]
  simp only [last_cell h hX hY hK h0X h0Y hLl hbx hby hr hc]
  rw [iterate_ite]
  unfold times
  rw [hcy]
  split
  · rw [Nat.add_comm 1 cy, Function.iterate_succ_apply]
  · rfl

/-- Repeating a step that has a given outcome. -/
theorem foldlM_some {ι σ : Type} {P : Nat → σ → Prop} {f : σ → ι → ND σ}
    (h : ∀ n s i, P n s → ∃ s', f s i (.ok s') ∧ P (n + 1) s') (l : List ι) :
    ∀ n s, P n s → ∃ s', l.foldlM f s (.ok s') ∧ P (n + l.length) s' := by
  induction l with
  | nil => intro n s hs; exact ⟨s, rfl, hs⟩
  | cons i l ih =>
    intro n s hs
    obtain ⟨s', e, hs'⟩ := h n s i hs
    obtain ⟨s'', e', hs''⟩ := ih (n + 1) s' hs'
    refine ⟨s'', ?_, ?_⟩
    · rw [List.foldlM_cons]
      exact .inr ⟨s', e, e'⟩
    · rw [List.length_cons, Nat.add_comm l.length, ← Nat.add_assoc]; exact hs''

/-- Two tasks of a repetition race on the elements of the last block. -/
theorem race_wrong {recip : List Nat → List Nat → List Nat → Nat → Bool} {b : Blocking} (h : b.Valid)
    (hx : Exact b.L3_X b.L2_X) (hy : Exact b.L3_Y b.L2_Y) (hk : Exact b.L3_K_STEP b.L2_K_STEP)
    {QX QY QK : Nat} (hYe : Exact (QY * b.L1_Y) b.L3_Y) (hKe : Exact (QK * b.L1_K_STEP) b.L3_K_STEP)
    (hXe : blockCount recip [0, 0, 0] [QX * b.L1_X, QY * b.L1_Y, QK * b.L1_K_STEP]
      [b.L3_X, b.L3_Y, b.L3_K_STEP] 0 = .ok (ceilDiv (QX * b.L1_X) b.L3_X + 1))
    (h0X : 0 < QX) (h0Y : 0 < QY) {At Bp : Array α} {f g : Nat → Nat → α}
    (hX : b.L3_X ∣ QX * b.L1_X) (hY : b.L3_Y ∣ QY * b.L1_Y) (hK : b.L3_K_STEP ∣ QK * b.L1_K_STEP)
    (hA : HoldsTiled At QK QX b.L1_K_STEP b.L1_X (fun k i => f i k))
    (hB : HoldsTiled Bp QK QY b.L1_K_STEP b.L1_Y g) {bx by' r c : Nat} (hbx : bx < QX)
    (hby : by' < QY) (hr : r < b.L1_X) (hc : c < b.L1_Y)
    (hi : QX * b.L1_X - b.L3_X ≤ bx * b.L1_X + r) (hj : QY * b.L1_Y - b.L3_Y ≤ by' * b.L1_Y + c)
    (hne : ∀ v, bdotFrom v b.L1_K_STEP QK (fun k => f (bx * b.L1_X + r) k)
      (fun k => g k (by' * b.L1_Y + c)) ≠ v) (m : Mem α) :
    ∃ m' t', PSteps m (tree recip b (Combined.pol b) (QX * b.L1_X) (QY * b.L1_Y) (QK * b.L1_K_STEP) At Bp)
      m' t' ∧ RaceOn (.cell (cbase b QY bx by' + r * b.L1_Y + c)) t' := by
  obtain ⟨T, us, c1, l, hc1, e4, hruns, e1, hLl, hlast⟩ := tree_parts h hx hy hk hYe hKe hXe h0X h0Y hX hY hK
    hA hB
  rw [e4]
  have hcy : 0 < ceilDiv (QY * b.L1_Y) b.L3_Y :=
    Combined.lt_ceilDiv' (t := 0) h.y3 (by have := Nat.mul_pos h0Y h.y1; omega)
  have hget : ∀ n, n < c1 + ceilDiv (QY * b.L1_Y) b.L3_Y →
      ((List.range (c1 + ceilDiv (QY * b.L1_Y) b.L3_Y)).map T)[n]? = some (T n) := by
    intro n hn
    rw [List.getElem?_map, List.getElem?_range hn, Option.map_some]
  refine Runs.race (n := c1 - 1) (n' := c1) (hruns (c1 - 1) (List.mem_range.2 (by omega)))
    (hget _ (by omega)) ?_ (by omega) (fun v => ?_) m
  · rw [hget _ (by omega), (hlast c1 (by omega)).2]
  · rw [(hlast (c1 - 1) (by omega)).1, last_cell h hX hY hK h0X h0Y hLl hbx hby hr hc, if_pos ⟨hi, hj⟩]
    exact hne v

theorem mm_wrong {recip : List Nat → List Nat → List Nat → Nat → Bool} {b : Blocking} (h : b.Valid)
    (hx : Exact b.L3_X b.L2_X) (hy : Exact b.L3_Y b.L2_Y) (hk : Exact b.L3_K_STEP b.L2_K_STEP)
    {N : Nat} (hN : 0 < N) (hYe : Exact (Y b N) b.L3_Y) (hKe : Exact (K b N) b.L3_K_STEP)
    (hXe : blockCount recip [0, 0, 0] [X b N, Y b N, K b N]
      [b.L3_X, b.L3_Y, b.L3_K_STEP] 0 = .ok (ceilDiv (X b N) b.L3_X + 1))
    {A B : Array α} {f g : Nat → Nat → α} (hA : Holds A N N f) (hB : Holds B N N g) (r : Nat) :
    matrix_multiply recip b N A B r (.ok (rowMajor N fun i j =>
      repeatDot (r * times b (X b N) (Y b N) i j) b.L1_K_STEP (K b N / b.L1_K_STEP)
        (fun k => pad N f i k) (fun k => pad N g k j))) := by
  have hXN : N ≤ X b N := le_padded h.x3
  have hYN : N ≤ Y b N := le_padded h.y3
  obtain ⟨QX, hX⟩ := X_eq h N
  obtain ⟨QY, hY⟩ := Y_eq h N
  obtain ⟨QK, hK⟩ := K_eq h N
  have dX : b.L3_X ∣ QX * b.L1_X := hX ▸ Dvd.intro_left _ rfl
  have dY : b.L3_Y ∣ QY * b.L1_Y := hY ▸ Dvd.intro_left _ rfl
  have dK : b.L3_K_STEP ∣ QK * b.L1_K_STEP := hK ▸ Dvd.intro_left _ rfl
  unfold matrix_multiply
  rw [setup_ok h hA hB, ND.ofM_ok, ND.pure_bind']
  obtain ⟨w, hw⟩ := Combined.A_trans_untiled_ok (p := ⟨X b N, Y b N, K b N,
    rect (X b N) (K b N) (pad N f), rect (K b N) (Y b N) (pad N g)⟩) (holds_rect _ _ _)
  obtain ⟨At, eA, _, hAt⟩ := tileA_ok (b := b) (p := ⟨X b N, Y b N, K b N,
    rect (X b N) (K b N) (pad N f), rect (K b N) (Y b N) (pad N g)⟩) hX hK h.x1 h.k1
    (holds_rect _ _ _)
  obtain ⟨Bp, eB, _, hBp⟩ := tileB_ok (b := b) (p := ⟨X b N, Y b N, K b N,
    rect (X b N) (K b N) (pad N f), rect (K b N) (Y b N) (pad N g)⟩) hY hK h.y1 h.k1
    (holds_rect _ _ _)
  rw [hw, eA, eB, ND.ofM_ok, ND.ofM_ok, ND.ofM_ok, ND.pure_bind', ND.pure_bind', ND.pure_bind']
  simp only [Combined.policy_ok, ND.ofM_ok, ND.pure_bind']
  have h0X : 0 < QX := Nat.pos_of_ne_zero fun h0 => by rw [h0, Nat.zero_mul] at hX; omega
  have h0Y : 0 < QY := Nat.pos_of_ne_zero fun h0 => by rw [h0, Nat.zero_mul] at hY; omega
  rw [hX, hY, hK] at hXe
  rw [hY] at hYe
  rw [hK] at hKe
  obtain ⟨C, eC, hC⟩ := foldlM_some (ι := Nat)
    (P := fun n (C : Array α) => HoldsTiled C QX QY b.L1_X b.L1_Y fun i j =>
      repeatDot (n * times b (X b N) (Y b N) i j) b.L1_K_STEP QK (fun k => pad N f i k)
        (fun k => pad N g k j))
    (f := fun C _ => ND.runOn C (tree recip b (Combined.pol b) (X b N) (Y b N) (K b N) At Bp))
    (fun n C _ hC => by
      obtain ⟨C', e, hC'⟩ := rep_wrong h hx hy hk hYe hKe hXe h0X h0Y dX dY dK hAt hBp hC
      refine ⟨C', by rw [hX, hY, hK]; exact e, ?_⟩
      have e' : ∀ i j, repeatDot ((n + 1) * times b (X b N) (Y b N) i j) b.L1_K_STEP QK
          (fun k => pad N f i k) (fun k => pad N g k j) =
          (fun v => bdotFrom v b.L1_K_STEP QK (fun k => pad N f i k) (fun k => pad N g k j))^[times b
            (QX * b.L1_X) (QY * b.L1_Y) i j] (repeatDot (n * times b (X b N) (Y b N) i j) b.L1_K_STEP QK
              (fun k => pad N f i k) (fun k => pad N g k j)) := by
        intro i j
        unfold repeatDot
        rw [← Function.iterate_add_apply, ← hX, ← hY, Nat.succ_mul, Nat.add_comm]
      simp only [e']
      exact hC') (List.range r) 0 (zeros (X b N * Y b N)) (by
        simp only [Nat.zero_mul]
        exact Combined.zeros_tiled (by rw [hX, hY]))
  rw [List.length_range, Nat.zero_add] at hC
  refine .inr ⟨C, eC, ?_⟩
  have e2 : K b N / b.L1_K_STEP = QK := by rw [hK, Nat.mul_div_cancel _ h.k1]
  rw [e2]
  exact (extract_ok h.x1 h.y1 hX hY hXN hYN hC).symm

theorem mm_right {recip : List Nat → List Nat → List Nat → Nat → Bool} {b : Blocking} (h : b.Valid)
    (hx : Exact b.L3_X b.L2_X) (hy : Exact b.L3_Y b.L2_Y) (hk : Exact b.L3_K_STEP b.L2_K_STEP)
    {N : Nat} (hYe : Exact (Y b N) b.L3_Y) (hKe : Exact (K b N) b.L3_K_STEP)
    (hXe : blockCount recip [0, 0, 0] [X b N, Y b N, K b N]
      [b.L3_X, b.L3_Y, b.L3_K_STEP] 0 = .ok (ceilDiv (X b N) b.L3_X))
    {A B : Array α} {f g : Nat → Nat → α} (hA : Holds A N N f) (hB : Holds B N N g) (r : Nat) :
    matrix_multiply recip b N A B r = Combined.matrix_multiply b N A B r := by
  unfold matrix_multiply Combined.matrix_multiply
  rw [setup_ok h hA hB, ND.ofM_ok, ND.pure_bind', ND.pure_bind']
  obtain ⟨T, L, e1, e2, -⟩ := calls_level h hx hy hk hYe hKe hXe
  have e : ∀ At Bp : Array α, tree recip b (Combined.pol b) (X b N) (Y b N) (K b N) At Bp =
      Combined.tree b (Combined.pol b) (X b N) (Y b N) (K b N) At Bp := by
    intro At Bp
    rw [tree_eq, Combined.tree_eq, e1, e2]
  simp only [Combined.policy_ok, ND.ofM_ok, ND.pure_bind', e]

end Iteration

end Verif.Reciprocal
