import Verif.SpecDouble
import Mathlib.Tactic.Ring
import Mathlib.Tactic.Linarith
import Mathlib.Tactic.FieldSimp
import Mathlib.Tactic.NormNum
import Mathlib.Tactic.Positivity
/-
Rounding to doubles.
-/
namespace Verif.IEEE

theorem roundInt_err (r : ℚ) : |(roundInt r : ℚ) - r| ≤ 1 / 2 := by
  have h1 := Int.floor_le r
  have h2 := Int.lt_floor_add_one r
  unfold roundInt
  rw [abs_le]
  split_ifs <;> push_cast <;> constructor <;> linarith

theorem roundInt_int (n : ℤ) : roundInt n = n := by
  unfold roundInt
  rw [Int.floor_intCast, sub_self, if_pos (by norm_num)]

theorem roundInt_le {r : ℚ} {n : ℤ} (h : |r| ≤ n) : |roundInt r| ≤ n := by
  have h1 := roundInt_err r
  rw [abs_le] at h h1 ⊢
  constructor
  · by_contra hc
    have h2 : roundInt r + 1 ≤ -n := by omega
    have h3 : (roundInt r : ℚ) + 1 ≤ -n := by exact_mod_cast h2
    linarith [h1.1]
  · by_contra hc
    have h2 : n + 1 ≤ roundInt r := by omega
    have h3 : (n : ℚ) + 1 ≤ roundInt r := by exact_mod_cast h2
    linarith [h1.2]

theorem le_roundInt {r : ℚ} {n : ℤ} (h : n ≤ |r|) : n ≤ |roundInt r| := by
  have h1 := roundInt_err r
  have h2 : |r| ≤ |(roundInt r : ℚ)| + 1 / 2 := by
    have := abs_sub_abs_le_abs_sub r (roundInt r : ℚ)
    rw [abs_sub_comm] at this
    linarith
  by_contra hc
  have h3 : |roundInt r| + 1 ≤ n := by omega
  have h4 : |(roundInt r : ℚ)| + 1 ≤ n := by exact_mod_cast h3
  linarith

theorem two_zpow_pos (e : ℤ) : (0 : ℚ) < 2 ^ e := zpow_pos (by norm_num) e

theorem two_zpow_le {d e : ℤ} (h : d ≤ e) : (2 : ℚ) ^ d ≤ 2 ^ e :=
  zpow_le_zpow_right₀ (by norm_num) h

theorem two_zpow_add (d e : ℤ) : (2 : ℚ) ^ (d + e) = 2 ^ d * 2 ^ e := zpow_add₀ (by norm_num) d e

theorem two_zpow_of_lt {d e : ℤ} (h : (2 : ℚ) ^ d < 2 ^ e) : d < e := by
  by_contra hc
  exact absurd h (not_lt.2 (two_zpow_le (by omega)))

theorem log_le {q : ℚ} (h : q ≠ 0) : (2 : ℚ) ^ Int.log 2 |q| ≤ |q| := by
  have := Int.zpow_log_le_self (b := 2) (R := ℚ) (by norm_num) (abs_pos.2 h)
  exact_mod_cast this

theorem lt_log (q : ℚ) : |q| < (2 : ℚ) ^ (Int.log 2 |q| + 1) := by
  have := Int.lt_zpow_succ_log_self (b := 2) (R := ℚ) (by norm_num) |q|
  exact_mod_cast this

theorem log_lt {q : ℚ} {e : ℤ} (h0 : q ≠ 0) (h : |q| < 2 ^ e) : Int.log 2 |q| < e :=
  two_zpow_of_lt ((log_le h0).trans_lt h)

theorem scaled_lt (q : ℚ) : |q / 2 ^ expo q| < 2 ^ 53 := by
  rw [abs_div, abs_of_pos (two_zpow_pos _), div_lt_iff₀ (two_zpow_pos _)]
  refine (lt_log q).trans_le ?_
  have : (2 : ℚ) ^ 53 = 2 ^ (53 : ℤ) := by norm_cast
  rw [this, ← two_zpow_add]
  refine two_zpow_le ?_
  have : Int.log 2 |q| - 52 ≤ expo q := le_max_left _ _
  omega

theorem roundNum_err (q : ℚ) : |roundNum q - q| ≤ 2 ^ expo q / 2 := by
  have hp := two_zpow_pos (expo q)
  have e : roundNum q - q = (roundInt (q / 2 ^ expo q) - q / 2 ^ expo q) * 2 ^ expo q := by
    unfold roundNum
    field_simp
  rw [e, abs_mul, abs_of_pos hp]
  have := mul_le_mul_of_nonneg_right (roundInt_err (q / 2 ^ expo q)) hp.le
  linarith

/-- A representable number is not changed. -/
theorem roundNum_exact {q : ℚ} (h : IsDouble q) : roundNum q = q := by
  obtain ⟨m, e, hm, he, -, rfl⟩ := h
  by_cases h0 : m = 0
  · subst h0
    unfold roundNum
    rw [Int.cast_zero, zero_mul, zero_div]
    have := roundInt_int 0
    rw [Int.cast_zero] at this
    rw [this, Int.cast_zero, zero_mul]
  have hq : (m : ℚ) * 2 ^ e ≠ 0 := mul_ne_zero (by exact_mod_cast h0) (two_zpow_pos e).ne'
  have hlt : |(m : ℚ) * 2 ^ e| < 2 ^ (53 + e) := by
    rw [abs_mul, abs_of_pos (two_zpow_pos e), two_zpow_add]
    refine mul_lt_mul_of_pos_right ?_ (two_zpow_pos e)
    have : (2 : ℚ) ^ (53 : ℤ) = 2 ^ 53 := by norm_cast
    rw [this]
    exact_mod_cast hm
  have hl := log_lt hq hlt
  have hx : expo ((m : ℚ) * 2 ^ e) ≤ e := max_le (by omega) he
  unfold roundNum
  generalize expo ((m : ℚ) * 2 ^ e) = x at *
  obtain ⟨d, hd⟩ := Int.le.dest hx
  have h2 : (m : ℚ) * 2 ^ e / 2 ^ x = ((m * 2 ^ d : ℤ) : ℚ) := by
    rw [← hd, two_zpow_add, div_eq_iff (two_zpow_pos x).ne', zpow_natCast]
    push_cast
    ring
  rw [h2, roundInt_int, ← hd, two_zpow_add, zpow_natCast]
  push_cast
  ring

theorem le_expo (q : ℚ) : -1074 ≤ expo q := le_max_right _ _

/-- Rounding gives a representable number unless it overflows. -/
theorem isDouble_roundNum {q : ℚ} (h : |roundNum q| < 2 ^ (1024 : ℤ)) : IsDouble (roundNum q) := by
  have hp := two_zpow_pos (expo q)
  by_cases h0 : q = 0
  · subst h0
    refine ⟨0, 0, by norm_num, by norm_num, by norm_num, ?_⟩
    have := roundInt_int 0
    rw [Int.cast_zero] at this
    unfold roundNum
    rw [zero_div, this, Int.cast_zero, zero_mul, zero_mul]
  have hr : |roundNum q| = |(roundInt (q / 2 ^ expo q) : ℚ)| * 2 ^ expo q := by
    unfold roundNum
    rw [abs_mul, abs_of_pos hp]
  have hm : |roundInt (q / 2 ^ expo q)| ≤ 2 ^ 53 := roundInt_le (by
    push_cast; exact (scaled_lt q).le)
  have he : expo q ≤ 971 := by
    by_contra hc
    have h1 : expo q = Int.log 2 |q| - 52 := by
      unfold expo at hc ⊢
      rcases max_choice (Int.log 2 |q| - 52) (-1074) with h | h
      · exact h
      · rw [h] at hc; omega
    have h2 : ((2 ^ 52 : ℤ) : ℚ) ≤ |q / 2 ^ expo q| := by
      rw [abs_div, abs_of_pos hp, le_div_iff₀ hp]
      refine le_trans (le_of_eq ?_) (log_le h0)
      rw [h1, show Int.log 2 |q| = 52 + (Int.log 2 |q| - 52) by omega, two_zpow_add]
      norm_num
    have h3 := le_roundInt h2
    have h4 : ((2 ^ 52 : ℤ) : ℚ) ≤ |(roundInt (q / 2 ^ expo q) : ℚ)| := by exact_mod_cast h3
    have h5 : (2 : ℚ) ^ (972 : ℤ) ≤ 2 ^ expo q := two_zpow_le (by omega)
    have h6 := mul_le_mul h4 h5 (two_zpow_pos _).le (abs_nonneg _)
    rw [← hr] at h6
    have h7 : ((2 ^ 52 : ℤ) : ℚ) * 2 ^ (972 : ℤ) = 2 ^ (1024 : ℤ) := by
      rw [show (1024 : ℤ) = 52 + 972 by norm_num, two_zpow_add]
      congr 1
    rw [h7] at h6
    exact absurd h (not_lt.2 h6)
  rcases lt_or_eq_of_le hm with hlt | heq
  · exact ⟨_, _, hlt, le_expo q, he, rfl⟩
  have hv : |roundNum q| = 2 ^ (53 + expo q) := by
    rw [hr, two_zpow_add]
    congr 1
    have : |(roundInt (q / 2 ^ expo q) : ℚ)| = ((|roundInt (q / 2 ^ expo q)| : ℤ) : ℚ) := by push_cast; rfl
    rw [this, heq]
    norm_cast
  have he' : expo q + 1 ≤ 971 := by
    rw [hv] at h
    have := two_zpow_of_lt h
    omega
  have hs : ∃ m : ℤ, |m| < 2 ^ 53 ∧ (roundInt (q / 2 ^ expo q)) = m * 2 := by
    rcases abs_eq (by norm_num : (0 : ℤ) ≤ 2 ^ 53) |>.1 heq with h | h
    · exact ⟨2 ^ 52, by norm_num, by rw [h]; norm_num⟩
    · exact ⟨-2 ^ 52, by norm_num, by rw [h]; norm_num⟩
  obtain ⟨m, hm1, hm2⟩ := hs
  refine ⟨m, expo q + 1, hm1, by have := le_expo q; omega, he', ?_⟩
  unfold roundNum
  rw [hm2, two_zpow_add]
  push_cast
  ring

/-- Results of operations are doubles. -/
theorem Ext.isDouble_round (x : Ext) : x.round.IsDouble := by
  cases x with
  | num q =>
    show Ext.IsDouble (if _ then _ else if _ then _ else _)
    split
    · trivial
    · split
      · trivial
      · rename_i h1 h2
        exact ⟨h2, isDouble_roundNum (not_le.1 h1)⟩
  | _ => trivial

/-- A double is not changed by rounding. -/
theorem isDouble_lt {q : ℚ} (h : IsDouble q) : |q| < 2 ^ (1024 : ℤ) := by
  obtain ⟨m, e, hm, -, he, rfl⟩ := h
  rw [abs_mul, abs_of_pos (two_zpow_pos e)]
  have h1 : |(m : ℚ)| < 2 ^ 53 := by exact_mod_cast hm
  have h2 : (2 : ℚ) ^ e ≤ 2 ^ (971 : ℤ) := two_zpow_le he
  have h3 := mul_lt_mul h1 h2 (two_zpow_pos e) (by positivity)
  have h4 : (2 : ℚ) ^ 53 * 2 ^ (971 : ℤ) = 2 ^ (1024 : ℤ) := by
    rw [show (1024 : ℤ) = 53 + 971 by norm_num, two_zpow_add]
    congr 1
  rwa [h4] at h3

theorem Ext.round_exact {x : Ext} (h : x.IsDouble) : x.round = x := by
  cases x with
  | num q =>
    show (if _ then _ else if _ then _ else _) = _
    rw [roundNum_exact h.2, if_neg (not_le.2 (isDouble_lt h.2)), if_neg h.1]
  | _ => rfl

end Verif.IEEE
