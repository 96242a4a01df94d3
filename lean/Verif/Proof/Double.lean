import Verif.Model.Double
import Verif.SpecRounding
import Verif.SpecIntegers
/-
The laws of double precision.
-/
namespace Verif.IEEE

theorem roundNum_zero : roundNum 0 = 0 := by
  unfold roundNum
  rw [zero_div]
  have := roundInt_int 0
  rw [Int.cast_zero] at this
  rw [this, Int.cast_zero, zero_mul]

/-- The rounded number is one of the nearest doubles. -/
theorem roundInt_nearest (r : ℚ) (n : ℤ) : |(roundInt r : ℚ) - r| ≤ |(n : ℚ) - r| := by
  have h1 := Int.floor_le r
  have h2 := Int.lt_floor_add_one r
  have h3 : n ≤ ⌊r⌋ ∨ ⌊r⌋ + 1 ≤ n := by omega
  have key : ∀ s : ℚ, |s| ≤ r - ⌊r⌋ → |s| ≤ ⌊r⌋ + 1 - r → |s| ≤ |(n : ℚ) - r| := by
    intro s hs1 hs2
    rcases h3 with h | h
    · have h' : (n : ℚ) ≤ ⌊r⌋ := by exact_mod_cast h
      rw [abs_sub_comm, abs_of_nonneg (a := r - n) (by linarith)]
      linarith
    · have h' : (⌊r⌋ : ℚ) + 1 ≤ n := by exact_mod_cast h
      rw [abs_of_nonneg (a := (n : ℚ) - r) (by linarith)]
      linarith
  apply key
  all_goals
    unfold roundInt
    split_ifs
    all_goals
      push_cast
      rw [abs_le]
      constructor <;> linarith

theorem roundNum_nearest_mul (q : ℚ) (n : ℤ) : |roundNum q - q| ≤ |n * 2 ^ expo q - q| := by
  have hp := two_zpow_pos (expo q)
  have e1 : roundNum q - q = (roundInt (q / 2 ^ expo q) - q / 2 ^ expo q) * 2 ^ expo q := by
    unfold roundNum
    field_simp
  have e2 : n * 2 ^ expo q - q = (n - q / 2 ^ expo q) * 2 ^ expo q := by
    field_simp
  rw [e1, e2, abs_mul, abs_mul]
  exact mul_le_mul_of_nonneg_right (roundInt_nearest _ _) (abs_nonneg _)

/-- No double is nearer. -/
theorem roundNum_nearest (q : ℚ) {y : ℚ} (hy : IsDouble y) : |roundNum q - q| ≤ |y - q| := by
  obtain ⟨m, e, hm, he, -, rfl⟩ := hy
  rcases le_or_gt (expo q) e with h | h
  · obtain ⟨d, hd⟩ := Int.le.dest h
    have := roundNum_nearest_mul q (m * 2 ^ d)
    rw [← hd, two_zpow_add, zpow_natCast]
    push_cast at this
    rw [mul_comm ((2 : ℚ) ^ expo q), ← mul_assoc]
    exact this
  · by_cases h0 : q = 0
    · subst h0
      rw [roundNum_zero, sub_zero, abs_zero]
      exact abs_nonneg _
    have hx : expo q = Int.log 2 |q| - 52 := by
      unfold expo at h ⊢
      rcases max_choice (Int.log 2 |q| - 52) (-1074) with h' | h'
      · exact h'
      · rw [h'] at h; omega
    have hy : |(m : ℚ) * 2 ^ e| ≤ 2 ^ Int.log 2 |q| := by
      rw [abs_mul, abs_of_pos (two_zpow_pos e)]
      have h1 : |(m : ℚ)| ≤ 2 ^ (53 : ℤ) := by
        have : |(m : ℚ)| < 2 ^ 53 := by exact_mod_cast hm
        exact this.le
      have h2 := mul_le_mul_of_nonneg_right h1 (two_zpow_pos e).le
      rw [← two_zpow_add] at h2
      exact h2.trans (two_zpow_le (by omega))
    have hl := log_le h0
    have hb : (2 : ℚ) ^ Int.log 2 |q| = (2 ^ 52 : ℤ) * 2 ^ expo q := by
      rw [hx]
      have : (Int.log 2 |q|) = 52 + (Int.log 2 |q| - 52) := by omega
      rw [this, two_zpow_add, show 52 + (Int.log 2 |q| - 52) - 52 = Int.log 2 |q| - 52 by omega]
      congr 1
    have h4 : |q| - |(m : ℚ) * 2 ^ e| ≤ |(m : ℚ) * 2 ^ e - q| := by
      have := abs_sub_abs_le_abs_sub q ((m : ℚ) * 2 ^ e)
      rwa [abs_sub_comm q] at this
    rcases lt_or_gt_of_ne h0 with hq | hq
    · have h3 := roundNum_nearest_mul q (-2 ^ 52)
      rw [Int.cast_neg, neg_mul, ← hb] at h3
      rw [abs_of_neg hq] at hl hy h4 h3
      rw [abs_of_nonneg (a := -(2 : ℚ) ^ Int.log 2 (-q) - q) (by linarith)] at h3
      linarith
    · have h3 := roundNum_nearest_mul q (2 ^ 52)
      rw [← hb] at h3
      rw [abs_of_pos hq] at hl hy h4 h3
      rw [abs_sub_comm, abs_sub_comm ((2 : ℚ) ^ _), abs_of_nonneg (a := q - (2 : ℚ) ^ Int.log 2 q) (by linarith)] at h3
      rw [abs_sub_comm]
      linarith

/-- Either a small relative error, or a small absolute error. -/
theorem roundNum_law (q : ℚ) :
    (∃ δ, |δ| ≤ 2 ^ (-53 : ℤ) ∧ roundNum q = q * (1 + δ)) ∨
      (|q| < 2 ^ (-1022 : ℤ) ∧ ∃ ε, |ε| ≤ 2 ^ (-1075 : ℤ) ∧ roundNum q = q + ε) := by
  by_cases h0 : q = 0
  · left
    exact ⟨0, by rw [abs_zero]; exact (two_zpow_pos _).le, by rw [h0, roundNum_zero, zero_mul]⟩
  have he := roundNum_err q
  rcases le_or_gt (-1022) (Int.log 2 |q|) with h | h
  · left
    have hx : expo q = Int.log 2 |q| - 52 := max_eq_left (by omega)
    refine ⟨(roundNum q - q) / q, ?_, by field_simp; ring⟩
    rw [abs_div, div_le_iff₀ (abs_pos.2 h0)]
    refine he.trans ?_
    have h1 := mul_le_mul_of_nonneg_left (log_le h0) (two_zpow_pos (-53)).le
    refine le_trans (le_of_eq ?_) h1
    rw [← two_zpow_add, hx, show Int.log 2 |q| - 52 = (-53 + Int.log 2 |q|) + 1 by omega, two_zpow_add _ 1]
    norm_num
  · right
    have hx : expo q = -1074 := max_eq_right (by omega)
    refine ⟨(lt_log q).trans_le (two_zpow_le (by omega)), roundNum q - q, ?_, by ring⟩
    refine he.trans (le_of_eq ?_)
    rw [hx, show (-1074 : ℤ) = -1075 + 1 by norm_num, two_zpow_add]
    norm_num

/-- The largest double. -/
def maxDouble : ℚ := (2 ^ 53 - 1) * 2 ^ (971 : ℤ)

theorem isDouble_max : IsDouble maxDouble :=
  ⟨2 ^ 53 - 1, 971, by norm_num, by norm_num, by norm_num, by
    unfold maxDouble
    congr 1
    norm_num⟩

/-- No double is larger. -/
theorem le_maxDouble {q : ℚ} (h : IsDouble q) : |q| ≤ maxDouble := by
  obtain ⟨m, e, hm, -, he, rfl⟩ := h
  rw [abs_mul, abs_of_pos (two_zpow_pos e)]
  have h1 : |m| ≤ 2 ^ 53 - 1 := by omega
  have h2 : |(m : ℚ)| ≤ 2 ^ 53 - 1 := by exact_mod_cast h1
  exact mul_le_mul h2 (two_zpow_le he) (two_zpow_pos e).le (by norm_num)

theorem maxDouble_lt : maxDouble < 2 ^ (1024 : ℤ) := by
  have := isDouble_lt isDouble_max
  exact (le_abs_self _).trans_lt this

theorem isDouble_neg {q : ℚ} (h : IsDouble q) : IsDouble (-q) := by
  obtain ⟨m, e, h1, h2, h3, rfl⟩ := h
  exact ⟨-m, e, by rwa [abs_neg], h2, h3, by push_cast; ring⟩

theorem isDouble_zero : IsDouble 0 := ⟨0, 0, by norm_num, by norm_num, by norm_num, by norm_num⟩

theorem roundNum_le_max {q : ℚ} (h : |q| ≤ maxDouble) : |roundNum q| ≤ maxDouble := by
  by_contra hc
  rw [not_le] at hc
  have h0 := isDouble_max
  -- the largest double is nearer
  have key : ∀ q : ℚ, |q| ≤ maxDouble → maxDouble < |roundNum q| → False := by
    intro q h hc
    have hm := abs_le.1 h
    rcases lt_abs.1 hc with h1 | h1
    · have h2 := roundNum_nearest q h0
      rw [abs_of_nonneg (a := roundNum q - q) (by linarith), abs_of_nonneg (a := maxDouble - q)
        (by linarith)] at h2
      linarith
    · have h2 := roundNum_nearest q (isDouble_neg h0)
      rw [abs_of_nonpos (a := roundNum q - q) (by linarith), abs_of_nonpos (a := -maxDouble - q)
        (by linarith)] at h2
      linarith
  exact key q h hc

/-- Doubles are multiples of the smallest one. -/
theorem IsDouble.multiple {q : ℚ} (h : IsDouble q) : ∃ n : ℤ, q = n * 2 ^ (-1074 : ℤ) := by
  obtain ⟨m, e, -, he, -, rfl⟩ := h
  obtain ⟨d, hd⟩ := Int.le.dest he
  refine ⟨m * 2 ^ d, ?_⟩
  rw [← hd, two_zpow_add, zpow_natCast]
  rw [Int.cast_mul, Int.cast_pow, Int.cast_ofNat, mul_comm _ ((2 : ℚ) ^ d), mul_assoc]

/-- Sums of multiples of the smallest double do not underflow. -/
theorem roundNum_multiples (m n : ℤ) : ∃ δ, |δ| ≤ 2 ^ (-53 : ℤ) ∧
    roundNum (m * 2 ^ (-1074 : ℤ) + n * 2 ^ (-1074 : ℤ)) =
      (m * 2 ^ (-1074 : ℤ) + n * 2 ^ (-1074 : ℤ)) * (1 + δ) := by
  rcases roundNum_law (m * 2 ^ (-1074 : ℤ) + n * 2 ^ (-1074 : ℤ)) with h | ⟨h, -⟩
  · exact h
  · refine ⟨0, by rw [abs_zero]; exact (two_zpow_pos _).le, ?_⟩
    rw [add_zero, mul_one]
    apply roundNum_exact
    refine ⟨m + n, -1074, ?_, by norm_num, by norm_num, by rw [Int.cast_add, add_mul]⟩
    rw [← add_mul, abs_mul, abs_of_pos (two_zpow_pos _),
      show (-1022 : ℤ) = 52 + -1074 by norm_num, two_zpow_add 52] at h
    have h1 := lt_of_mul_lt_mul_right h (two_zpow_pos _).le
    have h2 : |((m + n : ℤ) : ℚ)| < 2 ^ (52 : ℤ) := by push_cast; exact h1
    have h3 : |((m + n : ℤ) : ℚ)| < 2 ^ 52 := h2
    have h4 : |m + n| < 2 ^ 52 := by exact_mod_cast h3
    exact h4.trans (by norm_num)

/-- Sums do not underflow. -/
theorem roundNum_sum {x y : ℚ} (hx : IsDouble x) (hy : IsDouble y) :
    ∃ δ, |δ| ≤ 2 ^ (-53 : ℤ) ∧ roundNum (x + y) = (x + y) * (1 + δ) := by
  obtain ⟨m, rfl⟩ := hx.multiple
  obtain ⟨n, rfl⟩ := hy.multiple
  exact roundNum_multiples m n

/-- Rounding gives multiples of the smallest double. -/
theorem roundNum_tiny (q : ℚ) : ∃ n : ℤ, roundNum q = n * 2 ^ (-1074 : ℤ) := by
  obtain ⟨d, hd⟩ := Int.le.dest (le_max_right (Int.log 2 |q| - 52) (-1074))
  refine ⟨roundInt (q / 2 ^ expo q) * 2 ^ d, ?_⟩
  unfold roundNum
  have e : expo q = -1074 + d := hd.symm
  rw [e, two_zpow_add, zpow_natCast]
  rw [Int.cast_mul, Int.cast_pow, Int.cast_ofNat, mul_assoc, mul_comm ((2 : ℚ) ^ (-1074 : ℤ))]

namespace Ext

/-- The number meant. -/
def value : Ext → ℚ
  | .num q => q
  | _ => 0

/-- Neither infinite nor NaN. -/
def finite : Ext → Prop
  | .num _ => True
  | .zero _ => True
  | _ => False

theorem finite_add {x y : Ext} (hx : x.finite) (hy : y.finite) :
    (x.add y).finite ∧ (x.add y).value = x.value + y.value := by
  cases x <;> cases y <;> try exact absurd hx id
  all_goals try exact absurd hy id
  · exact ⟨trivial, (add_zero _).symm⟩
  · exact ⟨trivial, (zero_add _).symm⟩
  · exact ⟨trivial, (add_zero _).symm⟩
  · rename_i p q
    by_cases h : p + q = 0
    · rw [show add (.num p) (.num q) = .zero false from if_pos h]
      exact ⟨trivial, h.symm⟩
    · rw [show add (.num p) (.num q) = .num (p + q) from if_neg h]
      exact ⟨trivial, rfl⟩

theorem finite_mul {x y : Ext} (hx : x.finite) (hy : y.finite) :
    (x.mul y).finite ∧ (x.mul y).value = x.value * y.value := by
  cases x <;> cases y <;> try exact absurd hx id
  all_goals try exact absurd hy id
  all_goals simp [mul, finite, value]

theorem finite_neg {x : Ext} (hx : x.finite) : x.neg.finite ∧ x.neg.value = -x.value := by
  cases x <;> try exact absurd hx id
  all_goals simp [neg, finite, value]

theorem finite_round {x : Ext} (hx : x.finite) (h : |x.value| ≤ maxDouble) :
    x.round.finite ∧ x.round.value = roundNum x.value := by
  cases x with
  | nan => exact absurd hx id
  | inf => exact absurd hx id
  | zero => exact ⟨trivial, roundNum_zero.symm⟩
  | num q =>
    have h1 : ¬ 2 ^ (1024 : ℤ) ≤ |roundNum q| := not_le.2 ((roundNum_le_max h).trans_lt maxDouble_lt)
    by_cases h2 : roundNum q = 0
    · rw [show round (.num q) = .zero (decide (q < 0)) from (if_neg h1).trans (if_pos h2)]
      exact ⟨trivial, h2.symm⟩
    · rw [show round (.num q) = .num (roundNum q) from (if_neg h1).trans (if_neg h2)]
      exact ⟨trivial, rfl⟩

theorem isDouble_value {x : Ext} (h : x.IsDouble) : IEEE.IsDouble x.value := by
  cases x with
  | num q => exact h.2
  | _ => exact isDouble_zero

end Ext

namespace Double

theorem value_eq (x : Double) : x.value = x.1.value := by
  obtain ⟨x, h⟩ := x
  cases x <;> rfl

theorem finite_iff (x : Double) : x.finite ↔ x.1.finite := by
  obtain ⟨x, h⟩ := x
  cases x <;> rfl

theorem isDouble_value (x : Double) : IsDouble x.value := by
  rw [value_eq]
  exact Ext.isDouble_value x.2

theorem ofExt_finite {x : Ext} (hx : x.finite) (h : |x.value| ≤ maxDouble) :
    (ofExt x).finite ∧ (ofExt x).value = roundNum x.value := by
  rw [finite_iff, value_eq]
  exact Ext.finite_round hx h

theorem add_value {x y : Double} (hx : x.finite) (hy : y.finite) (h : |x.value + y.value| ≤ maxDouble) :
    (add x y).finite ∧ (add x y).value = roundNum (x.value + y.value) := by
  rw [finite_iff] at hx hy
  rw [value_eq x, value_eq y] at h ⊢
  obtain ⟨h1, h2⟩ := Ext.finite_add hx hy
  rw [← h2] at h ⊢
  exact ofExt_finite h1 h

theorem sub_value {x y : Double} (hx : x.finite) (hy : y.finite) (h : |x.value - y.value| ≤ maxDouble) :
    (sub x y).finite ∧ (sub x y).value = roundNum (x.value - y.value) := by
  rw [finite_iff] at hx hy
  rw [value_eq x, value_eq y, sub_eq_add_neg] at h ⊢
  obtain ⟨h3, h4⟩ := Ext.finite_neg hy
  obtain ⟨h1, h2⟩ := Ext.finite_add hx h3
  rw [h4] at h2
  rw [← h2] at h ⊢
  exact ofExt_finite h1 h

theorem mul_value {x y : Double} (hx : x.finite) (hy : y.finite) (h : |x.value * y.value| ≤ maxDouble) :
    (mul x y).finite ∧ (mul x y).value = roundNum (x.value * y.value) := by
  rw [finite_iff] at hx hy
  rw [value_eq x, value_eq y] at h ⊢
  obtain ⟨h1, h2⟩ := Ext.finite_mul hx hy
  rw [← h2] at h ⊢
  exact ofExt_finite h1 h

theorem fma_value {c x y : Double} (hc : c.finite) (hx : x.finite) (hy : y.finite)
    (h : |c.value + x.value * y.value| ≤ maxDouble) :
    (fma c x y).finite ∧ (fma c x y).value = roundNum (c.value + x.value * y.value) := by
  rw [finite_iff] at hc hx hy
  rw [value_eq x, value_eq y, value_eq c] at h ⊢
  obtain ⟨h1, h2⟩ := Ext.finite_mul hx hy
  obtain ⟨h3, h4⟩ := Ext.finite_add hc h1
  rw [h2] at h4
  rw [← h4] at h ⊢
  exact ofExt_finite h3 h

theorem zero_value : zero.value = 0 := rfl

/-- Doubles satisfy the standard model of floating-point arithmetic. -/
def rounding (fuse : Double → Double → Double → Bool) : @Rounding ℚ _ _ _ Double (arith fuse) := by
  refine @Rounding.mk ℚ _ _ _ Double (arith fuse) value finite (2 ^ (-53 : ℤ)) (2 ^ (-1075 : ℤ)) maxDouble
    (two_zpow_pos _).le (two_zpow_pos _).le trivial rfl ?_ ?_
  · intro x y hx hy h
    obtain ⟨h1, h2⟩ := add_value hx hy ((abs_add_le _ _).trans h)
    obtain ⟨δ, h3, h4⟩ := roundNum_sum x.isDouble_value y.isDouble_value
    exact ⟨h1, δ, h3, h2.trans h4⟩
  · intro c x y hc hx hy h
    have hu := two_zpow_pos (-53)
    have hη := two_zpow_pos (-1075)
    have hp := abs_nonneg (x.value * y.value)
    have hpu := mul_nonneg hp hu.le
    have hc0 := abs_nonneg c.value
    show (if fuse c x y then fma c x y else add c (mul x y)).finite ∧ ∃ δ ε δ', _ ∧ _ ∧ _ ∧
      (if fuse c x y then fma c x y else add c (mul x y)).value = _
    split
    · obtain ⟨h1, h2⟩ := fma_value hc hx hy ((abs_add_le _ _).trans (by linarith))
      refine ⟨h1, ?_⟩
      rcases roundNum_law (c.value + x.value * y.value) with ⟨δ, h3, h4⟩ | ⟨-, ε, h3, h4⟩
      · exact ⟨0, 0, δ, by rw [abs_zero]; exact hu.le, by rw [abs_zero]; exact hη.le, h3,
          h2.trans (h4.trans (by ring))⟩
      · exact ⟨0, ε, 0, by rw [abs_zero]; exact hu.le, h3, by rw [abs_zero]; exact hu.le,
          h2.trans (h4.trans (by ring))⟩
    · obtain ⟨h1, h2⟩ := mul_value hx hy (by linarith)
      have key : ∃ δ ε, |δ| ≤ 2 ^ (-53 : ℤ) ∧ |ε| ≤ 2 ^ (-1075 : ℤ) ∧
          (mul x y).value = x.value * y.value * (1 + δ) + ε := by
        rcases roundNum_law (x.value * y.value) with ⟨δ, h3, h4⟩ | ⟨-, ε, h3, h4⟩
        · exact ⟨δ, 0, h3, by rw [abs_zero]; exact hη.le, h2.trans (h4.trans (by ring))⟩
        · exact ⟨0, ε, by rw [abs_zero]; exact hu.le, h3, h2.trans (h4.trans (by ring))⟩
      obtain ⟨δ, ε, h3, h4, h5⟩ := key
      have h6 : |(mul x y).value| ≤ |x.value * y.value| * (1 + 2 ^ (-53 : ℤ)) + 2 ^ (-1075 : ℤ) := by
        rw [h5]
        refine (abs_add_le _ _).trans (add_le_add ?_ h4)
        rw [abs_mul]
        refine mul_le_mul_of_nonneg_left ((abs_add_le _ _).trans ?_) hp
        rw [abs_one]
        linarith
      obtain ⟨h7, h8⟩ := add_value hc h1 ((abs_add_le _ _).trans (by linarith))
      obtain ⟨δ', h9, h10⟩ := roundNum_sum c.isDouble_value (mul x y).isDouble_value
      exact ⟨h7, δ, ε, δ', h3, h4, h9, by rw [h8, h10, h5]⟩

/-- The integer `n`, scaled by `2^s`. -/
def ofInt (s n : Int) : Double := ofRat (n * 2 ^ s)

theorem isDouble_int {n s : ℤ} (hn : |n| ≤ 2 ^ 53) (h1 : -1074 ≤ s) (h2 : s ≤ 970) :
    IsDouble (n * 2 ^ s) := by
  rcases lt_or_eq_of_le hn with h | h
  · exact ⟨n, s, h, h1, by omega, rfl⟩
  · rcases abs_eq (by norm_num : (0 : ℤ) ≤ 2 ^ 53) |>.1 h with h | h
    · refine ⟨2 ^ 52, s + 1, by norm_num, by omega, by omega, ?_⟩
      rw [h, two_zpow_add]; push_cast; ring
    · refine ⟨-2 ^ 52, s + 1, by norm_num, by omega, by omega, ?_⟩
      rw [h, two_zpow_add]; push_cast; ring

theorem scaled_ne {n s : ℤ} (hn : n ≠ 0) : (n : ℚ) * 2 ^ s ≠ 0 :=
  mul_ne_zero (by exact_mod_cast hn) (two_zpow_pos s).ne'

theorem ofInt_zero (s : Int) : ofInt s 0 = zero := by
  unfold ofInt ofRat
  rw [Int.cast_zero, zero_mul, if_pos rfl]
  rfl

theorem ofInt_num {n s : ℤ} (hn : |n| ≤ 2 ^ 53) (h1 : -1074 ≤ s) (h2 : s ≤ 970) (h0 : n ≠ 0) :
    (ofInt s n).1 = .num (n * 2 ^ s) := by
  show (Ext.round (if _ then _ else _)) = _
  rw [if_neg (scaled_ne h0)]
  exact Ext.round_exact ⟨scaled_ne h0, isDouble_int hn h1 h2⟩

theorem ext_ofInt {n s : ℤ} (hn : |n| ≤ 2 ^ 53) (h1 : -1074 ≤ s) (h2 : s ≤ 970) :
    (ofInt s n).1 = if n = 0 then .zero false else .num (n * 2 ^ s) := by
  by_cases h0 : n = 0
  · rw [if_pos h0, h0, ofInt_zero]; rfl
  · rw [if_neg h0, ofInt_num hn h1 h2 h0]

/-- Exact sums of scaled integers. -/
theorem ext_add_int {x y s : ℤ} :
    Ext.add (if x = 0 then .zero false else .num (x * 2 ^ s)) (if y = 0 then .zero false else .num (y * 2 ^ s)) =
      if x + y = 0 then .zero false else .num ((x + y : ℤ) * 2 ^ s) := by
  by_cases hx : x = 0
  · subst hx
    rw [if_pos rfl, zero_add]
    split <;> rfl
  by_cases hy : y = 0
  · subst hy
    rw [if_pos rfl, add_zero, if_neg hx]
    rfl
  rw [if_neg hx, if_neg hy]
  have e : (x : ℚ) * 2 ^ s + y * 2 ^ s = (x + y : ℤ) * 2 ^ s := by push_cast; ring
  show (if _ then _ else _) = _
  rw [e]
  by_cases h : x + y = 0
  · rw [if_pos h, if_pos (by rw [h]; simp)]
  · rw [if_neg h, if_neg (scaled_ne h)]

/-- Exact products of scaled integers: only the sign of a zero is not that of the product. -/
theorem ext_mul_int {x y s t : ℤ} : ∃ z,
    Ext.mul (if x = 0 then .zero false else .num (x * 2 ^ s)) (if y = 0 then .zero false else .num (y * 2 ^ t)) =
      if x * y = 0 then .zero z else .num ((x * y : ℤ) * 2 ^ (s + t)) := by
  by_cases hx : x = 0
  · subst hx
    rw [zero_mul, if_pos rfl]
    simp only [if_true]
    split <;> exact ⟨_, rfl⟩
  by_cases hy : y = 0
  · subst hy
    rw [if_pos rfl, mul_zero, if_neg hx]
    simp only [if_true]
    exact ⟨_, rfl⟩
  refine ⟨false, ?_⟩
  rw [if_neg hx, if_neg hy, if_neg (mul_ne_zero hx hy)]
  show Ext.num _ = _
  congr 1
  rw [two_zpow_add]
  push_cast
  ring

theorem ext_add_zero {x : ℤ} {s : ℤ} (z : Bool) :
    Ext.add (if x = 0 then .zero false else .num (x * 2 ^ s)) (.zero z) =
      if x = 0 then .zero false else .num (x * 2 ^ s) := by
  split <;> rfl

theorem add_int {x y s : ℤ} (hs1 : -1074 ≤ s) (hs2 : s ≤ 970) (hx : |x| ≤ 2 ^ 53) (hy : |y| ≤ 2 ^ 53)
    (h : |x + y| ≤ 2 ^ 53) : add (ofInt s x) (ofInt s y) = ofInt s (x + y) := by
  apply Subtype.ext
  show Ext.round _ = _
  rw [ext_ofInt hx hs1 hs2, ext_ofInt hy hs1 hs2, ext_add_int, ← ext_ofInt h hs1 hs2]
  exact Ext.round_exact (ofInt s (x + y)).2

/-- Doubles are exact on integers up to `2^53`, and on integers with a common scale. -/
theorem exact_int (fuse : Double → Double → Double → Bool) {s t : ℤ} (hs1 : -1074 ≤ s) (hs2 : s ≤ 970)
    (ht1 : -1074 ≤ t) (ht2 : t ≤ 970) (h1 : -1074 ≤ s + t) (h2 : s + t ≤ 970) :
    @ExactOnIntegers Double (arith fuse) (ofInt s) (ofInt t) (ofInt (s + t)) (2 ^ 53) := by
  refine @ExactOnIntegers.mk Double (arith fuse) _ _ _ _ (ofInt_zero s) (ofInt_zero t) (ofInt_zero _)
    (fun x y hx hy h => add_int h1 h2 hx hy h) fun c x y hc hx hy hxy h => ?_
  obtain ⟨z, hz⟩ := ext_mul_int (x := x) (y := y) (s := s) (t := t)
  rw [← ext_ofInt hx hs1 hs2, ← ext_ofInt hy ht1 ht2] at hz
  have hsum : Ext.add (ofInt (s + t) c).1 (Ext.mul (ofInt s x).1 (ofInt t y).1) =
      (ofInt (s + t) (c + x * y)).1 := by
    rw [hz, ext_ofInt hc h1 h2, ext_ofInt h h1 h2]
    by_cases h0 : x * y = 0
    · rw [if_pos h0, ext_add_zero, h0, add_zero]
    · rw [if_neg h0, ← ext_add_int, if_neg h0]
  apply Subtype.ext
  show (if fuse _ _ _ then fma _ _ _ else add _ (mul _ _)).1 = _
  split
  · show Ext.round _ = _
    rw [hsum]
    exact Ext.round_exact (ofInt (s + t) (c + x * y)).2
  · have hm : (mul (ofInt s x) (ofInt t y)).1 = Ext.mul (ofInt s x).1 (ofInt t y).1 := by
      show Ext.round _ = _
      refine Ext.round_exact ?_
      rw [hz]
      split
      · trivial
      · rename_i h0
        exact ⟨scaled_ne h0, isDouble_int hxy h1 h2⟩
    show Ext.round (Ext.add _ (mul _ _).1) = _
    rw [hm, hsum]
    exact Ext.round_exact (ofInt (s + t) (c + x * y)).2

end Double
end Verif.IEEE
