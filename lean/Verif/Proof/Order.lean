import Verif.Proof.DoubleUse
import Verif.Proof.Symmetry
/-
Rounding respects the order of numbers and, without underflow, powers of two.
-/
namespace Verif.IEEE

theorem roundInt_mono {r s : ℚ} (h : r ≤ s) : roundInt r ≤ roundInt s := by
  by_contra hc
  have h1 := roundInt_err r
  have h2 := roundInt_err s
  rw [abs_le] at h1 h2
  have h3 : (roundInt s : ℚ) + 1 ≤ roundInt r := by exact_mod_cast (by omega : roundInt s + 1 ≤ roundInt r)
  have h4 : r = s := by linarith [h1.2, h2.1]
  rw [h4] at hc
  exact hc (le_refl _)

theorem log_mono {p q : ℚ} (h0 : 0 < p) (h : p ≤ q) : Int.log 2 |p| ≤ Int.log 2 |q| := by
  rw [abs_of_pos h0, abs_of_pos (h0.trans_le h)]
  exact Int.log_mono_right h0 h

theorem expo_mono {p q : ℚ} (h0 : 0 < p) (h : p ≤ q) : expo p ≤ expo q := by
  have := log_mono h0 h
  unfold expo
  omega

theorem roundNum_nonneg {q : ℚ} (h : 0 ≤ q) : 0 ≤ roundNum q :=
  le_roundNum_of_le isDouble_zero h

/-- A power of two that is a multiple of the last bit. -/
private theorem zpow_split {e l : ℤ} (h : e ≤ l) : ∃ n : ℤ, (2 : ℚ) ^ l = n * 2 ^ e :=
  ⟨2 ^ (l - e).toNat, by
    have : ((2 ^ (l - e).toNat : ℤ) : ℚ) = 2 ^ (l - e) := by
      push_cast
      rw [← zpow_natCast, Int.toNat_of_nonneg (by omega)]
    rw [this, ← two_zpow_add, sub_add_cancel]⟩

theorem roundNum_mono {p q : ℚ} (h0 : 0 ≤ p) (h : p ≤ q) : roundNum p ≤ roundNum q := by
  rcases h0.eq_or_lt with rfl | h0
  · rw [roundNum_zero]
    exact roundNum_nonneg h
  have he := expo_mono h0 h
  rcases he.eq_or_lt with he | he
  · unfold roundNum
    rw [he]
    refine mul_le_mul_of_nonneg_right ?_ (two_zpow_pos _).le
    exact_mod_cast roundInt_mono (div_le_div_of_nonneg_right h (two_zpow_pos _).le)
  · have hq0 := h0.trans_le h
    have hl : expo q = Int.log 2 |q| - 52 := by
      have := le_expo p
      unfold expo at he this ⊢
      omega
    have hp : Int.log 2 |p| - 52 ≤ expo p := le_max_left _ _
    -- a power of two between them
    have h1 : p < 2 ^ (Int.log 2 |q|) := by
      have := lt_log p
      rw [abs_of_pos h0] at this
      exact this.trans_le (two_zpow_le (by rw [abs_of_pos h0] at hp; omega))
    have h2 : (2 : ℚ) ^ Int.log 2 |q| ≤ q := by
      have := log_le hq0.ne'
      rwa [abs_of_pos hq0] at this ⊢
    obtain ⟨n, hn⟩ := zpow_split (e := expo p) (l := Int.log 2 |q|) (by omega)
    obtain ⟨m, hm⟩ := zpow_split (e := expo q) (l := Int.log 2 |q|) (by omega)
    have h3 : roundNum p ≤ 2 ^ Int.log 2 |q| := by
      rw [hn]
      unfold roundNum
      refine mul_le_mul_of_nonneg_right ?_ (two_zpow_pos _).le
      have := roundInt_mono (r := p / 2 ^ expo p) (s := n)
        (by rw [div_le_iff₀ (two_zpow_pos _), ← hn]; exact h1.le)
      rw [roundInt_int] at this
      exact_mod_cast this
    have h4 : (2 : ℚ) ^ Int.log 2 |q| ≤ roundNum q := by
      rw [hm]
      unfold roundNum
      refine mul_le_mul_of_nonneg_right ?_ (two_zpow_pos _).le
      have := roundInt_mono (r := m) (s := q / 2 ^ expo q)
        (by rw [le_div_iff₀ (two_zpow_pos _), ← hm]; exact h2)
      rw [roundInt_int] at this
      exact_mod_cast this
    exact h3.trans h4

/-- `0 ≤ x ≤ y`, neither is NaN. -/
def Ext.UpTo (x y : Ext) : Prop :=
  (y = .inf false ∧ (x = .inf false ∨ x.finite ∧ 0 ≤ x.value)) ∨
    (x.finite ∧ y.finite ∧ 0 ≤ x.value ∧ x.value ≤ y.value)

namespace Ext

theorem UpTo.right {x y : Ext} (h : x.UpTo y) : y = .inf false ∨ y.finite ∧ 0 ≤ y.value := by
  rcases h with ⟨h, -⟩ | ⟨-, h1, h2, h3⟩
  · exact .inl h
  · exact .inr ⟨h1, h2.trans h3⟩

theorem UpTo.left {x y : Ext} (h : x.UpTo y) : x = .inf false ∨ x.finite ∧ 0 ≤ x.value := by
  rcases h with ⟨-, h⟩ | ⟨h1, -, h2, -⟩
  · exact h
  · exact .inr ⟨h1, h2⟩

theorem inf_add {y : Ext} (h : y = .inf false ∨ y.finite ∧ 0 ≤ y.value) :
    (Ext.inf false).add y = .inf false := by
  rcases h with rfl | ⟨h, -⟩
  · rfl
  · cases y <;> first | rfl | exact absurd h id

theorem add_inf {y : Ext} (h : y = .inf false ∨ y.finite ∧ 0 ≤ y.value) :
    y.add (Ext.inf false) = .inf false := by
  rcases h with rfl | ⟨h, -⟩
  · rfl
  · cases y <;> first | rfl | exact absurd h id

theorem nonneg_add {x y : Ext} (hx : x = .inf false ∨ x.finite ∧ 0 ≤ x.value)
    (hy : y = .inf false ∨ y.finite ∧ 0 ≤ y.value) :
    x.add y = .inf false ∨ (x.add y).finite ∧ 0 ≤ (x.add y).value := by
  rcases hx with rfl | hx
  · exact .inl (inf_add hy)
  rcases hy with rfl | hy
  · exact .inl (add_inf (.inr hx))
  obtain ⟨h1, h2⟩ := finite_add hx.1 hy.1
  exact .inr ⟨h1, by rw [h2]; exact add_nonneg hx.2 hy.2⟩

theorem UpTo.add {x x' y y' : Ext} (hx : x.UpTo x') (hy : y.UpTo y') : (x.add y).UpTo (x'.add y') := by
  have h := nonneg_add hx.left hy.left
  rcases hx with ⟨rfl, hx⟩ | hx'
  · exact .inl ⟨inf_add hy.right, h⟩
  rcases hy with ⟨rfl, hy⟩ | hy'
  · exact .inl ⟨add_inf (.inr ⟨hx'.2.1, hx'.2.2.1.trans hx'.2.2.2⟩), h⟩
  obtain ⟨h1, h2⟩ := finite_add hx'.1 hy'.1
  obtain ⟨h3, h4⟩ := finite_add hx'.2.1 hy'.2.1
  exact .inr ⟨h1, h3, by rw [h2]; exact add_nonneg hx'.2.2.1 hy'.2.2.1,
    by rw [h2, h4]; exact add_le_add hx'.2.2.2 hy'.2.2.2⟩

theorem mul_upTo {x x' y y' : Ext} (hx : x.finite) (hx' : x'.finite) (hy : y.finite) (hy' : y'.finite)
    (h0 : 0 ≤ x.value) (h1 : x.value ≤ x'.value) (h2 : 0 ≤ y.value) (h3 : y.value ≤ y'.value) :
    (x.mul y).UpTo (x'.mul y') := by
  obtain ⟨e1, e2⟩ := finite_mul hx hy
  obtain ⟨e3, e4⟩ := finite_mul hx' hy'
  exact .inr ⟨e1, e3, by rw [e2]; exact mul_nonneg h0 h2,
    by rw [e2, e4]; exact mul_le_mul h1 h3 h2 (h0.trans h1)⟩

theorem round_nonneg {x : Ext} (hx : x.finite) (h : 0 ≤ x.value) :
    2 ^ (1024 : ℤ) ≤ roundNum x.value ∧ x.round = .inf false ∨
      roundNum x.value < 2 ^ (1024 : ℤ) ∧ x.round.finite ∧ x.round.value = roundNum x.value := by
  cases x with
  | nan => exact absurd hx id
  | inf => exact absurd hx id
  | zero s => exact .inr ⟨by show roundNum 0 < _; rw [roundNum_zero]; exact two_zpow_pos _, trivial,
      roundNum_zero.symm⟩
  | num q =>
    have h0 : 0 ≤ roundNum q := roundNum_nonneg h
    have hq : ¬ q < 0 := not_lt.2 h
    by_cases h1 : 2 ^ (1024 : ℤ) ≤ |roundNum q|
    · refine .inl ⟨by rw [abs_of_nonneg h0] at h1; exact h1, ?_⟩
      rw [show round (.num q) = .inf (decide (q < 0)) from if_pos h1, decide_eq_false hq]
    · refine .inr ⟨by rw [abs_of_nonneg h0] at h1; exact not_le.1 h1, ?_⟩
      by_cases h2 : roundNum q = 0
      · rw [show round (.num q) = .zero (decide (q < 0)) from (if_neg h1).trans (if_pos h2)]
        exact ⟨trivial, h2.symm⟩
      · rw [show round (.num q) = .num (roundNum q) from (if_neg h1).trans (if_neg h2)]
        exact ⟨trivial, rfl⟩

theorem UpTo.round {x y : Ext} (h : x.UpTo y) : x.round.UpTo y.round := by
  have hl : x.round = .inf false ∨ x.round.finite ∧ 0 ≤ x.round.value := by
    rcases h.left with rfl | ⟨h1, h2⟩
    · exact .inl rfl
    · rcases round_nonneg h1 h2 with ⟨-, h⟩ | ⟨-, h, h'⟩
      · exact .inl h
      · exact .inr ⟨h, by rw [h']; exact roundNum_nonneg h2⟩
  rcases h with ⟨rfl, -⟩ | ⟨h1, h2, h3, h4⟩
  · exact .inl ⟨rfl, hl⟩
  rcases round_nonneg h2 (h3.trans h4) with ⟨-, h⟩ | ⟨h, h5, h6⟩
  · exact .inl ⟨h, hl⟩
  have hm := roundNum_mono h3 h4
  rcases round_nonneg h1 h3 with ⟨h7, -⟩ | ⟨-, h8, h9⟩
  · exact absurd (h7.trans hm) (not_le.2 h)
  · exact .inr ⟨h8, h5, by rw [h9]; exact roundNum_nonneg h3, by rw [h9, h6]; exact hm⟩

end Ext

/-! ### powers of two -/

/-- The number times `2 ^ s`. -/
def Ext.scale (s : ℤ) : Ext → Ext
  | .num q => .num (q * 2 ^ s)
  | x => x

/-- A finite number that is a multiple of `2 ^ (-g)`. -/
def Ext.Multiple (g : ℤ) (x : Ext) : Prop := x.finite ∧ ∃ n : ℤ, x.value = n * 2 ^ (-g)

theorem log_scale {q : ℚ} (h : q ≠ 0) (s : ℤ) : Int.log 2 |q * 2 ^ s| = Int.log 2 |q| + s := by
  have hs : q * 2 ^ s ≠ 0 := mul_ne_zero h (two_zpow_pos s).ne'
  have ha : |q * 2 ^ s| = |q| * 2 ^ s := by rw [abs_mul, abs_of_pos (two_zpow_pos s)]
  have h1 := log_lt (e := Int.log 2 |q| + s + 1) hs (by
    rw [ha, add_right_comm, two_zpow_add]
    exact mul_lt_mul_of_pos_right (lt_log q) (two_zpow_pos s))
  have h2 : (2 : ℚ) ^ (Int.log 2 |q| + s) < 2 ^ (Int.log 2 |q * 2 ^ s| + 1) := by
    refine lt_of_le_of_lt ?_ (lt_log _)
    rw [ha, two_zpow_add]
    exact mul_le_mul_of_nonneg_right (log_le h) (two_zpow_pos s).le
  have h3 := two_zpow_of_lt h2
  omega

/-- A multiple of `2 ^ (-g)` is not small. -/
theorem le_log_multiple {q : ℚ} {g n : ℤ} (h0 : q ≠ 0) (h : q = n * 2 ^ (-g)) :
    -g ≤ Int.log 2 |q| := by
  have hn : n ≠ 0 := fun hn => h0 (by rw [h, hn, Int.cast_zero, zero_mul])
  have h1 : (1 : ℚ) ≤ |(n : ℚ)| := by exact_mod_cast Int.one_le_abs hn
  have h2 : (2 : ℚ) ^ (-g) ≤ |q| := by
    rw [h, abs_mul, abs_of_pos (two_zpow_pos _)]
    exact le_mul_of_one_le_left (two_zpow_pos _).le h1
  have := two_zpow_of_lt (h2.trans_lt (lt_log q))
  omega

theorem roundNum_scale {q : ℚ} {g n s : ℤ} (h : q = n * 2 ^ (-g)) (hg : g ≤ 1022) (hs : g - s ≤ 1022) :
    roundNum (q * 2 ^ s) = roundNum q * 2 ^ s := by
  by_cases h0 : q = 0
  · rw [h0, zero_mul, roundNum_zero, zero_mul]
  have hl := le_log_multiple h0 h
  have h1 : expo q = Int.log 2 |q| - 52 := max_eq_left (by omega)
  have h2 : expo (q * 2 ^ s) = expo q + s := by
    rw [h1]
    unfold expo
    rw [log_scale h0, max_eq_left (by omega)]
    ring
  unfold roundNum
  rw [h2, two_zpow_add, mul_div_mul_right _ _ (two_zpow_pos s).ne', mul_assoc]

theorem roundNum_multiple {q : ℚ} {g n : ℤ} (h : q = n * 2 ^ (-g)) :
    ∃ m : ℤ, roundNum q = m * 2 ^ (-g) := by
  rcases le_or_gt (-g) (expo q) with he | he
  · obtain ⟨m, hm⟩ := zpow_split he
    exact ⟨roundInt (q / 2 ^ expo q) * m, by unfold roundNum; rw [hm]; push_cast; ring⟩
  · obtain ⟨m, hm⟩ := zpow_split he.le
    refine ⟨n, ?_⟩
    have : q / 2 ^ expo q = ((n * m : ℤ) : ℚ) := by
      rw [div_eq_iff (two_zpow_pos _).ne']
      calc q = n * 2 ^ (-g) := h
        _ = n * (m * 2 ^ expo q) := by rw [hm]
        _ = ((n * m : ℤ) : ℚ) * 2 ^ expo q := by push_cast; ring
    unfold roundNum
    rw [this, roundInt_int, ← this, div_mul_cancel₀ _ (two_zpow_pos _).ne', h]

namespace Ext

theorem finite_of_round {x : Ext} (h : x.round.finite) : x.finite := by
  cases x <;> first | exact h | exact trivial

theorem finite_of_add {x y : Ext} (h : (x.add y).finite) : x.finite ∧ y.finite := by
  cases x <;> cases y <;> first | exact absurd h id | exact ⟨trivial, trivial⟩ | skip
  rename_i s t
  cases s <;> cases t <;> exact absurd h id

theorem finite_scale {x : Ext} (s : ℤ) : (x.scale s).finite ↔ x.finite := by cases x <;> exact Iff.rfl

theorem value_scale {x : Ext} (s : ℤ) : (x.scale s).value = x.value * 2 ^ s := by
  cases x <;> first | rfl | exact (zero_mul _).symm

theorem scale_add (s : ℤ) (x y : Ext) : (x.scale s).add (y.scale s) = (x.add y).scale s := by
  cases x <;> cases y <;> try rfl
  · rename_i a b
    cases a <;> cases b <;> rfl
  · rename_i p q
    show (if _ then _ else _) = Ext.scale s (if _ then _ else _)
    by_cases h : p + q = 0
    · rw [if_pos h, if_pos (by rw [← add_mul, h, zero_mul])]
      rfl
    · rw [if_neg h, if_neg (by rw [← add_mul]; exact mul_ne_zero h (two_zpow_pos s).ne'), ← add_mul]
      rfl

private theorem lt_scale (q : ℚ) (s : ℤ) : (decide (q * 2 ^ s < 0)) = decide (q < 0) := by
  rw [decide_eq_decide]
  exact ⟨fun h => by
    by_contra hc
    exact absurd h (not_lt.2 (mul_nonneg (not_lt.1 hc) (two_zpow_pos s).le)),
    fun h => mul_neg_of_neg_of_pos h (two_zpow_pos s)⟩

theorem scale_mul (s : ℤ) (x y : Ext) : (x.scale s).mul y = (x.mul y).scale s := by
  cases x <;> cases y <;> try rfl
  · rename_i q a
    show Ext.inf (decide (q * 2 ^ s < 0) ^^ a) = .inf (decide (q < 0) ^^ a)
    rw [lt_scale]
  · rename_i q a
    show Ext.zero (decide (q * 2 ^ s < 0) ^^ a) = .zero (decide (q < 0) ^^ a)
    rw [lt_scale]
  · show Ext.num _ = Ext.num _
    rw [mul_right_comm]

theorem scale_round {x : Ext} {g s : ℤ} (h : x.Multiple g) (hg : g ≤ 1022) (hs : g - s ≤ 1022)
    (h1 : x.round.finite) (h2 : (x.scale s).round.finite) : (x.scale s).round = x.round.scale s := by
  obtain ⟨-, n, hn⟩ := h
  cases x with
  | nan => rfl
  | inf => rfl
  | zero => rfl
  | num q =>
    have hr := roundNum_scale (s := s) (show q = n * 2 ^ (-g) from hn) hg hs
    have h3 : ¬ 2 ^ (1024 : ℤ) ≤ |roundNum q| := fun h => by
      rw [show round (.num q) = .inf (decide (q < 0)) from if_pos h] at h1
      exact h1
    have h4 : ¬ 2 ^ (1024 : ℤ) ≤ |roundNum (q * 2 ^ s)| := fun h => by
      rw [show round (scale s (.num q)) = .inf (decide (q * 2 ^ s < 0)) from if_pos h] at h2
      exact h2
    show (if _ then _ else if _ then _ else _) = Ext.scale s (if _ then _ else if _ then _ else _)
    rw [if_neg h3, if_neg h4]
    by_cases h5 : roundNum q = 0
    · rw [if_pos h5, if_pos (by rw [hr, h5, zero_mul]), lt_scale]
      rfl
    · rw [if_neg h5, if_neg (by rw [hr]; exact mul_ne_zero h5 (two_zpow_pos s).ne'), hr]
      rfl

theorem Multiple.round {x : Ext} {g : ℤ} (h : x.Multiple g) (h1 : x.round.finite) : x.round.Multiple g := by
  obtain ⟨-, n, hn⟩ := h
  refine ⟨h1, ?_⟩
  cases x with
  | nan => exact absurd h1 id
  | inf => exact absurd h1 id
  | zero => exact ⟨0, by rw [Int.cast_zero, zero_mul]; rfl⟩
  | num q =>
    have h3 : ¬ 2 ^ (1024 : ℤ) ≤ |roundNum q| := fun h => by
      rw [show Ext.round (.num q) = .inf (decide (q < 0)) from if_pos h] at h1
      exact h1
    obtain ⟨m, hm⟩ := roundNum_multiple (show q = n * 2 ^ (-g) from hn)
    refine ⟨m, ?_⟩
    rw [← hm]
    by_cases h2 : roundNum q = 0
    · rw [show Ext.round (.num q) = .zero (decide (q < 0)) from (if_neg h3).trans (if_pos h2), h2]
      rfl
    · rw [show Ext.round (.num q) = .num (roundNum q) from (if_neg h3).trans (if_neg h2)]
      rfl

theorem Multiple.add {x y : Ext} {g : ℤ} (hx : x.Multiple g) (hy : y.Multiple g) :
    (x.add y).Multiple g := by
  obtain ⟨h1, n, hn⟩ := hx
  obtain ⟨h2, m, hm⟩ := hy
  obtain ⟨e1, e2⟩ := finite_add h1 h2
  exact ⟨e1, n + m, by rw [e2, hn, hm]; push_cast; ring⟩

theorem Multiple.mul {x y : Ext} {g h : ℤ} (hx : x.Multiple g) (hy : y.Multiple h) :
    (x.mul y).Multiple (g + h) := by
  obtain ⟨h1, n, hn⟩ := hx
  obtain ⟨h2, m, hm⟩ := hy
  obtain ⟨e1, e2⟩ := finite_mul h1 h2
  exact ⟨e1, n * m, by rw [e2, hn, hm, neg_add, two_zpow_add]; push_cast; ring⟩

/-- Both rounded results are finite: one is the other, scaled. -/
theorem scale_step {x y : Ext} {g s : ℤ} (h : x.Multiple g) (hg : g ≤ 1022) (hs : g - s ≤ 1022)
    (hy : y = x.scale s) (h1 : x.round.finite) (h2 : y.round.finite) :
    y.round = x.round.scale s ∧ x.round.Multiple g := by
  subst hy
  exact ⟨scale_round h hg hs h1 h2, h.round h1⟩

end Ext
end Verif.IEEE
