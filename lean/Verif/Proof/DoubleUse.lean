import Verif.Model.DoubleUse
import Verif.Proof.Double
/-
Integers that pass through doubles.
-/
namespace Verif.IEEE

/-- Rounding does not cross a double. -/
theorem roundNum_le_of_le {q y : ℚ} (hy : IsDouble y) (h : q ≤ y) : roundNum q ≤ y := by
  by_contra hc
  rw [not_le] at hc
  have := roundNum_nearest q hy
  rw [abs_of_nonneg (by linarith), abs_of_nonneg (by linarith)] at this
  linarith

theorem le_roundNum_of_le {q y : ℚ} (hy : IsDouble y) (h : y ≤ q) : y ≤ roundNum q := by
  by_contra hc
  rw [not_le] at hc
  have := roundNum_nearest q hy
  rw [abs_of_nonpos (by linarith), abs_of_nonpos (by linarith)] at this
  linarith

theorem isDouble_nat {n : ℕ} (h : n ≤ 2 ^ 53) : IsDouble n := by
  have := Double.isDouble_int (n := n) (s := 0) (by rw [Nat.abs_cast]; exact_mod_cast h) (by norm_num)
    (by norm_num)
  simpa using this

theorem isDouble_two_zpow {e : ℤ} (h1 : -1074 ≤ e) (h2 : e ≤ 971) : IsDouble (2 ^ e) :=
  ⟨1, e, by norm_num, h1, h2, by rw [Int.cast_one, one_mul]⟩

/-- The rounded quotient lies between the same integers as the quotient. -/
theorem roundNum_count {a n : ℕ} {d : ℚ} (ha : a < 2 ^ 53) (h1 : 1 ≤ d) (h2 : d ≤ 2 ^ 64)
    (hn : n ≤ 2 ^ 53) (hlo : ((n : ℚ) - 1) * d + 1 ≤ a) (hhi : (a : ℚ) ≤ n * d) (hn0 : 1 ≤ n) :
    (n : ℚ) - 1 < roundNum (a / d) ∧ roundNum (a / d) ≤ n := by
  have hd : (0 : ℚ) < d := by linarith
  have hn1 : (0 : ℚ) ≤ (n : ℚ) - 1 := by
    have : (1 : ℚ) ≤ n := by exact_mod_cast hn0
    linarith
  have ha1 : (1 : ℚ) ≤ a := by nlinarith
  refine ⟨?_, roundNum_le_of_le (isDouble_nat hn) (by rwa [div_le_iff₀ hd])⟩
  have hq : (2 : ℚ) ^ (-64 : ℤ) ≤ a / d := by
    rw [le_div_iff₀ hd]
    have : (2 : ℚ) ^ (-64 : ℤ) * 2 ^ 64 = 1 := by norm_num
    have := mul_le_mul_of_nonneg_left h2 (two_zpow_pos (-64)).le
    linarith
  have hqp : (0 : ℚ) < a / d := lt_of_lt_of_le (two_zpow_pos _) hq
  rcases roundNum_law (a / d) with ⟨δ, h3, h4⟩ | ⟨h3, -⟩
  · rw [h4]
    have h5 := (abs_le.1 h3).1
    have h6 : (a : ℚ) / d * (1 - 2 ^ (-53 : ℤ)) ≤ a / d * (1 + δ) :=
      mul_le_mul_of_nonneg_left (by linarith) hqp.le
    refine lt_of_lt_of_le ?_ h6
    rw [div_mul_eq_mul_div, lt_div_iff₀ hd]
    have h7 : (a : ℚ) * 2 ^ (-53 : ℤ) < 1 := by
      have h8 : (a : ℚ) < 2 ^ 53 := by exact_mod_cast ha
      have h9 := mul_lt_mul_of_pos_right h8 (two_zpow_pos (-53))
      have h10 : (2 : ℚ) ^ 53 * 2 ^ (-53 : ℤ) = 1 := by norm_num
      linarith
    rw [mul_sub, mul_one]
    linarith
  · exfalso
    rw [abs_of_pos hqp] at h3
    have := two_zpow_of_lt (hq.trans_lt h3)
    omega

namespace Double

theorem ofNat_zero : ofNat 0 = zero := by
  unfold ofNat ofRat
  rw [Nat.cast_zero, if_pos rfl]
  rfl

theorem isDouble_roundNat {b : ℕ} (hb : b < 2 ^ 64) (h0 : 0 < b) :
    1 ≤ roundNum b ∧ roundNum b ≤ 2 ^ 64 := by
  constructor
  · have := le_roundNum_of_le (q := b) (isDouble_nat (n := 1) (by norm_num)) (by exact_mod_cast h0)
    simpa using this
  · have h1 : IsDouble ((2 : ℚ) ^ (64 : ℤ)) := isDouble_two_zpow (by norm_num) (by norm_num)
    have h2 : (2 : ℚ) ^ (64 : ℤ) = 2 ^ 64 := by norm_cast
    rw [h2] at h1
    exact roundNum_le_of_le h1 (by exact_mod_cast hb.le)

theorem round_pos {q : ℚ} (h1 : 1 ≤ roundNum q ∨ 0 < roundNum q) (h2 : roundNum q ≤ 2 ^ 64) :
    Ext.round (.num q) = .num (roundNum q) := by
  have hp : 0 < roundNum q := by
    rcases h1 with h | h
    · linarith
    · exact h
  show (if _ then _ else if _ then _ else _) = _
  rw [if_neg, if_neg hp.ne']
  rw [not_le, abs_of_pos hp]
  refine h2.trans_lt ?_
  have h3 : (2 : ℚ) ^ 64 = 2 ^ (64 : ℤ) := by norm_cast
  rw [h3]
  exact zpow_lt_zpow_right₀ (by norm_num) (by norm_num)

theorem ofNat_num {b : ℕ} (hb : b < 2 ^ 64) (h0 : 0 < b) : (ofNat b).1 = .num (roundNum b) := by
  show Ext.round (if _ then _ else _) = _
  rw [if_neg (by exact_mod_cast h0.ne')]
  obtain ⟨h1, h2⟩ := isDouble_roundNat hb h0
  exact round_pos (.inl h1) h2

theorem ofNat_exact {a : ℕ} (ha : a ≤ 2 ^ 53) (h0 : 0 < a) : (ofNat a).1 = .num a := by
  rw [ofNat_num (by omega) h0, roundNum_exact (isDouble_nat ha)]

theorem ceil_num {x : Double} {r : ℚ} {n : ℕ} (hx : x.1 = .num r) (hn0 : 1 ≤ n) (hn : n ≤ 2 ^ 53)
    (h1 : (n : ℚ) - 1 < r) (h2 : r ≤ n) : (ceil x).1 = .num n := by
  have hc : ⌈r⌉ = (n : ℤ) := by
    rw [Int.ceil_eq_iff]
    exact ⟨by push_cast; exact h1, by push_cast; exact h2⟩
  have hz : ((n : ℤ) : ℚ) = n := by push_cast; rfl
  unfold ceil
  rw [hx]
  simp only [hc]
  rw [if_neg (by omega)]
  rw [hz]
  have h : Ext.IsDouble (.num (n : ℚ)) := ⟨by exact_mod_cast (by omega : n ≠ 0), isDouble_nat hn⟩
  exact Ext.round_exact h

theorem toSize_nat {x : Double} {n : ℕ} (hx : x.1 = .num n) (hn : n < 2 ^ 64) : toSize x = .ok n := by
  unfold toSize
  rw [hx]
  simp only
  have h1 : (-1 : ℚ) < n := by
    have : (0 : ℚ) ≤ n := Nat.cast_nonneg n
    linarith
  have h2 : (n : ℚ) < 2 ^ 64 := by exact_mod_cast hn
  rw [if_pos ⟨h1, h2⟩, Int.floor_natCast, Int.toNat_natCast]

/-- A number divided by a number of blocks. -/
theorem toSize_ceil_div {a b : ℕ} (ha : a < 2 ^ 53) (hb : b < 2 ^ 64) (h0 : 0 < b) :
    toSize (ceil (div (ofNat a) (ofNat b))) = .ok (ceilDiv a b) := by
  obtain ⟨hr1, hr2⟩ := isDouble_roundNat hb h0
  have hbn := ofNat_num hb h0
  rcases Nat.eq_zero_or_pos a with rfl | hpos
  · have e : (div (ofNat 0) (ofNat b)).1 = .zero (false ^^ decide (roundNum b < 0)) := by
      show Ext.round (Ext.div _ _) = _
      rw [hbn, ofNat_zero]
      rfl
    have h1 : ceilDiv 0 b = 0 := Nat.div_eq_of_lt (by omega)
    have h2 : ceil (div (ofNat 0) (ofNat b)) = div (ofNat 0) (ofNat b) := by
      unfold ceil
      rw [e]
    rw [h1, h2]
    unfold toSize
    rw [e]
  have e : (div (ofNat a) (ofNat b)).1 = Ext.round (.num (a / roundNum b)) := by
    show Ext.round (Ext.div _ _) = _
    rw [hbn, ofNat_exact ha.le hpos]
    rfl
  have hn1 : 1 ≤ ceilDiv a b := by
    unfold ceilDiv
    rw [Nat.le_div_iff_mul_le h0]
    omega
  have hna : ceilDiv a b ≤ a := by
    unfold ceilDiv
    rw [← Nat.lt_succ_iff, Nat.div_lt_iff_lt_mul h0, Nat.succ_mul]
    have := Nat.le_mul_of_pos_right a h0
    omega
  have hmul : (ceilDiv a b - 1) * b + 1 ≤ a ∧ a ≤ ceilDiv a b * b := by
    unfold ceilDiv
    have h1 := Nat.div_mul_le_self (a + b - 1) b
    have h2 := Nat.lt_div_mul_add (a := a + b - 1) h0
    rw [Nat.sub_mul]
    constructor <;> omega
  have key : ((ceilDiv a b : ℚ) - 1) * roundNum b + 1 ≤ a ∧ (a : ℚ) ≤ ceilDiv a b * roundNum b := by
    rcases Nat.lt_or_ge b (2 ^ 53) with h | h
    · rw [roundNum_exact (isDouble_nat h.le)]
      have h1 : (((ceilDiv a b - 1) * b + 1 : ℕ) : ℚ) ≤ a := by exact_mod_cast hmul.1
      have h2 : (a : ℚ) ≤ ((ceilDiv a b * b : ℕ) : ℚ) := by exact_mod_cast hmul.2
      rw [Nat.cast_add, Nat.cast_mul, Nat.cast_sub hn1] at h1
      rw [Nat.cast_mul] at h2
      push_cast at h1 h2
      exact ⟨h1, h2⟩
    · have h1 : ceilDiv a b = 1 := by
        unfold ceilDiv
        apply Nat.div_eq_of_lt_le <;> omega
      have h2 : ((2 ^ 53 : ℕ) : ℚ) ≤ roundNum b :=
        le_roundNum_of_le (isDouble_nat le_rfl) (by exact_mod_cast h)
      have h3 : (a : ℚ) ≤ ((2 ^ 53 : ℕ) : ℚ) := by exact_mod_cast ha.le
      have h4 : (1 : ℚ) ≤ a := by exact_mod_cast hpos
      rw [h1]
      constructor <;> push_cast <;> push_cast at h2 h3 <;> linarith
  obtain ⟨h1, h2⟩ := roundNum_count ha hr1 hr2 (by omega) key.1 key.2 hn1
  have hq0 : 0 < roundNum (a / roundNum b) := by
    have : (1 : ℚ) ≤ ceilDiv a b := by exact_mod_cast hn1
    linarith
  have hq1 : roundNum (a / roundNum b) ≤ 2 ^ 64 := by
    have h3 : ceilDiv a b ≤ 2 ^ 64 := by omega
    have h4 : (ceilDiv a b : ℚ) ≤ ((2 ^ 64 : ℕ) : ℚ) := by exact_mod_cast h3
    push_cast at h4
    linarith
  rw [round_pos (.inr hq0) hq1] at e
  exact toSize_nat (ceil_num e hn1 (by omega) h1 h2) (by omega)

/-- Division by zero gives infinity or NaN, the conversion is undefined. -/
theorem toSize_div_zero (a : ℕ) : toSize (ceil (div (ofNat a) (ofNat 0))) = .error .badCast := by
  have e : (div (ofNat a) (ofNat 0)).1 = .nan ∨ ∃ s, (div (ofNat a) (ofNat 0)).1 = .inf s := by
    show Ext.round (Ext.div _ _) = _ ∨ ∃ s, Ext.round (Ext.div _ _) = _
    rw [ofNat_zero]
    show Ext.round (Ext.div _ (.zero false)) = _ ∨ ∃ s, Ext.round (Ext.div _ (.zero false)) = _
    cases (ofNat a).1
    · exact .inl rfl
    · exact .inr ⟨_, rfl⟩
    · exact .inl rfl
    · exact .inr ⟨_, rfl⟩
  rcases e with e | ⟨s, e⟩ <;>
  · have h2 : ceil (div (ofNat a) (ofNat 0)) = div (ofNat a) (ofNat 0) := by
      unfold ceil
      rw [e]
    rw [h2]
    unfold toSize
    rw [e]

/-- `std::ceil` is exact: its result is never rounded. -/
theorem isDouble_ceil {q : ℚ} (h : IsDouble q) : IsDouble ⌈q⌉ := by
  obtain ⟨m, e, hm, he1, he2, rfl⟩ := h
  rcases le_or_gt 0 e with h | h
  · obtain ⟨d, rfl⟩ := Int.eq_ofNat_of_zero_le h
    have : ((m : ℚ) * 2 ^ (d : ℤ)) = ((m * 2 ^ d : ℤ) : ℚ) := by
      rw [zpow_natCast, Int.cast_mul, Int.cast_pow, Int.cast_ofNat]
    rw [this, Int.ceil_intCast, ← this]
    exact ⟨m, d, hm, he1, he2, rfl⟩
  · have h1 : |⌈(m : ℚ) * 2 ^ e⌉| ≤ 2 ^ 53 := by
      have h2 : (2 : ℚ) ^ e ≤ 1 := by
        have := two_zpow_le (d := e) (e := 0) h.le
        simpa using this
      have h3 : |(m : ℚ) * 2 ^ e| ≤ 2 ^ 53 := by
        rw [abs_mul, abs_of_pos (two_zpow_pos e)]
        have h4 : |(m : ℚ)| < 2 ^ 53 := by exact_mod_cast hm
        have := mul_le_mul h4.le h2 (two_zpow_pos e).le (by norm_num)
        linarith
      rw [abs_le] at h3 ⊢
      constructor
      · have h5 : ((-2 ^ 53 : ℤ) : ℚ) ≤ ⌈(m : ℚ) * 2 ^ e⌉ := by
          push_cast
          exact h3.1.trans (Int.le_ceil _)
        exact_mod_cast h5
      · rw [Int.ceil_le]
        push_cast
        exact h3.2
    have := isDouble_int (s := 0) h1 (by norm_num) (by norm_num)
    simpa using this

end Double

open Double

theorem blockCount_eq {mn mx block : List Nat} {d : Nat}
    (ha : usub (mx.getD d 0) (mn.getD d 0) < 2 ^ 53) (hb : block.getD d 0 < 2 ^ 64) :
    blockCount mn mx block d = IndexIterator.blockCount mn mx block d := by
  unfold blockCount IndexIterator.blockCount
  split
  · rename_i h
    rw [h]
    exact toSize_div_zero _
  · exact toSize_ceil_div ha hb (by omega)

theorem blockCounts_eq {mn mx block ds : List Nat}
    (ha : ∀ d ∈ ds, usub (mx.getD d 0) (mn.getD d 0) < 2 ^ 53) (hb : ∀ d, block.getD d 0 < 2 ^ 64) :
    blockCounts mn mx block ds = IndexIterator.blockCounts mn mx block ds := by
  unfold blockCounts IndexIterator.blockCounts
  have : ∀ c, ds.foldlM (fun c d => (c * ·) <$> blockCount mn mx block d) c =
      ds.foldlM (fun c d => (c * ·) <$> IndexIterator.blockCount mn mx block d) c := by
    induction ds with
    | nil => intro c; rfl
    | cons d ds ih =>
      intro c
      rw [List.foldlM_cons, List.foldlM_cons, blockCount_eq (ha d (by simp)) (hb d)]
      refine congrArg _ (funext fun c => ih (fun d hd => ha d (by simp [hd])) c)
  exact this 1

/-- Sizes of blocks below `2^53`. -/
def SmallBlocks (cfg : List (List Nat × List Bool)) : Prop := ∀ c ∈ cfg, ∀ n ∈ c.1, n < 2 ^ 53

theorem SmallBlocks.getD {cfg : List (List Nat × List Bool)} (h : SmallBlocks cfg)
    {c : List Nat × List Bool} (hc : c ∈ cfg) (d : Nat) : c.1.getD d 0 < 2 ^ 53 := by
  rcases Nat.lt_or_ge d c.1.length with hd | hd
  · rw [List.getD_eq_getElem?_getD, List.getElem?_eq_getElem hd, Option.getD_some]
    exact h c hc _ (List.getElem_mem hd)
  · rw [List.getD_eq_getElem?_getD, List.getElem?_eq_none hd, Option.getD_none]
    norm_num

theorem iterateRevBy_eq {dim : Nat} : ∀ {cfg : List (List Nat × List Bool)} {mn mx : List Nat},
    SmallBlocks cfg → (∀ d, d < dim → usub (mx.getD d 0) (mn.getD d 0) < 2 ^ 53) →
    IndexIterator.iterateRevBy blockCounts dim cfg mn mx = IndexIterator.iterateRev dim cfg mn mx
  | [], _, _, _, _ => rfl
  | [(_, _)], _, _, _, _ => rfl
  | (block, f) :: c :: rest, mn, mx, h, ha => by
    have hb := h.getD (List.mem_cons_self)
    have hr : SmallBlocks (c :: rest) := fun x hx => h x (List.mem_cons_of_mem _ hx)
    have ih := fun cur : List Nat => iterateRevBy_eq (dim := dim) (cfg := c :: rest) (mn := cur)
      (mx := (List.range dim).map fun d => cur.getD d 0 + block.getD d 0) hr (by
        intro d hd
        rw [List.getD_eq_getElem?_getD, List.getElem?_eq_getElem (by simpa using hd), Option.getD_some]
        simp only [List.getElem_map, List.getElem_range, usub]
        rw [if_pos (by omega)]
        have := hb d
        simp only at this
        omega)
    have e : ∀ ds : List Nat, (∀ d ∈ ds, d < dim) →
        blockCounts mn mx block ds = IndexIterator.blockCounts mn mx block ds := fun ds hds =>
      blockCounts_eq (fun d hd => ha d (hds d hd)) (fun d => (hb d).trans (by norm_num))
    rw [IndexIterator.iterateRevBy, IndexIterator.iterateRev, IndexIterator.iterateRevBy]
    simp only [ih, e ((List.range dim).filter fun d => f.getD d false)
        (fun d hd => List.mem_range.1 (List.mem_filter.1 hd).1),
      e ((List.range dim).filter fun d => !f.getD d false)
        (fun d hd => List.mem_range.1 (List.mem_filter.1 hd).1)]

/-- The comparison of the relative difference. -/
theorem relOk_imp {t : Double} {d m : Nat} (hd : d ≤ 2 ^ 53) (hm : m ≤ 2 ^ 53) (h0 : 0 < m)
    (hf : t.finite) (h : relOk t d m = true) : (d : ℚ) < t.value * m := by
  have hm' : (0 : ℚ) < m := by exact_mod_cast h0
  unfold relOk at h
  rcases Nat.eq_zero_or_pos d with rfl | hpos
  · have e : (div (ofNat 0) (ofNat m)).1 = .zero (false ^^ decide ((m : ℚ) < 0)) := by
      show Ext.round (Ext.div _ _) = _
      rw [ofNat_exact hm h0, ofNat_zero]
      rfl
    unfold lt at h
    rw [e] at h
    obtain ⟨t, ht⟩ := t
    cases t with
    | num q =>
      have hq : 0 < q := of_decide_eq_true h
      show ((0 : ℕ) : ℚ) < q * m
      rw [Nat.cast_zero]
      exact mul_pos hq hm'
    | zero => exact absurd h (by simp)
    | nan => exact absurd hf id
    | inf => exact absurd hf id
  · have e : (div (ofNat d) (ofNat m)).1 = Ext.round (.num (d / m)) := by
      show Ext.round (Ext.div _ _) = _
      rw [ofNat_exact hm h0, ofNat_exact hd hpos]
      rfl
    have hd' : (1 : ℚ) ≤ d := by exact_mod_cast hpos
    have hq : (2 : ℚ) ^ (-53 : ℤ) ≤ d / m := by
      rw [le_div_iff₀ hm']
      have h1 : (m : ℚ) ≤ ((2 ^ 53 : ℕ) : ℚ) := by exact_mod_cast hm
      have h2 := mul_le_mul_of_nonneg_left h1 (two_zpow_pos (-53)).le
      have h3 : (2 : ℚ) ^ (-53 : ℤ) * ((2 ^ 53 : ℕ) : ℚ) = 1 := by norm_num
      linarith
    have hlo := le_roundNum_of_le (isDouble_two_zpow (by norm_num) (by norm_num)) hq
    have hhi : roundNum (d / m) ≤ 2 ^ 64 := by
      have h1 : (d : ℚ) / m ≤ d := div_le_self (by linarith) (by exact_mod_cast h0)
      have h2 := roundNum_le_of_le (isDouble_nat hd) h1
      have h3 : (d : ℚ) ≤ ((2 ^ 53 : ℕ) : ℚ) := by exact_mod_cast hd
      push_cast at h3
      have : (2 : ℚ) ^ 53 ≤ 2 ^ 64 := by norm_num
      linarith
    have hp : 0 < roundNum (d / m) := lt_of_lt_of_le (two_zpow_pos _) hlo
    rw [round_pos (.inr hp) hhi] at e
    unfold lt at h
    rw [e] at h
    obtain ⟨t, ht⟩ := t
    cases t with
    | num q =>
      have hq : roundNum (d / m) < q := of_decide_eq_true h
      show (d : ℚ) < q * m
      rw [← div_lt_iff₀ hm']
      by_contra hc
      have := le_roundNum_of_le ht.2 (not_lt.1 hc)
      linarith
    | zero =>
      have : roundNum (d / m) < 0 := of_decide_eq_true h
      linarith
    | nan => exact absurd hf id
    | inf => exact absurd hf id

/-- Neither negative nor `-0.0`. -/
def Ext.NonNeg : Ext → Prop
  | .nan => True
  | .inf s => s = false
  | .zero s => s = false
  | .num q => 0 < q

theorem Ext.nonNeg_round {x : Ext} (h : x.NonNeg) : x.round.NonNeg := by
  cases x with
  | num q =>
    have hq : 0 < q := h
    have h0 : 0 ≤ roundNum q := le_roundNum_of_le isDouble_zero hq.le
    show Ext.NonNeg (if _ then _ else if _ then _ else _)
    have hd : decide (q < 0) = false := decide_eq_false (not_lt.2 hq.le)
    split
    · exact hd
    · split
      · exact hd
      · rename_i h1
        exact lt_of_le_of_ne h0 (Ne.symm h1)
  | _ => exact h

theorem Ext.nonNeg_div {x y : Ext} (hx : x.NonNeg) (hy : y.NonNeg) : (x.div y).NonNeg := by
  cases x <;> cases y <;> simp only [Ext.NonNeg] at hx hy <;> simp only [Ext.div, Ext.NonNeg]
  all_goals first
    | (subst hx; subst hy; rfl)
    | (subst hx; simp [not_lt.2 hy.le])
    | (subst hy; simp [not_lt.2 hx.le])
    | exact div_pos hx hy

theorem nonNeg_ofNat (n : Nat) : (ofNat n).1.NonNeg := by
  show Ext.NonNeg (Ext.round (if _ then _ else _))
  apply Ext.nonNeg_round
  split
  · rfl
  · rename_i h
    exact lt_of_le_of_ne (Nat.cast_nonneg n) (Ne.symm h)

/-- A bound that is not positive is never undercut. -/
theorem relOk_false {t : Double} (ht : ∀ q, t.1 = .num q → q ≤ 0) (hi : t.1 ≠ .inf false) (d m : Nat) :
    relOk t d m = false := by
  have h : (div (ofNat d) (ofNat m)).1.NonNeg :=
    Ext.nonNeg_round (Ext.nonNeg_div (nonNeg_ofNat d) (nonNeg_ofNat m))
  unfold relOk
  generalize div (ofNat d) (ofNat m) = x at h
  obtain ⟨x, hx⟩ := x
  obtain ⟨t, ht'⟩ := t
  simp only at h ht hi
  cases x <;> cases t <;> simp only [Ext.NonNeg] at h <;> simp only [lt]
  · rw [h]; rfl
  · exact h
  · exact h
  · rename_i s t
    cases t
    · exact absurd rfl hi
    · rfl
  · rename_i q
    exact decide_eq_false (not_lt.2 (ht q rfl))
  · rename_i q t
    cases t
    · exact absurd rfl hi
    · rfl
  · exact decide_eq_false (not_lt.2 h.le)
  · rename_i p q
    exact decide_eq_false (not_lt.2 ((ht q rfl).trans h.le))

end Verif.IEEE
