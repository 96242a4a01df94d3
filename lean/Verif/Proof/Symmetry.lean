import Verif.Proof.Double
import Verif.Proof.Plan
/-
Signs and exchanged factors in the arithmetic of doubles.
-/
namespace Verif.IEEE

/-- The same number; the signs of zeros may differ. -/
def Ext.Same (x y : Ext) : Prop := x = y ∨ ∃ s u, x = .zero s ∧ y = .zero u

theorem Ext.Same.refl (x : Ext) : x.Same x := .inl rfl

theorem Ext.Same.symm {x y : Ext} (h : x.Same y) : y.Same x := by
  rcases h with rfl | ⟨s, u, rfl, rfl⟩
  · exact .inl rfl
  · exact .inr ⟨u, s, rfl, rfl⟩

theorem Ext.Same.trans {x y z : Ext} (h : x.Same y) (h' : y.Same z) : x.Same z := by
  rcases h with rfl | ⟨s, u, rfl, rfl⟩
  · exact h'
  · rcases h' with rfl | ⟨s', u', h1, rfl⟩
    · exact .inr ⟨s, u, rfl, rfl⟩
    · exact .inr ⟨s, u', rfl, rfl⟩

theorem Ext.Same.zero (s u : Bool) : (Ext.zero s).Same (.zero u) := .inr ⟨s, u, rfl, rfl⟩

theorem Ext.Same.add {x x' y y' : Ext} (hx : x.Same x') (hy : y.Same y') :
    (x.add y).Same (x'.add y') := by
  rcases hx with rfl | ⟨s, u, rfl, rfl⟩ <;> rcases hy with rfl | ⟨s', u', rfl, rfl⟩
  · exact .inl rfl
  · cases x <;> first | exact .inl rfl | exact .zero _ _
  · cases y <;> first | exact .inl rfl | exact .zero _ _
  · exact .zero _ _

theorem Ext.Same.neg {x x' : Ext} (hx : x.Same x') : x.neg.Same x'.neg := by
  rcases hx with rfl | ⟨s, u, rfl, rfl⟩
  · exact .inl rfl
  · exact .zero _ _

theorem Ext.Same.round {x x' : Ext} (hx : x.Same x') : x.round.Same x'.round := by
  rcases hx with rfl | ⟨s, u, rfl, rfl⟩
  · exact .inl rfl
  · exact .zero _ _

theorem Ext.add_neg (x y : Ext) : (x.neg.add y.neg).Same (x.add y).neg := by
  cases x with
  | nan => exact .inl rfl
  | inf s =>
    cases y with
    | inf u =>
      cases s <;> cases u <;> exact .inl rfl
    | _ => exact .inl rfl
  | zero s =>
    cases y with
    | zero u => exact .zero _ _
    | _ => exact .inl rfl
  | num p =>
    cases y with
    | num q =>
      show Ext.Same (if -p + -q = 0 then _ else _) (Ext.neg (if p + q = 0 then _ else _))
      by_cases h : p + q = 0
      · rw [if_pos h, if_pos (by linarith)]; exact .zero _ _
      · rw [if_neg h, if_neg (by intro h'; apply h; linarith)]
        exact .inl (congrArg Ext.num (by ring))
    | _ => exact .inl rfl

theorem roundInt_neg (r : ℚ) : roundInt (-r) = -roundInt r := by
  have h1 := Int.floor_le r
  have h2 := Int.lt_floor_add_one r
  by_cases h : (⌊r⌋ : ℚ) = r
  · rw [← h, roundInt_int, ← Int.cast_neg, roundInt_int]
  · have hlt : (⌊r⌋ : ℚ) < r := lt_of_le_of_ne h1 h
    have hf : ⌊-r⌋ = -⌊r⌋ - 1 := by
      rw [Int.floor_eq_iff]
      push_cast
      constructor <;> linarith
    have e : -r - ((-⌊r⌋ - 1 : ℤ) : ℚ) = 1 - (r - ⌊r⌋) := by push_cast; ring
    unfold roundInt
    rw [hf, e]
    generalize hd : r - ⌊r⌋ = d
    rcases lt_trichotomy d (1 / 2) with h' | h' | h'
    · rw [if_neg (by linarith), if_pos (by linarith), if_pos h']; ring
    · subst h'
      rw [show (1 : ℚ) - 1 / 2 = 1 / 2 by norm_num]
      simp only [lt_irrefl, if_false]
      by_cases hm : ⌊r⌋ % 2 = 0
      · rw [if_pos hm, if_neg (c := (-⌊r⌋ - 1) % 2 = 0) (by omega)]; ring
      · rw [if_neg hm, if_pos (c := (-⌊r⌋ - 1) % 2 = 0) (by omega)]; ring
    · rw [if_pos (by linarith), if_neg (by linarith), if_pos h']; ring

theorem expo_neg (q : ℚ) : expo (-q) = expo q := by unfold expo; rw [abs_neg]

theorem roundNum_neg (q : ℚ) : roundNum (-q) = -roundNum q := by
  unfold roundNum
  rw [expo_neg, neg_div, roundInt_neg]
  push_cast
  ring

theorem Ext.round_neg (x : Ext) : x.neg.round.Same x.round.neg := by
  cases x with
  | num q =>
    show Ext.Same (if 2 ^ (1024 : ℤ) ≤ |roundNum (-q)| then _ else _)
      (Ext.neg (if 2 ^ (1024 : ℤ) ≤ |roundNum q| then _ else _))
    rw [roundNum_neg, abs_neg]
    by_cases h : (2 : ℚ) ^ (1024 : ℤ) ≤ |roundNum q|
    · rw [if_pos h, if_pos h]
      have h0 : q ≠ 0 := by
        rintro rfl
        rw [show roundNum 0 = 0 by decide +kernel, abs_zero] at h
        exact absurd h (by norm_num)
      left
      refine congrArg Ext.inf ?_
      rcases lt_or_gt_of_ne h0 with h' | h'
      · rw [decide_eq_true h', decide_eq_false (by linarith)]; rfl
      · rw [decide_eq_false (by linarith : ¬ q < 0), decide_eq_true (by linarith : -q < 0)]; rfl
    · rw [if_neg h, if_neg h]
      by_cases h' : roundNum q = 0
      · rw [if_pos h', if_pos (by linarith)]; exact .zero _ _
      · rw [if_neg h', if_neg (by intro h''; apply h'; linarith)]; exact .inl rfl
  | _ => exact .inl rfl

/-- The opposite of a double is a double. -/
theorem Ext.isDouble_neg {x : Ext} (h : x.IsDouble) : x.neg.IsDouble := by
  cases x with
  | num q =>
    obtain ⟨h0, m, e, h1, h2, h3, rfl⟩ := h
    exact ⟨neg_ne_zero.2 h0, -m, e, by rwa [abs_neg], h2, h3, by push_cast; ring⟩
  | _ => trivial

theorem Ext.mul_comm' (x y : Ext) : x.mul y = y.mul x := by
  cases x <;> cases y <;> first
    | rfl
    | exact congrArg Ext.inf (Bool.xor_comm _ _)
    | exact congrArg Ext.zero (Bool.xor_comm _ _)
    | exact congrArg Ext.num (mul_comm _ _)

theorem Ext.mul_neg' {x y : Ext} (hx : x.IsDouble) : x.neg.mul y = (x.mul y).neg := by
  have hs : ∀ q : ℚ, q ≠ 0 → decide (-q < 0) = !decide (q < 0) := by
    intro q h0
    rcases lt_or_gt_of_ne h0 with h' | h'
    · rw [decide_eq_true h', decide_eq_false (by linarith)]; rfl
    · rw [decide_eq_false (by linarith : ¬ q < 0), decide_eq_true (by linarith)]; rfl
  have hb : ∀ s u : Bool, (!s ^^ u) = !(s ^^ u) := by decide
  cases x with
  | nan => rfl
  | inf s => cases y <;> first | rfl | exact congrArg Ext.inf (hb _ _)
  | zero s => cases y <;> first | rfl | exact congrArg Ext.zero (hb _ _)
  | num q =>
    cases y with
    | nan => rfl
    | inf u => exact congrArg Ext.inf (by rw [hs q hx.1]; exact hb _ _)
    | zero u => exact congrArg Ext.zero (by rw [hs q hx.1]; exact hb _ _)
    | num p => exact congrArg Ext.num (neg_mul q p)

theorem Ext.neg_neg' (x : Ext) : x.neg.neg = x := by
  cases x <;> simp [Ext.neg]

namespace Double

/-- The opposite double, `-x`. -/
def neg (x : Double) : Double := ⟨x.1.neg, Ext.isDouble_neg x.2⟩

/-- The same number; the signs of zeros may differ. -/
def Same (x y : Double) : Prop := x.1.Same y.1

theorem mul_comm' (x y : Double) : mul x y = mul y x := congrArg ofExt (Ext.mul_comm' _ _)

theorem fma_comm (c x y : Double) : fma c x y = fma c y x := by
  unfold fma; rw [Ext.mul_comm']

private theorem ext_neg_neg (x y : Double) : x.neg.1.mul y.neg.1 = x.1.mul y.1 := by
  show x.1.neg.mul y.1.neg = _
  rw [Ext.mul_neg' x.2, Ext.mul_comm', Ext.mul_neg' y.2, Ext.neg_neg', Ext.mul_comm']

theorem mul_neg_neg (x y : Double) : mul x.neg y.neg = mul x y := congrArg ofExt (ext_neg_neg x y)

theorem fma_neg_neg (c x y : Double) : fma c x.neg y.neg = fma c x y := by
  unfold fma; rw [ext_neg_neg]

theorem add_same {c x s y : Double} (h : Same c s.neg) (h' : Same x y.neg) :
    Same (add c x) (add s y).neg := by
  show Ext.Same (Ext.round (Ext.add c.1 x.1)) (Ext.round (Ext.add s.1 y.1)).neg
  exact (Ext.Same.round ((Ext.Same.add h h').trans (Ext.add_neg _ _))).trans (Ext.round_neg _)

theorem mul_same (x y : Double) : Same (mul x.neg y) (mul x y).neg := by
  show Ext.Same (Ext.round (Ext.mul x.1.neg y.1)) (Ext.round (Ext.mul x.1 y.1)).neg
  rw [Ext.mul_neg' x.2]
  exact Ext.round_neg _

theorem fma_same {c s : Double} (h : Same c s.neg) (x y : Double) :
    Same (fma c x.neg y) (fma s x y).neg := by
  show Ext.Same (Ext.round (Ext.add c.1 (Ext.mul x.1.neg y.1)))
    (Ext.round (Ext.add s.1 (Ext.mul x.1 y.1))).neg
  rw [Ext.mul_neg' x.2]
  exact (Ext.Same.round ((Ext.Same.add h (.refl _)).trans (Ext.add_neg _ _))).trans (Ext.round_neg _)

end Double
end Verif.IEEE
