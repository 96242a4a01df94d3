import Verif.Proof.DoubleUse
import Verif.Props.Schedule
import Verif.Model.Combined
/-
**C98.** Numbers of blocks and work differences pass through doubles.
-/
namespace Verif.Props
open IEEE

/-- **C98.** The number of blocks computed with doubles is the smallest number of blocks that covers
the index range, for ranges below `2^53` and all block sizes of the type. -/
theorem C98_block_count (n b : Nat) (hn : n < 2 ^ 53) (hb : b < 2 ^ 64) (h0 : 0 < b) :
    ∃ c, (((Double.ofNat n).div (Double.ofNat b)).ceil).toSize = .ok c ∧
      n ≤ c * b ∧ ∀ c', n ≤ c' * b → c ≤ c' := by
  refine ⟨ceilDiv n b, Double.toSize_ceil_div hn hb h0, ?_, ?_⟩
  · unfold ceilDiv
    have := Nat.lt_div_mul_add (a := n + b - 1) h0
    omega
  · intro c' h
    unfold ceilDiv
    rw [← Nat.lt_succ_iff, Nat.div_lt_iff_lt_mul h0, Nat.succ_mul]
    omega

/-- **C98.** Blocks of size 0: the quotient is infinite or NaN, its conversion undefined. -/
theorem C98_block_zero (n : Nat) :
    (((Double.ofNat n).div (Double.ofNat 0)).ceil).toSize = .error .badCast :=
  Double.toSize_div_zero n

/-- **C98.** The bound is sharp: the next odd number loses its last block. -/
theorem C98_block_count_sharp :
    (((Double.ofNat (2 ^ 53 + 1)).div (Double.ofNat 1)).ceil).toSize = .ok (2 ^ 53) := by
  decide +kernel

/-- **C98.** `std::ceil` is not rounded: it gives the smallest integer that is not below its argument. -/
theorem C98_ceil (x : Double) (hx : x.finite) : x.ceil.finite ∧ x.ceil.value = ⌈x.value⌉ := by
  obtain ⟨x, h⟩ := x
  cases x with
  | nan => exact absurd hx id
  | inf => exact absurd hx id
  | zero s => exact ⟨trivial, by show (0 : ℚ) = _; rw [show Double.value ⟨.zero s, h⟩ = 0 from rfl]; simp⟩
  | num q =>
    have hd : IsDouble ⌈q⌉ := Double.isDouble_ceil h.2
    have e : Double.ceil ⟨.num q, h⟩ =
        Double.ofExt (if ⌈q⌉ = 0 then .zero (decide (q < 0)) else .num ⌈q⌉) := rfl
    rw [e, show Double.value ⟨.num q, h⟩ = q from rfl]
    by_cases h0 : ⌈q⌉ = 0
    · rw [if_pos h0, h0]
      exact ⟨trivial, by simp; rfl⟩
    · rw [if_neg h0]
      have h1 : Ext.IsDouble (.num (⌈q⌉ : ℚ)) := ⟨by exact_mod_cast h0, hd⟩
      have h2 : Double.ofExt (.num ⌈q⌉) = ⟨.num ⌈q⌉, h1⟩ := Subtype.ext (Ext.round_exact h1)
      rw [h2]
      exact ⟨trivial, rfl⟩

/-- **C98.** `iterate_indices` makes the same calls in the same order as with exact numbers of blocks,
for index ranges and block sizes below `2^53`. -/
theorem C98_iterate (dim : Nat) (policy : IndexIterator.Policy) (mn mx : List Nat)
    (hb : ∀ c ∈ policy.cfg, ∀ n ∈ c.1, n < 2 ^ 53)
    (h : ∀ d, d < dim → mn.getD d 0 ≤ mx.getD d 0 ∧ mx.getD d 0 - mn.getD d 0 < 2 ^ 53) :
    IEEE.iterate_indices dim policy mn mx = IndexIterator.iterate_indices dim policy mn mx := by
  unfold IEEE.iterate_indices IndexIterator.iterate_indices
  refine iterateRevBy_eq (fun c hc => hb c (List.mem_reverse.1 hc)) fun d hd => ?_
  rw [usub, if_pos (h d hd).1]
  exact (h d hd).2

/-- **C98.** The iteration of the algorithm `combined` is the same as with exact numbers of blocks. -/
theorem C98_combined {α : Type} [Arith α] (b : Tiled.Blocking) (pol : IndexIterator.Policy)
    (hpol : Combined.policy b = .ok pol) (X_size Y_size K_size : Nat) (A_trans B_padded : Array α)
    (h1 : b.L1_X < 2 ^ 53 ∧ b.L1_Y < 2 ^ 53 ∧ b.L1_K_STEP < 2 ^ 53)
    (h2 : b.L2_X < 2 ^ 53 ∧ b.L2_Y < 2 ^ 53 ∧ b.L2_K_STEP < 2 ^ 53)
    (h3 : b.L3_X < 2 ^ 53 ∧ b.L3_Y < 2 ^ 53 ∧ b.L3_K_STEP < 2 ^ 53)
    (hs : X_size < 2 ^ 53 ∧ Y_size < 2 ^ 53 ∧ K_size < 2 ^ 53) :
    (IEEE.iterate_indices 3 pol [0, 0, 0] [X_size, Y_size, K_size]).toTree
        (Combined.body b X_size Y_size A_trans B_padded) =
      Combined.tree b pol X_size Y_size K_size A_trans B_padded := by
  have e : pol.cfg = [([b.L1_X, b.L1_Y, b.L1_K_STEP], [false, false, false]),
      ([b.L2_X, b.L2_Y, b.L2_K_STEP], [false, false, false]),
      ([b.L3_X, b.L3_Y, b.L3_K_STEP], [true, true, false])] := by
    cases hpol
    rfl
  unfold Combined.tree
  rw [C98_iterate]
  · intro c hc n hn
    rw [e] at hc
    simp only [List.mem_cons, List.not_mem_nil, or_false] at hc
    rcases hc with rfl | rfl | rfl <;> simp only [List.mem_cons, List.not_mem_nil, or_false] at hn <;>
      rcases hn with rfl | rfl | rfl <;> omega
  · intro d hd
    match d, hd with
    | 0, _ => exact ⟨Nat.zero_le _, hs.1⟩
    | 1, _ => exact ⟨Nat.zero_le _, hs.2.1⟩
    | 2, _ => exact ⟨Nat.zero_le _, hs.2.2⟩

/-- **C98.** If the bound on the relative work difference is zero, negative or NaN, the comparison
fails for all works. -/
theorem C98_relative_zero (t : Double) (ht : t.1 = .nan ∨ t.finite ∧ t.value ≤ 0) (d m : Nat) :
    IEEE.relOk t d m = false := by
  apply relOk_false
  · intro q hq
    rcases ht with h | ⟨-, h⟩
    · rw [h] at hq; cases hq
    · unfold Double.value at h
      rw [hq] at h
      exact h
  · intro hi
    rcases ht with h | ⟨h, -⟩
    · rw [h] at hi; cases hi
    · unfold Double.finite at h
      rw [hi] at h
      exact h

/-- **C98.** If the comparison succeeds, the exact relative difference is below the bound. -/
theorem C98_relative (t : Double) (ht : t.finite) (d m : Nat) (hd : d ≤ 2 ^ 53) (hm : m ≤ 2 ^ 53)
    (h0 : 0 < m) (h : IEEE.relOk t d m = true) : (d : ℚ) / m < t.value := by
  rw [div_lt_iff₀ (by exact_mod_cast h0)]
  exact relOk_imp hd hm h0 ht h

/-- **C98.** The schedule of the pseudodynamic algorithm, with the comparison of doubles: the spread of
the work is below the absolute bound or, exactly, below the relative bound, or no package can be
split. -/
theorem C98_schedule (min_work_size max_work_difference : Nat) (t : Double) (ht : t.finite) (N L : Nat)
    (hL : 0 < L) (hN : N * N ≤ 2 ^ 53) :
    ∃ s, StaticImproved.create_schedule_state ⟨min_work_size, max_work_difference, IEEE.relOk t⟩ N L =
        .ok s ∧
      ((∀ lo hi, StaticImproved.Extent s.total_work lo hi →
          hi - lo < max_work_difference ∨ 0 < lo ∧ ((hi : ℚ) - lo) / lo < t.value) ∨
        ∀ lo hi, StaticImproved.Extent s.total_work lo hi →
          ∀ (i : Nat) ws, s.total_work[i]? = some hi → s.all_work[i]? = some ws →
            ∀ w ∈ ws, min_work_size < w.N →
              (hi : Int) - lo <
                |((hi : Int) - (w.N * w.N / 2 : Nat)) - (lo + (w.N * w.N / 2 : Nat))|) := by
  obtain ⟨s, h1, h2⟩ := C21_stops_for_reason ⟨min_work_size, max_work_difference, IEEE.relOk t⟩ N L hL
    (by omega)
  refine ⟨s, h1, h2.imp (fun h lo hi he => ?_) id⟩
  have hmax : ∀ x ∈ s.total_work, x ≤ N * N := by
    obtain ⟨k, s', -, h3, -, h4⟩ :=
      schedule_state ⟨min_work_size, max_work_difference, IEEE.relOk t⟩ N L hL
    rw [h1] at h4
    cases h4
    have h5 := (C18_accounting _ N L k s hL h3).1
    intro x hx
    rw [← h5]
    exact List.le_sum_of_mem hx
  refine (h lo hi he).imp id fun ⟨h0, hr⟩ => ⟨h0, ?_⟩
  have hlo := hmax lo he.1
  have hhi := hmax hi he.2.1
  have := C98_relative t ht (hi - lo) lo (by omega) (by omega) h0 hr
  rwa [Nat.cast_sub (he.2.2 hi he.2.1).1] at this

section Examples

@[reducible] private def ints : Arith Int := ⟨0, (· + ·), fun c x y => c + x * y⟩

example : ∃ c, (((Double.ofNat 100).div (Double.ofNat 7)).ceil).toSize = .ok c ∧
    100 ≤ c * 7 ∧ ∀ c', 100 ≤ c' * 7 → c ≤ c' :=
  C98_block_count 100 7 (by norm_num) (by norm_num) (by norm_num)

example : (((Double.ofNat 100).div (Double.ofNat 7)).ceil).toSize = .ok 15 := by decide +kernel

/-- beyond `2^53` the divisor is rounded, the number of blocks is not affected -/
example : ∃ c, (((Double.ofNat 100).div (Double.ofNat (2 ^ 63 + 1))).ceil).toSize = .ok c ∧
    100 ≤ c * (2 ^ 63 + 1) ∧ ∀ c', 100 ≤ c' * (2 ^ 63 + 1) → c ≤ c' :=
  C98_block_count 100 (2 ^ 63 + 1) (by norm_num) (by norm_num) (by norm_num)

example : (Double.ofRat (-1 / 2)).ceil.1 = .zero true := by
  decide +kernel

example : (Double.ofRat (5 / 2)).finite ∧ ((Double.ofRat (5 / 2)).ceil).value = 3 :=
  ⟨by decide +kernel, by decide +kernel⟩

example : IEEE.iterate_indices 2 ⟨2, [([1, 2], [false, false]), ([4, 8], [true, false])]⟩ [0, 3] [8, 11] =
    IndexIterator.iterate_indices 2 ⟨2, [([1, 2], [false, false]), ([4, 8], [true, false])]⟩ [0, 3]
      [8, 11] :=
  C98_iterate 2 _ _ _ (by decide) (by decide)

/-- the blocking of combined.cpp for a matrix of size 1024 -/
example (A B : Array Int) : ∃ pol, Combined.policy Combined.blocking = .ok pol ∧
    (IEEE.iterate_indices 3 pol [0, 0, 0] [1024, 1024, 1024]).toTree
        (@Combined.body Int ints Combined.blocking 1024 1024 A B) =
      @Combined.tree Int ints Combined.blocking pol 1024 1024 1024 A B :=
  ⟨_, rfl, @C98_combined Int ints Combined.blocking _ rfl 1024 1024 1024 A B (by decide) (by decide)
    (by decide) (by decide)⟩

/-- the bound of the tests -/
example : (fun d m => IEEE.relOk Double.zero d m) = fun _ _ => false :=
  funext fun d => funext fun m => C98_relative_zero Double.zero (.inr ⟨trivial, le_rfl⟩) d m

/-- the default value of the driver program -/
example : IEEE.relOk (Double.lit 5 2) 4 100 = true ∧ IEEE.relOk (Double.lit 5 2) 5 100 = false :=
  ⟨by decide +kernel, by decide +kernel⟩

example : ((4 : Nat) : ℚ) / (100 : Nat) < (Double.lit 5 2).value :=
  C98_relative (Double.lit 5 2) (by decide +kernel) 4 100 (by norm_num) (by norm_num) (by norm_num)
    (by decide +kernel)

/-- the exact difference may be below the bound although the rounded one is not -/
example : ((5 : Nat) : ℚ) / (100 : Nat) < (Double.lit 5 2).value ∧
    IEEE.relOk (Double.lit 5 2) 5 100 = false :=
  ⟨by decide +kernel, by decide +kernel⟩

example : ∃ s, StaticImproved.create_schedule_state ⟨64, 16, IEEE.relOk (Double.lit 5 2)⟩ 4096 3 = .ok s ∧
      ((∀ lo hi, StaticImproved.Extent s.total_work lo hi →
          hi - lo < 16 ∨ 0 < lo ∧ ((hi : ℚ) - lo) / lo < (Double.lit 5 2).value) ∨
        ∀ lo hi, StaticImproved.Extent s.total_work lo hi →
          ∀ (i : Nat) ws, s.total_work[i]? = some hi → s.all_work[i]? = some ws →
            ∀ w ∈ ws, 64 < w.N →
              (hi : Int) - lo <
                |((hi : Int) - (w.N * w.N / 2 : Nat)) - (lo + (w.N * w.N / 2 : Nat))|) :=
  C98_schedule 64 16 (Double.lit 5 2) (by decide +kernel) 4096 3 (by norm_num) (by norm_num)

end Examples

end Verif.Props
