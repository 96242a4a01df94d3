import Verif.SpecIntegers
import Verif.SpecTiled
import Mathlib.Tactic.Ring
import Mathlib.Algebra.Order.AbsoluteValue.Basic
set_option linter.unusedSectionVars false
/-
Dot products of integers in floating-point arithmetic.
-/
namespace Verif.ExactOnIntegers
variable {α : Type} [Arith α] {ιA ιB ι : Int → α} {b : Int}

theorem sum_abs_nonneg (n : Nat) (h : Nat → Int) : 0 ≤ ∑ k ∈ Finset.range n, |h k| :=
  Finset.sum_nonneg fun _ _ => abs_nonneg _

theorem dot_shift (h : ExactOnIntegers ιA ιB ι b) (f g : Nat → Int) (n : Nat)
    (hf : ∀ k, k < n → |f k| ≤ b ∧ |g k| ≤ b)
    (hb : ∑ k ∈ Finset.range n, |f k * g k| ≤ b) :
    dot n (fun k => ιA (f k)) (fun k => ιB (g k)) = ι (∑ k ∈ Finset.range n, f k * g k) := by
  induction n with
  | zero => simpa [dot, dotFrom] using h.zero.symm
  | succ n ih =>
    have hs : dot (n + 1) (fun k => ιA (f k)) (fun k => ιB (g k)) =
        Arith.mac (dot n (fun k => ιA (f k)) (fun k => ιB (g k))) (ιA (f n)) (ιB (g n)) := by
      unfold dot dotFrom
      rw [List.range_succ, List.foldl_append]
      rfl
    have h0 := sum_abs_nonneg n fun k => f k * g k
    have h1 := Finset.abs_sum_le_sum_abs (fun k => f k * g k) (Finset.range (n + 1))
    rw [Finset.sum_range_succ] at hb h1 ⊢
    rw [Finset.sum_range_succ] at h1
    have h2 := abs_nonneg (f n * g n)
    have h3 := Finset.abs_sum_le_sum_abs (fun k => f k * g k) (Finset.range n)
    rw [hs, ih (fun k hk => hf k (by omega)) (by omega), h.mac _ _ _ (by omega) (hf n (by omega)).1
      (hf n (by omega)).2 (by omega) (by omega)]

theorem bdotFrom_shift (h : ExactOnIntegers ιA ιB ι b) (f g : Nat → Int) (bs nb : Nat) (c : Int)
    (hf : ∀ k, k < nb * bs → |f k| ≤ b ∧ |g k| ≤ b)
    (hb : |c| + ∑ k ∈ Finset.range (nb * bs), |f k * g k| ≤ b) :
    bdotFrom (ι c) bs nb (fun k => ιA (f k)) (fun k => ιB (g k)) =
      ι (c + ∑ k ∈ Finset.range (nb * bs), f k * g k) := by
  induction nb with
  | zero => simp [bdotFrom]
  | succ nb ih =>
    have hs : bdotFrom (ι c) bs (nb + 1) (fun k => ιA (f k)) (fun k => ιB (g k)) =
        Arith.add (bdotFrom (ι c) bs nb (fun k => ιA (f k)) (fun k => ιB (g k)))
          (dot bs (fun k => ιA (f (nb * bs + k))) (fun k => ιB (g (nb * bs + k)))) := by
      unfold bdotFrom
      rw [List.range_succ, List.foldl_append]
      rfl
    rw [Nat.succ_mul, Finset.sum_range_add] at hb ⊢
    have h0 := sum_abs_nonneg (nb * bs) fun k => f k * g k
    have h1 := sum_abs_nonneg bs fun k => f (nb * bs + k) * g (nb * bs + k)
    have h2 := Finset.abs_sum_le_sum_abs (fun k => f k * g k) (Finset.range (nb * bs))
    have h3 := Finset.abs_sum_le_sum_abs (fun k => f (nb * bs + k) * g (nb * bs + k)) (Finset.range bs)
    have h4 := abs_nonneg c
    have h5 := abs_add_le (c + ∑ k ∈ Finset.range (nb * bs), f k * g k)
      (∑ k ∈ Finset.range bs, f (nb * bs + k) * g (nb * bs + k))
    have h6 := abs_add_le c (∑ k ∈ Finset.range (nb * bs), f k * g k)
    rw [Nat.succ_mul] at hf
    rw [hs, ih (fun k hk => hf k (by omega)) (by omega), h.dot_shift (fun k => f (nb * bs + k))
      (fun k => g (nb * bs + k)) bs (fun k hk => hf _ (by omega)) (by omega),
      h.add _ _ (by omega) (by omega) (by omega), add_assoc]

theorem bdot_shift (h : ExactOnIntegers ιA ιB ι b) (f g : Nat → Int) (bs nb : Nat)
    (hf : ∀ k, k < nb * bs → |f k| ≤ b ∧ |g k| ≤ b)
    (hb : ∑ k ∈ Finset.range (nb * bs), |f k * g k| ≤ b) :
    bdot bs nb (fun k => ιA (f k)) (fun k => ιB (g k)) =
      ι (∑ k ∈ Finset.range (nb * bs), f k * g k) := by
  unfold bdot
  rw [← h.zero, h.bdotFrom_shift f g bs nb 0 hf (by rw [abs_zero]; omega), zero_add]

theorem repeat_shift (h : ExactOnIntegers ιA ιB ι b) (f g : Nat → Int) (r bs nb : Nat)
    (hf : ∀ k, k < nb * bs → |f k| ≤ b ∧ |g k| ≤ b)
    (hb : r * ∑ k ∈ Finset.range (nb * bs), |f k * g k| ≤ b) :
    Tiled.repeatDot r bs nb (fun k => ιA (f k)) (fun k => ιB (g k)) =
      ι (r * ∑ k ∈ Finset.range (nb * bs), f k * g k) := by
  unfold Tiled.repeatDot
  induction r with
  | zero => simpa using h.zero.symm
  | succ r ih =>
    have h0 := sum_abs_nonneg (nb * bs) fun k => f k * g k
    have h1 := Finset.abs_sum_le_sum_abs (fun k => f k * g k) (Finset.range (nb * bs))
    generalize hS : ∑ k ∈ Finset.range (nb * bs), |f k * g k| = W at *
    have e1 : ((r + 1 : Nat) : Int) * W = r * W + W := by push_cast; ring
    rw [e1] at hb
    have h2 : |(r : Int) * ∑ k ∈ Finset.range (nb * bs), f k * g k| ≤ r * W := by
      rw [abs_mul, abs_of_nonneg (by omega : 0 ≤ (r : Int))]
      exact mul_le_mul_of_nonneg_left h1 (by omega)
    rw [Function.iterate_succ_apply', ih (by omega), h.bdotFrom_shift f g bs nb _ hf (by rw [hS]; omega)]
    congr 1
    push_cast
    ring

end Verif.ExactOnIntegers
