import Verif.SpecDriver
import Verif.SpecTiled
import Verif.Props.Kernel
set_option linter.unusedSectionVars false
/-
Dot products with a column of the identity matrix in an arithmetic that is not exact.
-/
namespace Verif
variable {α : Type} [Arith α]

/-- Which facts about the arithmetic matter if `f` is multiplied with column `j` of the identity
matrix (`one` on the diagonal). -/
structure Unit1 (one : α) (f : Nat → α) (j : Nat) : Prop where
  mac_one : Arith.mac Arith.zero (f j) one = f j
  mac_zero : ∀ k, Arith.mac Arith.zero (f k) Arith.zero = Arith.zero
  mac_keep : ∀ k, Arith.mac (f j) (f k) Arith.zero = f j
  add_left : Arith.add Arith.zero (f j) = f j
  add_right : Arith.add (f j) Arith.zero = f j
  add_zero : Arith.add Arith.zero Arith.zero = (Arith.zero : α)

/-- `l` products beginning with number `s`. -/
theorem Unit1.dot_shift {one : α} {f g : Nat → α} {j : Nat} (h : Unit1 one f j)
    (hg : ∀ k, g k = if k = j then one else Arith.zero) (s n : Nat) :
    dot n (fun k => f (s + k)) (fun k => g (s + k)) =
      if s ≤ j ∧ j < s + n then f j else Arith.zero := by
  induction n with
  | zero => rw [if_neg (by omega)]; rfl
  | succ n ih =>
    unfold dot dotFrom at *
    rw [List.range_succ, List.foldl_append, ih, List.foldl_cons, List.foldl_nil]
    show Arith.mac _ (f (s + n)) (g (s + n)) = _
    rw [hg]
    by_cases hj : s + n = j
    · rw [if_neg (by omega), if_pos hj, if_pos (by omega), hj, h.mac_one]
    · rw [if_neg hj]
      by_cases hc : s ≤ j ∧ j < s + n
      · rw [if_pos hc, if_pos (by omega), h.mac_keep]
      · rw [if_neg hc, if_neg (by omega), h.mac_zero]

theorem Unit1.dot {one : α} {f g : Nat → α} {j n : Nat} (h : Unit1 one f j)
    (hg : ∀ k, g k = if k = j then one else Arith.zero) (hj : j < n) :
    Verif.dot n f g = f j := by
  have := h.dot_shift hg 0 n
  simp only [Nat.zero_add] at this
  rw [this, if_pos (by omega)]

theorem Unit1.bdot {one : α} {f g : Nat → α} {j bs nb : Nat} (h : Unit1 one f j)
    (hg : ∀ k, g k = if k = j then one else Arith.zero) (hj : j < nb * bs) :
    Verif.bdot bs nb f g = f j := by
  have key : ∀ m, Verif.bdot bs m f g = if j < m * bs then f j else Arith.zero := by
    intro m
    induction m with
    | zero => rw [if_neg (by omega)]; rfl
    | succ m ih =>
      unfold Verif.bdot bdotFrom at *
      rw [List.range_succ, List.foldl_append, ih, List.foldl_cons, List.foldl_nil,
        h.dot_shift hg, Nat.succ_mul]
      by_cases h1 : j < m * bs
      · rw [if_pos h1, if_neg (by omega), if_pos (by omega), h.add_right]
      · rw [if_neg h1]
        by_cases h2 : j < m * bs + bs
        · rw [if_pos (by omega), if_pos h2, h.add_left]
        · rw [if_neg (by omega), if_neg h2, h.add_zero]
  rw [key, if_pos hj]

end Verif
