import Verif.SpecSum
import Verif.SpecExperiments
import Verif.Proof.Rounding
import Verif.Proof.Integers
import Verif.Props.Exact
import Mathlib.Data.List.Perm.Basic
import Mathlib.Data.List.Nodup
import Mathlib.Algebra.BigOperators.Group.List.Basic
set_option linter.unusedSectionVars false
/-
Orders of summation: rounding errors, integers, exact arithmetic; the orders of the kernels.
-/
namespace Verif.Summation

/-! ### values -/

theorem eval_exact {R : Type} [Semiring R] (f g : Nat → R) (e : Summation) :
    @eval R (exact R) f g e = (e.products.map fun k => f k * g k).sum := by
  induction e with
  | zero => rfl
  | mac e k ih =>
    rw [products, List.map_append, List.sum_append, ← ih]
    simp only [List.map_cons, List.map_nil, List.sum_cons, List.sum_nil, add_zero]
    rfl
  | add e e' ih ih' =>
    rw [products, List.map_append, List.sum_append, ← ih, ← ih']
    rfl

theorem Complete.sum {R : Type} [AddCommMonoid R] {n : Nat} {e : Summation} (h : e.Complete n)
    (F : Nat → R) : (e.products.map F).sum = ∑ k ∈ Finset.range n, F k := by
  rw [(List.Perm.map F h).sum_eq]
  rfl

section rounding
variable {K : Type} [Field K] [LinearOrder K] [IsStrictOrderedRing K] {α : Type} [Arith α]
variable {r : Rounding K α}

theorem abs_sum_le (h : Nat → K) (l : List Nat) :
    |(l.map h).sum| ≤ (l.map fun k => |h k|).sum := by
  induction l with
  | nil => simp
  | cons a l ih =>
    simp only [List.map_cons, List.sum_cons]
    exact (abs_add_le _ _).trans (by linarith)

theorem sum_abs_nonneg (h : Nat → K) (l : List Nat) : 0 ≤ (l.map fun k => |h k|).sum :=
  (abs_nonneg _).trans (abs_sum_le h l)

theorem rounds_pos (e : Summation) : 1 ≤ e.rounds := by
  cases e <;> simp [rounds]

theorem eval_approx {f g : Nat → α} (e : Summation)
    (hfin : ∀ k ∈ e.products, r.finite (f k) ∧ r.finite (g k))
    (hf : r.Fits e.rounds e.products.length
      (e.products.map fun k => |r.value (f k) * r.value (g k)|).sum) :
    r.Approx e.rounds e.products.length (e.products.map fun k => r.value (f k) * r.value (g k)).sum
      (e.products.map fun k => |r.value (f k) * r.value (g k)|).sum (e.eval f g) := by
  induction e with
  | zero => exact Rounding.approx_zero 1
  | mac e k ih =>
    simp only [products, rounds, eval, List.map_append, List.sum_append, List.length_append,
      List.map_cons, List.map_nil, List.sum_cons, List.sum_nil, List.length_cons, List.length_nil,
      add_zero, Nat.zero_add] at hfin hf ⊢
    have h0 := sum_abs_nonneg (fun k => r.value (f k) * r.value (g k)) e.products
    have hk := hfin k (by simp)
    refine (ih (fun k' hk' => hfin k' (by simp [hk'])) ?_).mac (rounds_pos e) (abs_sum_le _ _) hk.1 hk.2 hf
    exact hf.mono (by omega) (by omega) h0 (by linarith [abs_nonneg (r.value (f k) * r.value (g k))])
  | add e e' ih ih' =>
    simp only [products, rounds, eval, List.map_append, List.sum_append, List.length_append] at hfin hf ⊢
    have h0 := sum_abs_nonneg (fun k => r.value (f k) * r.value (g k)) e.products
    have h1 := sum_abs_nonneg (fun k => r.value (f k) * r.value (g k)) e'.products
    refine ((ih (fun k hk => hfin k (by simp [hk])) ?_).mono (by omega) (Nat.le_refl _) h0 (le_refl _)).add
      ((ih' (fun k hk => hfin k (by simp [hk])) ?_).mono (by omega) (Nat.le_refl _) h1 (le_refl _))
      (abs_sum_le _ _) (abs_sum_le _ _) hf
    · exact hf.mono (by omega) (by omega) h0 (by linarith)
    · exact hf.mono (by omega) (by omega) h1 (by linarith)

end rounding

theorem abs_sum_le_int (h : Nat → Int) (l : List Nat) :
    |(l.map h).sum| ≤ (l.map fun k => |h k|).sum := by
  induction l with
  | nil => simp
  | cons a l ih =>
    simp only [List.map_cons, List.sum_cons]
    exact (abs_add_le _ _).trans (by omega)

theorem eval_int {α : Type} [Arith α] {ιA ιB ι : Int → α} {lim : Int}
    (h : ExactOnIntegers ιA ιB ι lim) (f g : Nat → Int) (e : Summation)
    (hfin : ∀ k ∈ e.products, |f k| ≤ lim ∧ |g k| ≤ lim)
    (hb : (e.products.map fun k => |f k * g k|).sum ≤ lim) :
    e.eval (fun k => ιA (f k)) (fun k => ιB (g k)) = ι (e.products.map fun k => f k * g k).sum := by
  induction e with
  | zero => exact h.zero.symm
  | mac e k ih =>
    simp only [products, eval, List.map_append, List.sum_append, 
      List.map_cons, List.map_nil, List.sum_cons, List.sum_nil, add_zero] at hfin hb ⊢
    have h0 := abs_sum_le_int (fun k => f k * g k) e.products
    have h1 := abs_nonneg ((e.products.map fun k => f k * g k).sum)
    have h2 := abs_nonneg (f k * g k)
    have h3 := abs_add_le (e.products.map fun k => f k * g k).sum (f k * g k)
    have hk := hfin k (by simp)
    rw [ih (fun k' hk' => hfin k' (by simp [hk'])) (by omega),
      h.mac _ _ _ (by omega) hk.1 hk.2 (by omega) (by omega)]
  | add e e' ih ih' =>
    simp only [products, eval, List.map_append, List.sum_append] at hfin hb ⊢
    have h0 := abs_sum_le_int (fun k => f k * g k) e.products
    have h1 := abs_nonneg ((e.products.map fun k => f k * g k).sum)
    have h0' := abs_sum_le_int (fun k => f k * g k) e'.products
    have h1' := abs_nonneg ((e'.products.map fun k => f k * g k).sum)
    have h3 := abs_add_le (e.products.map fun k => f k * g k).sum (e'.products.map fun k => f k * g k).sum
    rw [ih (fun k hk => hfin k (by simp [hk])) (by omega), ih' (fun k hk => hfin k (by simp [hk])) (by omega),
      h.add _ _ (by omega) (by omega) (by omega)]

/-! ### the orders of the kernels -/

/-- The order with other products. -/
def map (h : Nat → Nat) : Summation → Summation
  | zero => zero
  | mac e k => mac (e.map h) (h k)
  | add e e' => add (e.map h) (e'.map h)

theorem eval_map {α : Type} [Arith α] (f g : Nat → α) (h : Nat → Nat) (e : Summation) :
    (e.map h).eval f g = e.eval (fun k => f (h k)) (fun k => g (h k)) := by
  induction e with
  | zero => rfl
  | mac e k ih => rw [map, eval, eval, ih]
  | add e e' ih ih' => rw [map, eval, eval, ih, ih']

theorem products_map (h : Nat → Nat) (e : Summation) : (e.map h).products = e.products.map h := by
  induction e with
  | zero => rfl
  | mac e k ih => simp [map, products, ih]
  | add e e' ih ih' => simp [map, products, ih, ih']

theorem rounds_map (h : Nat → Nat) (e : Summation) : (e.map h).rounds = e.rounds := by
  induction e with
  | zero => rfl
  | mac e k ih => simp [map, rounds, ih]
  | add e e' ih ih' => simp [map, rounds, ih, ih']

/-- One product after the other. -/
def ascending : Nat → Summation
  | 0 => zero
  | n + 1 => mac (ascending n) n

theorem ascending_eval {α : Type} [Arith α] (f g : Nat → α) (n : Nat) :
    (ascending n).eval f g = dot n f g := by
  induction n with
  | zero => rfl
  | succ n ih =>
    rw [ascending, eval, ih]
    unfold dot dotFrom
    rw [List.range_succ, List.foldl_append]
    rfl

theorem ascending_products (n : Nat) : (ascending n).products = List.range n := by
  induction n with
  | zero => rfl
  | succ n ih => rw [ascending, products, ih, List.range_succ]

theorem ascending_rounds (n : Nat) : (ascending n).rounds = n + 1 := by
  induction n with
  | zero => rfl
  | succ n ih => rw [ascending, rounds, ih]

/-- Four partial sums of `n / 4` products each, added to `e`. -/
def quarters (n : Nat) (h : Nat → Nat) (e : Summation) : Summation :=
  add (add (add (add e ((ascending (n / 4)).map fun t => h (4 * t + 0)))
    ((ascending (n / 4)).map fun t => h (4 * t + 1)))
    ((ascending (n / 4)).map fun t => h (4 * t + 2)))
    ((ascending (n / 4)).map fun t => h (4 * t + 3))

theorem quarters_eval {α : Type} [Arith α] (f g : Nat → α) (n : Nat) (h : Nat → Nat) (e : Summation) :
    (quarters n h e).eval f g = addQuarters n (fun k => f (h k)) (fun k => g (h k)) (e.eval f g) := by
  simp only [quarters, eval, eval_map, ascending_eval]
  rfl

theorem quarters_rounds (n : Nat) (h : Nat → Nat) (e : Summation) :
    (quarters n h e).rounds = max e.rounds (n / 4 + 1) + 4 := by
  simp only [quarters, rounds, rounds_map, ascending_rounds]
  omega

theorem quarters_perm {n : Nat} (hn : 4 ∣ n) :
    ((List.range (n / 4)).map (fun t => 4 * t + 0) ++ (List.range (n / 4)).map (fun t => 4 * t + 1) ++
      (List.range (n / 4)).map (fun t => 4 * t + 2) ++ (List.range (n / 4)).map (fun t => 4 * t + 3)).Perm
      (List.range n) := by
  obtain ⟨m, rfl⟩ := hn
  rw [Nat.mul_div_cancel_left _ (by decide)]
  refine (List.perm_ext_iff_of_nodup ?_ List.nodup_range).2 fun k => ?_
  · have hl : ∀ l, ((List.range m).map fun t => 4 * t + l).Nodup := fun l =>
      List.nodup_range.map fun x y h => by
        have h : 4 * x + l = 4 * y + l := h
        omega
    simp only [List.nodup_append, hl, true_and, List.mem_map, List.mem_append]
    refine ⟨⟨?_, ?_⟩, ?_⟩ <;> (intro x hx y hy; rintro rfl; obtain ⟨t, _, ht⟩ := hy)
    · obtain ⟨s, _, hs⟩ := hx; omega
    · rcases hx with ⟨s, _, hs⟩ | ⟨s, _, hs⟩ <;> omega
    · rcases hx with (⟨s, _, hs⟩ | ⟨s, _, hs⟩) | ⟨s, _, hs⟩ <;> omega
  · simp only [List.mem_append, List.mem_map, List.mem_range]
    constructor
    · rintro (((⟨t, ht, rfl⟩ | ⟨t, ht, rfl⟩) | ⟨t, ht, rfl⟩) | ⟨t, ht, rfl⟩) <;> omega
    · intro hk
      have h4 := Nat.mod_lt k (show 0 < 4 by decide)
      have hd := Nat.div_add_mod k 4
      have : k % 4 = 0 ∨ k % 4 = 1 ∨ k % 4 = 2 ∨ k % 4 = 3 := by omega
      rcases this with h | h | h | h
      · exact .inl (.inl (.inl ⟨k / 4, by omega, by omega⟩))
      · exact .inl (.inl (.inr ⟨k / 4, by omega, by omega⟩))
      · exact .inl (.inr ⟨k / 4, by omega, by omega⟩)
      · exact .inr ⟨k / 4, by omega, by omega⟩

theorem quarters_products {n : Nat} (hn : 4 ∣ n) (h : Nat → Nat) (e : Summation) :
    (quarters n h e).products.Perm (e.products ++ (List.range n).map h) := by
  simp only [quarters, products, products_map, ascending_products]
  have := (quarters_perm hn).map h
  simp only [List.map_append, List.map_map] at this
  simp only [List.append_assoc] at this ⊢
  exact this.append_left _

/-- Blocks of `kc` products, each with four partial sums. -/
def quarterBlocks (kc : Nat) : Nat → Summation
  | 0 => zero
  | nb + 1 => quarters kc (fun k => nb * kc + k) (quarterBlocks kc nb)

theorem quarterBlocks_eval {α : Type} [Arith α] (f g : Nat → α) (n kc : Nat) :
    (quarterBlocks kc (n / kc)).eval f g = quarterBlocksDot n kc f g := by
  unfold quarterBlocksDot
  generalize n / kc = nb
  induction nb with
  | zero => rfl
  | succ nb ih =>
    rw [quarterBlocks, quarters_eval, ih, List.range_succ, List.foldl_append]
    rfl

theorem quarterBlocks_rounds (kc nb : Nat) : (quarterBlocks kc nb).rounds ≤ kc / 4 + 1 + 4 * nb := by
  induction nb with
  | zero => simp [quarterBlocks, rounds]
  | succ nb ih => rw [quarterBlocks, quarters_rounds]; omega

theorem quarterBlocks_products {kc : Nat} (hk : 4 ∣ kc) (nb : Nat) :
    (quarterBlocks kc nb).products.Perm (List.range (nb * kc)) := by
  induction nb with
  | zero => simp [quarterBlocks, products]
  | succ nb ih =>
    rw [quarterBlocks, Nat.succ_mul, List.range_add]
    exact (quarters_products hk _ _).trans (ih.append_right _)

/-- Blocks of `bs` products, the sums of the blocks are added up. -/
def blocks (bs : Nat) : Nat → Summation
  | 0 => zero
  | nb + 1 => add (blocks bs nb) ((ascending bs).map fun k => nb * bs + k)

theorem blocks_eval {α : Type} [Arith α] (f g : Nat → α) (bs nb : Nat) :
    (blocks bs nb).eval f g = bdot bs nb f g := by
  induction nb with
  | zero => rfl
  | succ nb ih =>
    rw [blocks, eval, ih, eval_map, ascending_eval]
    unfold bdot bdotFrom
    rw [List.range_succ, List.foldl_append]
    rfl

theorem blocks_rounds (bs nb : Nat) : (blocks bs nb).rounds ≤ bs + 1 + nb := by
  induction nb with
  | zero => simp [blocks, rounds]
  | succ nb ih => rw [blocks, rounds, rounds_map, ascending_rounds]; omega

theorem blocks_products (bs nb : Nat) : (blocks bs nb).products = List.range (nb * bs) := by
  induction nb with
  | zero => simp [blocks, products]
  | succ nb ih =>
    rw [blocks, products, products_map, ascending_products, ih, Nat.succ_mul, List.range_add]

/-! ### orders without additions of zero -/

theorem Compact.rounds {e : Summation} (h : e.Compact) : e.rounds ≤ e.products.length + 1 := by
  induction e with
  | zero => exact Nat.le_refl _
  | mac e k ih =>
    have := ih h
    simp only [Summation.rounds, products, List.length_append, List.length_cons, List.length_nil]
    omega
  | add e e' ih ih' =>
    have h1 := ih h.1
    have h2 := ih' h.2.1
    have h3 := List.length_pos_iff.2 h.2.2.1
    have h4 := List.length_pos_iff.2 h.2.2.2
    simp only [Summation.rounds, products, List.length_append]
    omega

end Verif.Summation
