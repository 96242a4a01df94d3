import Verif.SpecFast
import Verif.SpecTiled
import Verif.Proof.Double
import Verif.Proof.Rounding
import Mathlib.Algebra.BigOperators.Group.Multiset.Basic
import Mathlib.Algebra.Order.BigOperators.Group.Multiset
import Mathlib.Algebra.Order.Group.Unbundled.Abs
/-
Formulas and what the compiler may make of them.
-/
set_option linter.unusedSectionVars false
set_option exponentiation.threshold 1100
namespace Verif
open IEEE
namespace Term

/-! ### The rules -/

theorem Fast.flat {x y : Term} (h : Fast x y) : x.Flat ↔ y.Flat := by
  induction h with
  | refl => exact Iff.rfl
  | symm _ ih => exact ih.symm
  | trans _ _ ih ih' => exact ih.trans ih'
  | add_comm => exact and_comm
  | add_assoc => exact and_assoc
  | add_zero => exact and_iff_left trivial
  | mac_eq => exact ⟨fun h => ⟨h.1, trivial, h.2⟩, fun h => ⟨h.1, h.2.2⟩⟩
  | add _ _ ih ih' => exact and_congr ih ih'
  | mac _ _ _ ih => exact and_congr ih Iff.rfl

theorem Fast.products {x y : Term} (h : Fast x y) : x.products = y.products := by
  induction h with
  | refl => rfl
  | symm _ ih => exact ih.symm
  | trans _ _ ih ih' => exact ih.trans ih'
  | add_comm => exact _root_.add_comm _ _
  | add_assoc => exact _root_.add_assoc _ _ _
  | add_zero => exact _root_.add_zero _
  | mac_eq c x y =>
    show (x, y) ::ₘ c.products = c.products + (x, y) ::ₘ 0
    rw [Multiset.add_cons, _root_.add_zero]
  | add _ _ ih ih' => exact congrArg₂ _ ih ih'
  | mac x y _ ih => exact congrArg (Multiset.cons (x, y)) ih

/-- Products added up one after the other. -/
def chain (l : List (Term × Term)) : Term := l.foldr (fun p c => mac c p.1 p.2) zero

theorem Fast.chain_add (l : List (Term × Term)) (y : Term) (l' : List (Term × Term))
    (h : Fast y (chain l')) : Fast (Term.add (chain l) y) (chain (l ++ l')) := by
  induction l with
  | nil => exact (add_comm _ _).trans ((add_zero _).trans h)
  | cons p l ih =>
    have h1 : Fast (Term.add (chain (p :: l)) y)
        (Term.add (Term.add (chain l) (Term.mac Term.zero p.1 p.2)) y) := .add (mac_eq _ _ _) (.refl _)
    have h2 : Fast (Term.add (Term.add (chain l) (Term.mac Term.zero p.1 p.2)) y)
        (Term.add (Term.add (chain l) y) (Term.mac Term.zero p.1 p.2)) :=
      (add_assoc _ _ _).trans ((Fast.add (.refl _) (add_comm _ _)).trans (add_assoc _ _ _).symm)
    exact h1.trans (h2.trans ((Fast.add ih (.refl _)).trans (mac_eq _ _ _).symm))

theorem Fast.chain_swap (p p' : Term × Term) (c : Term) :
    Fast (Term.mac (Term.mac c p.1 p.2) p'.1 p'.2) (Term.mac (Term.mac c p'.1 p'.2) p.1 p.2) := by
  have h : ∀ q q' : Term × Term, Fast (Term.mac (Term.mac c q.1 q.2) q'.1 q'.2)
      (Term.add c (Term.add (Term.mac Term.zero q.1 q.2) (Term.mac Term.zero q'.1 q'.2))) := fun q q' =>
    (mac_eq _ _ _).trans ((Fast.add (mac_eq _ _ _) (.refl _)).trans (add_assoc _ _ _))
  exact (h p p').trans ((Fast.add (.refl _) (add_comm _ _)).trans (h p' p).symm)

theorem Fast.chain_perm {l l' : List (Term × Term)} (h : l.Perm l') : Fast (chain l) (chain l') := by
  induction h with
  | nil => exact .refl _
  | cons p _ ih => exact .mac p.1 p.2 ih
  | swap p p' l => exact .chain_swap p p' (chain l)
  | trans _ _ ih ih' => exact ih.trans ih'

theorem Flat.chain {x : Term} (h : x.Flat) :
    ∃ l : List (Term × Term), (l : Multiset (Term × Term)) = x.products ∧ Fast x (chain l) := by
  induction x with
  | a => exact absurd h id
  | b => exact absurd h id
  | zero => exact ⟨[], rfl, .refl _⟩
  | add x y ihx ihy =>
    obtain ⟨l, hl, hf⟩ := ihx h.1
    obtain ⟨l', hl', hf'⟩ := ihy h.2
    refine ⟨l ++ l', ?_, (Fast.add hf (.refl _)).trans (.chain_add l y l' hf')⟩
    show _ = x.products + y.products
    rw [← hl, ← hl', Multiset.coe_add]
  | mac c x y ih =>
    obtain ⟨l, hl, hf⟩ := ih h.1
    refine ⟨(x, y) :: l, ?_, .mac x y hf⟩
    show _ = (x, y) ::ₘ c.products
    rw [← hl, Multiset.cons_coe]

theorem fast_iff {x y : Term} (hx : x.Flat) (hy : y.Flat) : Fast x y ↔ x.products = y.products := by
  refine ⟨Fast.products, fun h => ?_⟩
  obtain ⟨l, hl, hf⟩ := hx.chain
  obtain ⟨l', hl', hf'⟩ := hy.chain
  have : l.Perm l' := Multiset.coe_eq_coe.1 (by rw [hl, hl', h])
  exact hf.trans ((Fast.chain_perm this).trans hf'.symm)

/-! ### The formulas of the algorithms -/

theorem dotFrom_products (c : Term) (ks : List Nat) (f g : Nat → Term) :
    (dotFrom c ks f g).products = c.products + ((ks.map fun k => (f k, g k) : List _) : Multiset _) := by
  unfold dotFrom
  induction ks generalizing c with
  | nil => exact (_root_.add_zero _).symm
  | cons k ks ih =>
    rw [List.foldl_cons, ih, List.map_cons]
    show (f k, g k) ::ₘ c.products + _ = _
    rw [← Multiset.cons_coe, Multiset.add_cons, Multiset.cons_add]

theorem dotFrom_flat {c : Term} (hc : c.Flat) (ks : List Nat) {f g : Nat → Term}
    (hf : ∀ k, (f k).Atom) (hg : ∀ k, (g k).Atom) : (dotFrom c ks f g).Flat := by
  unfold dotFrom
  induction ks generalizing c with
  | nil => exact hc
  | cons k ks ih => exact ih (c := Term.mac c (f k) (g k)) ⟨hc, hf k, hg k⟩

theorem dot_products (n : Nat) (f g : Nat → Term) :
    (dot n f g).products = (Multiset.range n).map fun k => (f k, g k) := by
  unfold dot
  rw [dotFrom_products]
  exact _root_.zero_add _

theorem dot_flat (n : Nat) {f g : Nat → Term} (hf : ∀ k, (f k).Atom) (hg : ∀ k, (g k).Atom) :
    (dot n f g).Flat := dotFrom_flat (c := .zero) trivial _ hf hg

theorem bdotFrom_products (c : Term) (bs nb : Nat) (f g : Nat → Term) :
    (bdotFrom c bs nb f g).products =
      c.products + (Multiset.range (nb * bs)).map fun k => (f k, g k) := by
  unfold bdotFrom
  induction nb with
  | zero => rw [Nat.zero_mul]; exact (_root_.add_zero _).symm
  | succ nb ih =>
    rw [List.range_succ, List.foldl_append, List.foldl_cons, List.foldl_nil]
    show Term.products _ + Term.products _ = _
    rw [ih, dot_products, Nat.succ_mul, Multiset.range_add, Multiset.map_add, Multiset.map_map,
      _root_.add_assoc]
    rfl

theorem bdotFrom_flat {c : Term} (hc : c.Flat) (bs nb : Nat) {f g : Nat → Term}
    (hf : ∀ k, (f k).Atom) (hg : ∀ k, (g k).Atom) : (bdotFrom c bs nb f g).Flat := by
  unfold bdotFrom
  induction nb with
  | zero => exact hc
  | succ nb ih =>
    rw [List.range_succ, List.foldl_append, List.foldl_cons, List.foldl_nil]
    exact ⟨ih, dot_flat _ (fun _ => hf _) fun _ => hg _⟩

theorem bdot_products (bs nb : Nat) (f g : Nat → Term) :
    (bdot bs nb f g).products = (Multiset.range (nb * bs)).map fun k => (f k, g k) :=
  (bdotFrom_products .zero bs nb f g).trans (_root_.zero_add _)

theorem bdot_flat (bs nb : Nat) {f g : Nat → Term} (hf : ∀ k, (f k).Atom) (hg : ∀ k, (g k).Atom) :
    (bdot bs nb f g).Flat := bdotFrom_flat (c := .zero) trivial _ _ hf hg

theorem repeatDot_products (r bs nb : Nat) (f g : Nat → Term) :
    (Tiled.repeatDot r bs nb f g).products =
      r • (Multiset.range (nb * bs)).map fun k => (f k, g k) := by
  unfold Tiled.repeatDot
  induction r with
  | zero => rw [_root_.zero_nsmul]; rfl
  | succ r ih => rw [Function.iterate_succ_apply', bdotFrom_products, ih, succ_nsmul]

theorem repeatDot_flat (r bs nb : Nat) {f g : Nat → Term} (hf : ∀ k, (f k).Atom)
    (hg : ∀ k, (g k).Atom) : (Tiled.repeatDot r bs nb f g).Flat := by
  unfold Tiled.repeatDot
  induction r with
  | zero => exact trivial
  | succ r ih => rw [Function.iterate_succ_apply']; exact bdotFrom_flat ih _ _ hf hg

theorem pad_atom {N : Nat} {f : Nat → Nat → Term} (hf : ∀ i j, (f i j).Atom) (i j : Nat) :
    (Tiled.pad N f i j).Atom := by
  unfold Tiled.pad
  split
  · exact hf i j
  · trivial

theorem pad_products {N K : Nat} (h : N ≤ K) (f g : Nat → Nat → Term) {i j : Nat} (hi : i < N)
    (hj : j < N) :
    (Multiset.range K).map (fun k => (Tiled.pad N f i k, Tiled.pad N g k j)) =
      (Multiset.range N).map (fun k => (f i k, g k j)) + (K - N) • {(Term.zero, Term.zero)} := by
  obtain ⟨d, rfl⟩ := Nat.exists_eq_add_of_le h
  rw [Multiset.range_add, Multiset.map_add, Multiset.map_map, Nat.add_sub_cancel_left]
  congr 1
  · refine Multiset.map_congr rfl fun k hk => ?_
    have hk := Multiset.mem_range.1 hk
    unfold Tiled.pad
    rw [if_pos ⟨hi, hk⟩, if_pos ⟨hk, hj⟩]
  · rw [Multiset.nsmul_singleton]
    refine Multiset.eq_replicate.2 ⟨by simp, fun p hp => ?_⟩
    obtain ⟨k, _, rfl⟩ := Multiset.mem_map.1 hp
    show (Tiled.pad N f i (N + k), Tiled.pad N g (N + k) j) = _
    unfold Tiled.pad
    rw [if_neg (by omega), if_neg (by omega)]
    rfl

/-! ### The numbers -/

variable {p q : Nat → Nat → Double}

/-- The double an atom stands for. -/
def val (p q : Nat → Nat → Double) : Term → Double
  | a i k => p i k
  | b k j => q k j
  | _ => Double.zero

/-- The exact value of a product. -/
def prodVal (p q : Nat → Nat → Double) (x : Term × Term) : ℚ := (val p q x.1).value * (val p q x.2).value

/-- The exact sum of products. -/
def total (p q : Nat → Nat → Double) (s : Multiset (Term × Term)) : ℚ := (s.map (prodVal p q)).sum

/-- The sum of their absolute values. -/
def absTotal (p q : Nat → Nat → Double) (s : Multiset (Term × Term)) : ℚ :=
  (s.map fun x => |prodVal p q x|).sum

/-- The factors of the products are finite. -/
def FiniteFactors (p q : Nat → Nat → Double) (s : Multiset (Term × Term)) : Prop :=
  ∀ x ∈ s, (val p q x.1).finite ∧ (val p q x.2).finite

/-- Neither factor is the symbol zero. -/
def Real (x : Term × Term) : Prop := x.1 ≠ zero ∧ x.2 ≠ zero

instance : DecidablePred Real := fun _ => inferInstanceAs (Decidable (_ ∧ _))

theorem Computes.atom {x : Term} {v : Double} (h : Computes p q x v) (hx : x.Atom)
    (hf : (val p q x).finite) : v.finite ∧ v.value = (val p q x).value := by
  cases h with
  | a => exact ⟨hf, rfl⟩
  | b => exact ⟨hf, rfl⟩
  | zero h1 h2 => exact ⟨h1, h2⟩
  | _ => exact absurd hx id

theorem total_cons (x : Term × Term) (s : Multiset (Term × Term)) :
    total p q (x ::ₘ s) = total p q s + prodVal p q x := by
  unfold total
  rw [Multiset.map_cons, Multiset.sum_cons, _root_.add_comm]

theorem absTotal_cons (x : Term × Term) (s : Multiset (Term × Term)) :
    absTotal p q (x ::ₘ s) = absTotal p q s + |prodVal p q x| := by
  unfold absTotal
  rw [Multiset.map_cons, Multiset.sum_cons, _root_.add_comm]

theorem total_add (s t : Multiset (Term × Term)) : total p q (s + t) = total p q s + total p q t := by
  unfold total
  rw [Multiset.map_add, Multiset.sum_add]

theorem absTotal_add (s t : Multiset (Term × Term)) :
    absTotal p q (s + t) = absTotal p q s + absTotal p q t := by
  unfold absTotal
  rw [Multiset.map_add, Multiset.sum_add]

theorem absTotal_nonneg (s : Multiset (Term × Term)) : 0 ≤ absTotal p q s := by
  refine Multiset.sum_nonneg fun x hx => ?_
  obtain ⟨y, _, rfl⟩ := Multiset.mem_map.1 hx
  exact abs_nonneg _

theorem abs_total_le (s : Multiset (Term × Term)) : |total p q s| ≤ absTotal p q s := by
  induction s using Multiset.induction_on with
  | empty => exact (abs_zero (α := ℚ)).le
  | cons x s ih =>
    rw [total_cons, absTotal_cons]
    exact (abs_add_le _ _).trans (add_le_add_left ih _)

theorem prodVal_unreal {x : Term × Term} (h : ¬ Real x) : prodVal p q x = 0 := by
  unfold prodVal
  rw [Real, not_and_or, not_not, not_not] at h
  rcases h with h | h <;> rw [h]
  · exact zero_mul _
  · exact mul_zero _

/-- Adding the value zero to a double does not change its value. -/
theorem add_exact {x y : Double} (hx : x.finite) (hy : y.finite) (h : IsDouble (x.value + y.value)) :
    (x.add y).finite ∧ (x.add y).value = x.value + y.value := by
  obtain ⟨h1, h2⟩ := Double.add_value hx hy (le_maxDouble h)
  exact ⟨h1, h2.trans (roundNum_exact h)⟩

theorem mul_exact {x y : Double} (hx : x.finite) (hy : y.finite) (h : IsDouble (x.value * y.value)) :
    (x.mul y).finite ∧ (x.mul y).value = x.value * y.value := by
  obtain ⟨h1, h2⟩ := Double.mul_value hx hy (le_maxDouble h)
  exact ⟨h1, h2.trans (roundNum_exact h)⟩

theorem fma_exact {c x y : Double} (hc : c.finite) (hx : x.finite) (hy : y.finite)
    (h : IsDouble (c.value + x.value * y.value)) :
    (c.fma x y).finite ∧ (c.fma x y).value = c.value + x.value * y.value := by
  obtain ⟨h1, h2⟩ := Double.fma_value hc hx hy (le_maxDouble h)
  exact ⟨h1, h2.trans (roundNum_exact h)⟩

/-- If all partial sums are doubles, the result is exact. -/
theorem Computes.exact {t : Term} {v : Double} (h : Computes p q t v) (ht : t.Flat)
    (hf : FiniteFactors p q t.products)
    (hd : ∀ s, s ≤ t.products → IsDouble (total p q s)) :
    v.finite ∧ v.value = total p q t.products := by
  induction h with
  | a => exact absurd ht id
  | b => exact absurd ht id
  | zero h1 h2 => exact ⟨h1, h2⟩
  | @add x y v w hx hy ihx ihy =>
    have e : (Term.add x y).products = x.products + y.products := rfl
    rw [e] at hf hd ⊢
    obtain ⟨h1, h2⟩ := ihx ht.1 (fun z hz => hf z (Multiset.mem_add.2 (.inl hz)))
      fun s hs => hd s (hs.trans (Multiset.le_add_right _ _))
    obtain ⟨h3, h4⟩ := ihy ht.2 (fun z hz => hf z (Multiset.mem_add.2 (.inr hz)))
      fun s hs => hd s (hs.trans (Multiset.le_add_left _ _))
    rw [total_add, ← h2, ← h4]
    refine add_exact h1 h3 ?_
    rw [h2, h4, ← total_add]
    exact hd _ le_rfl
  | @two c x y u v w hc hx hy ihc _ _ =>
    have e : (Term.mac c x y).products = (x, y) ::ₘ c.products := rfl
    rw [e] at hf hd ⊢
    obtain ⟨h1, h2⟩ := ihc ht.1 (fun z hz => hf z (Multiset.mem_cons_of_mem hz))
      fun s hs => hd s (hs.trans (Multiset.le_cons_self _ _))
    obtain ⟨f1, f2⟩ := hf (x, y) (Multiset.mem_cons_self _ _)
    obtain ⟨h3, h4⟩ := hx.atom ht.2.1 f1
    obtain ⟨h5, h6⟩ := hy.atom ht.2.2 f2
    have hp : v.value * w.value = prodVal p q (x, y) := by rw [h4, h6]; rfl
    obtain ⟨h7, h8⟩ := mul_exact h3 h5 (by
      have := hd {(x, y)} (Multiset.singleton_le.2 (Multiset.mem_cons_self _ _))
      rwa [total, Multiset.map_singleton, Multiset.sum_singleton, ← hp] at this)
    rw [total_cons, ← h2, ← hp, ← h8]
    refine add_exact h1 h7 ?_
    rw [h2, h8, hp, ← total_cons]
    exact hd _ le_rfl
  | @fused c x y u v w hc hx hy ihc _ _ =>
    have e : (Term.mac c x y).products = (x, y) ::ₘ c.products := rfl
    rw [e] at hf hd ⊢
    obtain ⟨h1, h2⟩ := ihc ht.1 (fun z hz => hf z (Multiset.mem_cons_of_mem hz))
      fun s hs => hd s (hs.trans (Multiset.le_cons_self _ _))
    obtain ⟨f1, f2⟩ := hf (x, y) (Multiset.mem_cons_self _ _)
    obtain ⟨h3, h4⟩ := hx.atom ht.2.1 f1
    obtain ⟨h5, h6⟩ := hy.atom ht.2.2 f2
    have hp : v.value * w.value = prodVal p q (x, y) := by rw [h4, h6]; rfl
    rw [total_cons, ← h2, ← hp]
    refine fma_exact h1 h3 h5 ?_
    rw [h2, hp, ← total_cons]
    exact hd _ le_rfl
  | @product x y v w hx hy _ _ =>
    have e : (Term.mac .zero x y).products = {(x, y)} := rfl
    rw [e] at hf hd ⊢
    obtain ⟨f1, f2⟩ := hf (x, y) (Multiset.mem_singleton_self _)
    obtain ⟨h3, h4⟩ := hx.atom ht.2.1 f1
    obtain ⟨h5, h6⟩ := hy.atom ht.2.2 f2
    have hp : total p q {(x, y)} = v.value * w.value := by
      rw [total, Multiset.map_singleton, Multiset.sum_singleton, h4, h6]; rfl
    rw [hp]
    exact mul_exact h3 h5 (hp ▸ hd _ le_rfl)

/-- The number of products that are not zero symbolically. -/
def count (s : Multiset (Term × Term)) : Nat := s.countP Real

theorem count_cons (x : Term × Term) (s : Multiset (Term × Term)) :
    count (x ::ₘ s) = count s + if Real x then 1 else 0 := Multiset.countP_cons _ _ _

theorem count_zero_total {s : Multiset (Term × Term)} (h : count s = 0) :
    total p q s = 0 ∧ absTotal p q s = 0 := by
  have h0 : ∀ x ∈ s, prodVal p q x = 0 := fun x hx =>
    prodVal_unreal (Multiset.countP_eq_zero.1 h x hx)
  unfold total absTotal
  refine ⟨Multiset.sum_eq_zero fun y hy => ?_, Multiset.sum_eq_zero fun y hy => ?_⟩
  · obtain ⟨x, hx, rfl⟩ := Multiset.mem_map.1 hy
    exact h0 x hx
  · obtain ⟨x, hx, rfl⟩ := Multiset.mem_map.1 hy
    rw [h0 x hx, abs_zero]

/-- `n` products, each within `n + 1` roundings: a bound for the error. -/
def err (n : Nat) (W : ℚ) : ℚ :=
  ((1 + 2 ^ (-53 : ℤ)) ^ (n + 1) - 1) * W + (1 + 2 ^ (-53 : ℤ)) ^ (n + 1) * (n * 2 ^ (-1075 : ℤ))

/-- No overflow. -/
def Fit (n : Nat) (W : ℚ) : Prop :=
  (1 + 2 ^ (-53 : ℤ)) ^ (n + 1) * (W + n * 2 ^ (-1075 : ℤ)) ≤ maxDouble

/-- The result is within `n + 1` roundings of the exact sum, `n` the number of products. -/
def Near (n : Nat) (S W : ℚ) (v : Double) : Prop := v.finite ∧ |v.value - S| ≤ err n W

theorem Fit.mono {n n' : Nat} {W W' : ℚ} (h : Fit n' W') (hn : n ≤ n') (hW : 0 ≤ W) (hW' : W ≤ W') :
    Fit n W :=
  @Rounding.Fits.mono ℚ _ _ _ Double (Double.arith fun _ _ _ => false)
    (Double.rounding fun _ _ _ => false) _ _ _ _ _ _ h (Nat.succ_le_succ hn) hn hW hW'

theorem Near.mono {n n' : Nat} {S W W' : ℚ} {v : Double} (h : Near n S W v) (hn : n ≤ n') (hW : 0 ≤ W)
    (hW' : W ≤ W') : Near n' S W' v :=
  @Rounding.Approx.mono ℚ _ _ _ Double (Double.arith fun _ _ _ => false)
    (Double.rounding fun _ _ _ => false) _ _ _ _ _ _ _ _ h (Nat.succ_le_succ hn) hn hW hW'

theorem Near.congr {n : Nat} {S W : ℚ} {v w : Double} (h : Near n S W v) (hw : w.finite)
    (e : w.value = v.value) : Near n S W w := by
  refine ⟨hw, ?_⟩
  rw [e]
  exact h.2

theorem near_zero {v : Double} (h : v.finite) (h0 : v.value = 0) : Near 0 0 0 v := by
  refine ⟨h, ?_⟩
  rw [h0, err]
  norm_num

theorem Near.zero {v : Double} (h : Near 0 0 0 v) : v.value = 0 := by
  have := h.2
  rw [err, Nat.cast_zero, zero_mul, mul_zero, mul_zero, _root_.add_zero, sub_zero] at this
  exact abs_eq_zero.1 (le_antisymm this (abs_nonneg _))

theorem Near.two {n : Nat} {S W : ℚ} {u v w : Double} (h : Near n S W u) (hS : |S| ≤ W) (hv : v.finite)
    (hw : w.finite) (hf : Fit (n + 1) (W + |v.value * w.value|)) :
    Near (n + 1) (S + v.value * w.value) (W + |v.value * w.value|) (u.add (v.mul w)) :=
  @Rounding.Approx.mac ℚ _ _ _ Double (Double.arith fun _ _ _ => false)
    (Double.rounding fun _ _ _ => false) (n + 1) n S W u v w h (by omega) hS hv hw hf

theorem Near.fused {n : Nat} {S W : ℚ} {u v w : Double} (h : Near n S W u) (hS : |S| ≤ W) (hv : v.finite)
    (hw : w.finite) (hf : Fit (n + 1) (W + |v.value * w.value|)) :
    Near (n + 1) (S + v.value * w.value) (W + |v.value * w.value|) (u.fma v w) :=
  @Rounding.Approx.mac ℚ _ _ _ Double (Double.arith fun _ _ _ => true)
    (Double.rounding fun _ _ _ => true) (n + 1) n S W u v w h (by omega) hS hv hw hf

theorem add_zero_value {x y : Double} (hx : x.finite) (hy : y.finite) (h : y.value = 0) :
    (x.add y).finite ∧ (x.add y).value = x.value := by
  have e : x.value + y.value = x.value := by rw [h, _root_.add_zero]
  have := add_exact hx hy (by rw [e]; exact x.isDouble_value)
  rwa [e] at this

theorem zero_add_value {x y : Double} (hx : x.finite) (hy : y.finite) (h : x.value = 0) :
    (x.add y).finite ∧ (x.add y).value = y.value := by
  have e : x.value + y.value = y.value := by rw [h, _root_.zero_add]
  have := add_exact hx hy (by rw [e]; exact y.isDouble_value)
  rwa [e] at this

theorem mul_zero_value {x y : Double} (hx : x.finite) (hy : y.finite) (h : x.value * y.value = 0) :
    (x.mul y).finite ∧ (x.mul y).value = 0 := by
  have := mul_exact hx hy (by rw [h]; exact isDouble_zero)
  rwa [h] at this

theorem Near.add {n n' : Nat} {S S' W W' : ℚ} {v w : Double} (h : Near n S W v) (h' : Near n' S' W' w)
    (hS : |S| ≤ W) (hS' : |S'| ≤ W') (h0 : n = 0 → S = 0 ∧ W = 0) (h0' : n' = 0 → S' = 0 ∧ W' = 0)
    (hf : Fit (n + n') (W + W')) : Near (n + n') (S + S') (W + W') (v.add w) := by
  rcases Nat.eq_zero_or_pos n with hn | hn
  · obtain ⟨rfl, rfl⟩ := h0 hn
    subst hn
    simp only [_root_.zero_add]
    obtain ⟨h1, h2⟩ := zero_add_value h.1 h'.1 h.zero
    exact h'.congr h1 h2
  rcases Nat.eq_zero_or_pos n' with hn' | hn'
  · obtain ⟨rfl, rfl⟩ := h0' hn'
    subst hn'
    simp only [_root_.add_zero]
    obtain ⟨h1, h2⟩ := add_zero_value h.1 h'.1 h'.zero
    exact h.congr h1 h2
  have e1 := @Rounding.Approx.mono ℚ _ _ _ Double (Double.arith fun _ _ _ => false)
    (Double.rounding fun _ _ _ => false) (n + 1) n (n + n') n S W W v h (by omega) (Nat.le_refl _)
    ((abs_nonneg _).trans hS) le_rfl
  have e2 := @Rounding.Approx.mono ℚ _ _ _ Double (Double.arith fun _ _ _ => false)
    (Double.rounding fun _ _ _ => false) (n' + 1) n' (n + n') n' S' W' W' w h' (by omega) (Nat.le_refl _)
    ((abs_nonneg _).trans hS') le_rfl
  exact @Rounding.Approx.add ℚ _ _ _ Double (Double.arith fun _ _ _ => false)
    (Double.rounding fun _ _ _ => false) (n + n') n n' S S' W W' v w e1 e2 hS hS' hf

/-- The error of a compiled formula. -/
theorem Computes.near {t : Term} {v : Double} (h : Computes p q t v) (ht : t.Flat)
    (hf : FiniteFactors p q t.products) (hfit : Fit (count t.products) (absTotal p q t.products)) :
    Near (count t.products) (total p q t.products) (absTotal p q t.products) v := by
  have step : ∀ {c x y : Term} {v w : Double}, Computes p q x v → Computes p q y w → x.Atom → y.Atom →
      FiniteFactors p q ((x, y) ::ₘ c.products) →
      v.finite ∧ w.finite ∧ v.value * w.value = prodVal p q (x, y) := by
    intro c x y v w hx hy ax ay hf
    obtain ⟨f1, f2⟩ := hf (x, y) (Multiset.mem_cons_self _ _)
    obtain ⟨h3, h4⟩ := hx.atom ax f1
    obtain ⟨h5, h6⟩ := hy.atom ay f2
    exact ⟨h3, h5, by rw [h4, h6]; rfl⟩
  induction h with
  | a => exact absurd ht id
  | b => exact absurd ht id
  | zero h1 h2 => exact near_zero h1 h2
  | @add x y v w hx hy ihx ihy =>
    have e : (Term.add x y).products = x.products + y.products := rfl
    have ec : count (x.products + y.products) = count x.products + count y.products :=
      Multiset.countP_add _ _ _
    have n1 := absTotal_nonneg (p := p) (q := q) x.products
    have n2 := absTotal_nonneg (p := p) (q := q) y.products
    rw [e, ec, absTotal_add] at hfit
    rw [e] at hf
    rw [e, ec, total_add, absTotal_add]
    refine (ihx ht.1 (fun z hz => hf z (Multiset.mem_add.2 (.inl hz)))
      (hfit.mono (by omega) n1 (by linarith))).add (ihy ht.2 (fun z hz => hf z (Multiset.mem_add.2 (.inr hz)))
      (hfit.mono (by omega) n2 (by linarith))) (abs_total_le _) (abs_total_le _) count_zero_total
      count_zero_total hfit
  | @two c x y u v w hc hx hy ihc _ _ =>
    have e : (Term.mac c x y).products = (x, y) ::ₘ c.products := rfl
    have n1 := absTotal_nonneg (p := p) (q := q) c.products
    rw [e] at hf
    rw [e, count_cons, absTotal_cons] at hfit
    rw [e, count_cons, total_cons, absTotal_cons]
    obtain ⟨h1, h2, hp⟩ := step (c := c) hx hy ht.2.1 ht.2.2 hf
    have hu := ihc ht.1 (fun z hz => hf z (Multiset.mem_cons_of_mem hz))
      (hfit.mono (by omega) n1 (by linarith [abs_nonneg (prodVal p q (x, y))]))
    rw [← hp] at hfit ⊢
    split
    · rename_i hr
      rw [if_pos hr] at hfit
      exact hu.two (abs_total_le _) h1 h2 hfit
    · rename_i hr
      have h0 : v.value * w.value = 0 := hp.trans (prodVal_unreal hr)
      obtain ⟨h3, h4⟩ := mul_zero_value h1 h2 h0
      obtain ⟨h5, h6⟩ := add_zero_value hu.1 h3 h4
      simp only [h0, abs_zero, _root_.add_zero]
      exact hu.congr h5 h6
  | @fused c x y u v w hc hx hy ihc _ _ =>
    have e : (Term.mac c x y).products = (x, y) ::ₘ c.products := rfl
    have n1 := absTotal_nonneg (p := p) (q := q) c.products
    rw [e] at hf
    rw [e, count_cons, absTotal_cons] at hfit
    rw [e, count_cons, total_cons, absTotal_cons]
    obtain ⟨h1, h2, hp⟩ := step (c := c) hx hy ht.2.1 ht.2.2 hf
    have hu := ihc ht.1 (fun z hz => hf z (Multiset.mem_cons_of_mem hz))
      (hfit.mono (by omega) n1 (by linarith [abs_nonneg (prodVal p q (x, y))]))
    rw [← hp] at hfit ⊢
    split
    · rename_i hr
      rw [if_pos hr] at hfit
      exact hu.fused (abs_total_le _) h1 h2 hfit
    · rename_i hr
      have h0 : v.value * w.value = 0 := hp.trans (prodVal_unreal hr)
      have e3 : u.value + v.value * w.value = u.value := by rw [h0, _root_.add_zero]
      obtain ⟨h5, h6⟩ := fma_exact hu.1 h1 h2 (by rw [e3]; exact u.isDouble_value)
      rw [e3] at h6
      simp only [h0, abs_zero, _root_.add_zero]
      exact hu.congr h5 h6
  | @product x y v w hx hy _ _ =>
    have e : (Term.mac .zero x y).products = (x, y) ::ₘ Term.products .zero := rfl
    have e0 : total p q (Term.products .zero) = 0 ∧ absTotal p q (Term.products .zero) = 0 ∧
        count (Term.products .zero) = 0 := ⟨rfl, rfl, rfl⟩
    rw [e] at hf
    rw [e, count_cons, absTotal_cons, e0.2.1, e0.2.2] at hfit
    rw [e, count_cons, total_cons, absTotal_cons, e0.1, e0.2.1, e0.2.2]
    obtain ⟨h1, h2, hp⟩ := step (c := .zero) hx hy ht.2.1 ht.2.2 hf
    have hu := near_zero (v := Double.zero) trivial rfl
    rw [← hp] at hfit ⊢
    split
    · rename_i hr
      rw [if_pos hr] at hfit
      have h3 := hu.two (by rw [abs_zero]) h1 h2 hfit
      have hm : (v.mul w).finite := by
        have hb : |v.value * w.value| ≤ maxDouble := by
          refine le_trans ?_ hfit
          have hu1 : (1 : ℚ) ≤ (1 + 2 ^ (-53 : ℤ)) ^ (0 + 1 + 1) :=
            one_le_pow₀ (by have := two_zpow_pos (-53); linarith)
          have hη := two_zpow_pos (-1075)
          have h4 : |v.value * w.value| ≤ 0 + |v.value * w.value| + ((0 + 1 : Nat) : ℚ) * 2 ^ (-1075 : ℤ) := by
            push_cast; linarith
          exact h4.trans (le_mul_of_one_le_left ((abs_nonneg _).trans h4) hu1)
        exact (Double.mul_value h1 h2 hb).1
      obtain ⟨h5, h6⟩ := zero_add_value (x := Double.zero) trivial hm rfl
      exact h3.congr hm h6.symm
    · rename_i hr
      have h0 : v.value * w.value = 0 := hp.trans (prodVal_unreal hr)
      obtain ⟨h3, h4⟩ := mul_zero_value h1 h2 h0
      simp only [h0, abs_zero, _root_.add_zero]
      exact near_zero h3 h4

end Term
end Verif
