import Verif.Props.Certified
import Verif.Props.Fast
/-
C134 for programs compiled with -ffast-math.
-/
namespace Verif.Props
open Kernel IEEE Term

variable {p q : Nat → Nat → Double}

private theorem atom_finite {x : Term} {v : Double} (h : Computes p q x v) (hx : x.Atom)
    (hf : v.finite) : (val p q x).finite ∧ v.value = (val p q x).value := by
  cases h with
  | a => exact ⟨hf, rfl⟩
  | b => exact ⟨hf, rfl⟩
  | zero h1 h2 => exact ⟨trivial, h2⟩
  | _ => exact absurd hx id

/-- A limit that nothing exceeds. -/
private def wide (n m : Nat) (W : ℚ) : ℚ := (1 + 2 ^ (-53 : ℤ)) ^ n * (W + m * 2 ^ (-1075 : ℤ))

private theorem near_two {n : Nat} {S W : ℚ} {u v w : Double} (h : |u.value - S| ≤ err n W)
    (hS : |S| ≤ W) (hf : (u.add (v.mul w)).finite) :
    |(u.add (v.mul w)).value - (S + v.value * w.value)| ≤ err (n + 1) (W + |v.value * w.value|) := by
  obtain ⟨h1, h2, h3⟩ := add_fin hf
  obtain ⟨-, -, h6⟩ := mul_fin h2
  rw [h3, h6]
  exact (@Rounding.Approx.mac ℚ _ _ _ Shadow (shadow fun _ _ _ => false)
    (shadowRounding (fun _ _ _ => false) (wide (n + 1 + 1) (n + 1) (W + |v.value * w.value|))) (n + 1) n S W
    (u, u.value) (v, v.value) (w, w.value) ⟨u.isDouble_value.multiple, h⟩ (by omega) hS
    v.isDouble_value.multiple w.isDouble_value.multiple le_rfl).2

private theorem near_fused {n : Nat} {S W : ℚ} {u v w : Double} (h : |u.value - S| ≤ err n W)
    (hS : |S| ≤ W) (hf : (u.fma v w).finite) :
    |(u.fma v w).value - (S + v.value * w.value)| ≤ err (n + 1) (W + |v.value * w.value|) := by
  obtain ⟨h1, h2, h3, h4⟩ := fma_fin hf
  rw [h4]
  exact (@Rounding.Approx.mac ℚ _ _ _ Shadow (shadow fun _ _ _ => true)
    (shadowRounding (fun _ _ _ => true) (wide (n + 1 + 1) (n + 1) (W + |v.value * w.value|))) (n + 1) n S W
    (u, u.value) (v, v.value) (w, w.value) ⟨u.isDouble_value.multiple, h⟩ (by omega) hS
    v.isDouble_value.multiple w.isDouble_value.multiple le_rfl).2

private theorem near_add {n n' : Nat} {S S' W W' : ℚ} {v w : Double} (h : |v.value - S| ≤ err n W)
    (h' : |w.value - S'| ≤ err n' W') (hS : |S| ≤ W) (hS' : |S'| ≤ W') (h0 : n = 0 → S = 0 ∧ W = 0)
    (h0' : n' = 0 → S' = 0 ∧ W' = 0) (hf : (v.add w).finite) :
    |(v.add w).value - (S + S')| ≤ err (n + n') (W + W') := by
  obtain ⟨h1, h2, h3⟩ := add_fin hf
  rcases Nat.eq_zero_or_pos n with hn | hn
  · obtain ⟨rfl, rfl⟩ := h0 hn
    subst hn
    simp only [zero_add]
    rw [(zero_add_value h1 h2 (Near.zero ⟨h1, h⟩)).2]
    exact h'
  rcases Nat.eq_zero_or_pos n' with hn' | hn'
  · obtain ⟨rfl, rfl⟩ := h0' hn'
    subst hn'
    simp only [add_zero]
    rw [(add_zero_value h1 h2 (Near.zero ⟨h2, h'⟩)).2]
    exact h
  rw [h3]
  let Ω := wide (n + n' + 1) (n + n') (W + W')
  have e1 := @Rounding.Approx.mono ℚ _ _ _ Shadow (shadow fun _ _ _ => false)
    (shadowRounding (fun _ _ _ => false) Ω) (n + 1) n (n + n') n S W W (v, v.value)
    ⟨v.isDouble_value.multiple, h⟩ (by omega) (Nat.le_refl _) ((abs_nonneg _).trans hS) le_rfl
  have e2 := @Rounding.Approx.mono ℚ _ _ _ Shadow (shadow fun _ _ _ => false)
    (shadowRounding (fun _ _ _ => false) Ω) (n' + 1) n' (n + n') n' S' W' W' (w, w.value)
    ⟨w.isDouble_value.multiple, h'⟩ (by omega) (Nat.le_refl _) ((abs_nonneg _).trans hS') le_rfl
  exact (@Rounding.Approx.add ℚ _ _ _ Shadow (shadow fun _ _ _ => false)
    (shadowRounding (fun _ _ _ => false) Ω) (n + n') n n' S S' W W' (v, v.value) (w, w.value)
    e1 e2 hS hS' le_rfl).2

/-- A compiled formula with a finite value has finite factors and a small error. -/
private theorem finite_near {t : Term} {v : Double} (h : Computes p q t v) (ht : t.Flat)
    (hv : v.finite) : FiniteFactors p q t.products ∧
      |v.value - total p q t.products| ≤ err (count t.products) (absTotal p q t.products) := by
  have step : ∀ {x y : Term} {v w : Double}, Computes p q x v → Computes p q y w → x.Atom → y.Atom →
      v.finite → w.finite → ((val p q x).finite ∧ (val p q y).finite) ∧
        v.value * w.value = prodVal p q (x, y) := by
    intro x y v w hx hy ax ay hv hw
    obtain ⟨h1, h2⟩ := atom_finite hx ax hv
    obtain ⟨h3, h4⟩ := atom_finite hy ay hw
    exact ⟨⟨h1, h3⟩, by rw [h2, h4]; rfl⟩
  have cons : ∀ {x y : Term} {s : Multiset (Term × Term)},
      (val p q x).finite ∧ (val p q y).finite → FiniteFactors p q s →
      FiniteFactors p q ((x, y) ::ₘ s) := by
    intro x y s h1 h2 z hz
    rcases Multiset.mem_cons.1 hz with rfl | hz
    · exact h1
    · exact h2 z hz
  have two : ∀ {c x y : Term} {u v w : Double}, Computes p q x v → Computes p q y w → x.Atom → y.Atom →
      FiniteFactors p q c.products →
      |u.value - total p q c.products| ≤ err (count c.products) (absTotal p q c.products) →
      (u.add (v.mul w)).finite → FiniteFactors p q ((x, y) ::ₘ c.products) ∧
        |(u.add (v.mul w)).value - total p q ((x, y) ::ₘ c.products)| ≤
          err (count ((x, y) ::ₘ c.products)) (absTotal p q ((x, y) ::ₘ c.products)) := by
    intro c x y u v w hx hy ax ay ihf ihe hf
    obtain ⟨h1, h2, -⟩ := add_fin hf
    obtain ⟨h3, h4, -⟩ := mul_fin h2
    obtain ⟨h5, hp⟩ := step hx hy ax ay h3 h4
    refine ⟨cons h5 ihf, ?_⟩
    have := near_two ihe (abs_total_le _) hf
    rw [count_cons, total_cons, absTotal_cons, ← hp]
    split
    · exact this
    · rename_i hr
      have h0 : v.value * w.value = 0 := hp.trans (prodVal_unreal hr)
      rw [(add_zero_value h1 h2 (mul_zero_value h3 h4 h0).2).2, h0, abs_zero]
      simp only [add_zero]
      exact ihe
  induction h with
  | a => exact absurd ht id
  | b => exact absurd ht id
  | zero h1 h2 => exact ⟨fun x hx => absurd hx (Multiset.notMem_zero x), (near_zero h1 h2).2⟩
  | @add x y v w hx hy ihx ihy =>
    obtain ⟨h1, h2, -⟩ := add_fin hv
    obtain ⟨f1, e1⟩ := ihx ht.1 h1
    obtain ⟨f2, e2⟩ := ihy ht.2 h2
    have e : (Term.add x y).products = x.products + y.products := rfl
    have ec : count (x.products + y.products) = count x.products + count y.products :=
      Multiset.countP_add _ _ _
    rw [e, ec, total_add, absTotal_add]
    refine ⟨fun z hz => (Multiset.mem_add.1 hz).elim (f1 z) (f2 z), ?_⟩
    exact near_add e1 e2 (abs_total_le _) (abs_total_le _) count_zero_total count_zero_total hv
  | @two c x y u v w hc hx hy ihc _ _ =>
    obtain ⟨f1, e1⟩ := ihc ht.1 (add_fin hv).1
    exact two hx hy ht.2.1 ht.2.2 f1 e1 hv
  | @fused c x y u v w hc hx hy ihc _ _ =>
    obtain ⟨h1, h3, h4, -⟩ := fma_fin hv
    obtain ⟨f1, e1⟩ := ihc ht.1 h1
    obtain ⟨h5, hp⟩ := step hx hy ht.2.1 ht.2.2 h3 h4
    refine ⟨cons h5 f1, ?_⟩
    have := near_fused e1 (abs_total_le _) hv
    have e : (Term.mac c x y).products = (x, y) ::ₘ c.products := rfl
    rw [e, count_cons, total_cons, absTotal_cons, ← hp]
    split
    · exact this
    · rename_i hr
      have h0 : v.value * w.value = 0 := hp.trans (prodVal_unreal hr)
      have e3 : u.value + v.value * w.value = u.value := by rw [h0, add_zero]
      have h6 := (fma_exact h1 h3 h4 (by rw [e3]; exact u.isDouble_value)).2
      rw [e3] at h6
      rw [h6, h0, abs_zero]
      simp only [add_zero]
      exact e1
  | @product x y v w hx hy _ _ =>
    obtain ⟨h1, h2⟩ := zero_add_value (x := Double.zero) trivial hv rfl
    have := two (c := .zero) hx hy ht.2.1 ht.2.2 (fun x hx => absurd hx (Multiset.notMem_zero x))
      (near_zero (v := Double.zero) trivial rfl).2 h1
    rw [h2] at this
    exact this

variable {N r : Nat} {P : ND (Array Term)} {C : Array Double}

/-- **C134.** Compiled with `-ffast-math` (as in C105): whatever order the compiler chooses for each
entry, and whichever products it fuses, no entry is silently wrong. -/
theorem C134_fast (h : Sums P N r Term.a Term.b) (hr : 1 ≤ r) (hC : FastResult p q P C) :
    ∃ c : Nat → Nat → Double, C = rowMajor N c ∧ ∀ i, i < N → ∀ j, j < N →
      ((c i j).finite → (∀ k, k < N → (p i k).finite ∧ (q k j).finite) ∧
        |(c i j).value - r * entrySum N p q i j| ≤
          ((1 + 2 ^ (-53 : ℤ)) ^ (r * N + 1) - 1) * (r * entryAbs N p q i j) +
          (1 + 2 ^ (-53 : ℤ)) ^ (r * N + 1) * ((r * N : Nat) * 2 ^ (-1075 : ℤ))) ∧
      (¬ (c i j).finite → (∃ k, k < N ∧ ¬ ((p i k).finite ∧ (q k j).finite)) ∨
        maxDouble < (1 + 2 ^ (-53 : ℤ)) ^ (r * N + 1) *
          (r * entryAbs N p q i j + (r * N : Nat) * 2 ^ (-1075 : ℤ))) := by
  obtain ⟨c, hc, h1⟩ := fast_entries h hC
  refine ⟨c, hc, fun i hi j hj => ?_⟩
  obtain ⟨t, ht, hv⟩ := h1 i hi j hj
  obtain ⟨e1, e2, e3⟩ := entry_total (p := p) (q := q) ht
  have h0 := Term.absTotal_nonneg (p := p) (q := q) t.products
  have hall : ∀ k, k < N → (Term.a i k, Term.b k j) ∈ t.products := by
    intro k hk
    obtain ⟨-, m, hm⟩ := ht
    rw [hm, Multiset.mem_add]
    refine .inl ((Multiset.mem_nsmul_of_ne_zero (by omega)).2 (Multiset.mem_map.2 ⟨k, ?_, rfl⟩))
    exact Multiset.mem_range.2 hk
  refine ⟨fun hf => ?_, fun hf => ?_⟩
  · obtain ⟨h2, h3⟩ := finite_near hv ht.1 hf
    refine ⟨fun k hk => h2 _ (hall k hk), ?_⟩
    have h4 := (Near.mono (v := c i j) ⟨hf, h3⟩ e3 h0 le_rfl).2
    rw [e1, e2] at h4
    exact h4
  · by_contra hn
    rw [not_or, not_lt] at hn
    have h2 : FiniteFactors p q t.products := by
      obtain ⟨-, m, hm⟩ := ht
      intro x hx
      rw [hm, Multiset.mem_add] at hx
      rcases hx with hx | hx
      · obtain ⟨k, hk, rfl⟩ := Multiset.mem_map.1 (Multiset.mem_of_mem_nsmul hx)
        by_contra hk'
        exact hn.1 ⟨k, Multiset.mem_range.1 hk, hk'⟩
      · cases Multiset.mem_singleton.1 (Multiset.mem_of_mem_nsmul hx)
        exact ⟨trivial, trivial⟩
    have h3 : Fit (r * N) (absTotal p q t.products) := by rw [e2]; exact hn.2
    exact hf (hv.near ht.1 h2 (h3.mono e3 h0 le_rfl)).1

section Examples

/-- The hypotheses: `combined` with three repetitions. -/
example : Sums (Combined.matrix_multiply Combined.blocking 5 (rowMajor 5 Term.a) (rowMajor 5 Term.b) 3)
    5 3 Term.a Term.b :=
  C105_combined (f := Term.a) (g := Term.b) (fun _ _ => trivial) (fun _ _ => trivial) _ _
    (holds_rect _ _ _) (holds_rect _ _ _) 3

/-- Every pair of matrices has a result; with `2^1023, 2^1023` and `2, 2` it is not finite. -/
example (p q : Nat → Nat → Double) : ∃ C, FastResult p q
    (Naive.naive_matrix_multiply 2 (rowMajor 2 Term.a) (rowMajor 2 Term.b)) C := by
  let fuse : Double → Double → Double → Bool := fun _ _ _ => false
  exact ⟨_, C105_source fuse p q _ (by
    rw [@C01_naive Double (Double.arith fuse) 2 _ _ _ _ (holds_rect _ _ _) (holds_rect _ _ _)]
    rfl)⟩

example : (Double.ofInt 970 (2 ^ 53)).finite ∧ (Double.ofInt 0 2).finite ∧
    ¬ (((Double.ofInt 970 (2 ^ 53)).mul (Double.ofInt 0 2)).add
      ((Double.ofInt 970 (2 ^ 53)).mul (Double.ofInt 0 2))).finite := by
  decide +kernel

end Examples
end Verif.Props
