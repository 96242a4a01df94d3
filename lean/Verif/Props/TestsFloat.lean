import Verif.Props.Rounding
import Verif.Props.Tests
import Verif.Proof.FixedPoint
/-
C86: the unit tests with random matrices in floating-point arithmetic.
-/
namespace Verif.Props
open Verif.Tests
variable {K : Type} [Field K] [LinearOrder K] [IsStrictOrderedRing K] {α : Type} [Arith α]
  {r : Rounding K α} {N : Nat} {a b : Nat → Nat → α}

theorem ApproxProduct.mono {n m n' m' : Nat} {P : ND (Array α)} (h : ApproxProduct r N n m a b P)
    (hn : 0 < N → n ≤ n') (hm : m ≤ m') : ApproxProduct r N n' m' a b P := by
  obtain ⟨G, h1, h2⟩ := h
  exact ⟨G, h1, fun i hi j hj => Rounding.Approx.mono (r := r) (h2 i hi j hj) (hn (by omega)) hm
    (Rounding.sum_abs_nonneg _ _) (le_refl _)⟩

private theorem noOverflow_mono {n m n' m' : Nat} (h : NoOverflow r N n' m' a b)
    (hn : 0 < N → n ≤ n') (hm : m ≤ m') : NoOverflow r N n m a b := by
  rcases Nat.eq_zero_or_pos N with rfl | h0
  · exact ⟨h.finite, fun i hi => by omega⟩
  · exact h.mono (hn h0) hm

private theorem padded_depth (N : Nat) : 65 + Props.paddedBlocks N ≤ N + 70 := by
  unfold paddedBlocks ceilDiv
  omega

private theorem padded_terms (N : Nat) : Props.paddedBlocks N * 64 ≤ N + 256 := by
  unfold paddedBlocks ceilDiv
  omega

/-- Inside the domain `hpx_main` of the tests returns an approximation of the product. -/
theorem hpx_main_approx (e : Env α) (c : Case) (hd : InDomain c) (hl : e.localities = 1)
    (A B C : Array α) (hA : Holds A c.N c.N a)
    (hB : Holds B c.N c.N (if c.transposed then tr b else b))
    (h : NoOverflow r c.N (c.N + 70) (c.N + 256) a b) :
    ApproxProduct r c.N (c.N + 70) (c.N + 256) a b (hpx_main e c A B C) := by
  have single : (∃ n, c.N = 2 ^ n) → 1 ≤ c.block_input → (c.block_result = 0 ∨ c.block_result ∣ c.N) →
      1 ≤ c.repetitions → ApproxProduct r c.N (c.N + 70) (c.N + 256) a b
        (Recursive.single_matrix_multiply c.N A B c.transposed c.block_input c.block_result
          c.repetitions) := by
    rintro ⟨n, hn⟩ h1 h2 h3
    have h' := h.mono (n := c.N + 2) (m := c.N) (by omega) (by omega)
    refine ApproxProduct.mono (n := c.N + 2) (m := c.N) ?_ (fun _ => by omega) (by omega)
    rw [hn] at hA hB h2 h' ⊢
    exact C85_single_pow2 n A B _ _ _ _ hA hB h1 h2 h3 h'
  have blocked : ∀ bi, 0 < bi → bi ∣ c.N → 0 < c.N → bi + 1 + c.N / bi ≤ c.N + 70 := by
    intro bi h1 h2 h0
    obtain ⟨q, hq⟩ := h2
    have h0 : 0 < q := Nat.pos_of_ne_zero fun h => by rw [hq, h] at h0; omega
    rw [hq, Nat.mul_div_cancel_left _ h1]
    obtain ⟨b', rfl⟩ := Nat.exists_eq_add_of_lt h1
    obtain ⟨q', rfl⟩ := Nat.exists_eq_add_of_lt h0
    have : (0 + b' + 1) * (0 + q' + 1) = b' * q' + b' + q' + 1 := by ring
    omega
  unfold hpx_main
  rcases hd with ⟨h0, hn, h1, h2, h3⟩ | ⟨h0, hn, h1, h2, h3, h4, h5⟩ |
    ⟨h0 | h0, ht, h1, h2, h3, h4⟩ | ⟨h0, ht, h1, h2, h3⟩ | ⟨h0, ht, h1⟩
  · rw [if_pos h0]
    exact single hn h1 h2 h3
  · rw [if_neg (by rw [h0]; decide), if_pos h0, C72_one_locality _ _ _ _ _ _ _ _ _ (.inl hl) h5 h4]
    exact single hn h1 h2 h3
  · rw [ht] at hB
    rw [h0, ht]
    simp only [String.reduceEq, if_false, if_true, not_true_eq_false]
    exact (C85_algorithms A B hA hB _ _ h1 h2 h3 h4
      (noOverflow_mono h (blocked _ h1 h3) (by omega))).mono (blocked _ h1 h3) (by omega)
  · rw [ht] at hB
    rw [h0, ht]
    simp only [String.reduceEq, if_false, if_true, not_true_eq_false]
    exact (C85_looped A B hA hB _ _ h2 h1 h4 h3
      (h.mono (by omega) (by omega))).mono (fun _ => by omega) (by omega)
  · rw [ht] at hB
    rw [h0, ht]
    simp only [String.reduceEq, if_false, if_true, not_true_eq_false]
    exact (C85_semi A B hA hB _ h1 h2 h3
      (noOverflow_mono h (blocked _ h2 h3) (by omega))).mono (blocked _ h2 h3) (by omega)
  · rw [ht] at hB
    rw [h0, ht, h1]
    simp only [String.reduceEq, if_false, if_true, Bool.false_eq_true]
    exact (C85_combined A B hA hB (h.mono (padded_depth _) (padded_terms _))).mono
      (fun _ => padded_depth _) (padded_terms _)

/-- The reference of the tests is an approximation of the product, too. -/
theorem reference_approx (c : Case) (A B : Array α) (hA : Holds A c.N c.N a)
    (hB : Holds B c.N c.N (if c.transposed then tr b else b))
    (h : NoOverflow r c.N (c.N + 1) c.N a b) :
    ApproxProduct r c.N (c.N + 1) c.N a b (reference c A B) := by
  unfold reference
  cases ht : c.transposed with
  | false =>
    rw [ht] at hB
    exact C85_naive A B hA hB h
  | true =>
    rw [ht] at hB
    exact C85_naive_transposed A B hA hB h

/-- A test passes if every entry passes its check. -/
theorem checks_close (e : Env α) (N : Nat) (G H : Nat → Nat → α)
    (h : ∀ i, i < N → ∀ j, j < N → e.close (G i j) (H i j) = true) :
    checks e N (rowMajor N G) (rowMajor N H) = .ok (List.replicate (N * N) true) := by
  rw [checks_ok e N _ _ (by simp) (by simp)]
  congr 1
  rw [List.eq_replicate_iff]
  refine ⟨by simp, fun x hx => ?_⟩
  obtain ⟨k, hk, rfl⟩ := List.mem_map.1 hx
  have hk := List.mem_range.1 hk
  have hN : 0 < N := by
    rcases Nat.eq_zero_or_pos N with h0 | h0
    · rw [h0] at hk; omega
    · exact h0
  have hi : k / N < N := Nat.div_lt_of_lt_mul hk
  have hj := Nat.mod_lt k hN
  have hkk : k / N * N + k % N = k := Nat.div_add_mod' k N
  have e1 := holds_rect N N G _ hi _ hj
  have e2 := holds_rect N N H _ hi _ hj
  rw [hkk] at e1 e2
  rw [Array.getD_eq_getD_getElem?, Array.getD_eq_getD_getElem?, e1, e2]
  exact h _ hi _ hj

/-- **C86.** Inside the domain a test with random matrices passes in every execution, for all random
numbers from -1 to 1, if the tolerance `τ` of the check is not below the rounding errors. -/
theorem C86_random_passes (r : Rounding K α) (e : Env α) (τ : K)
    (hrand : ∀ k, r.finite (e.rand k) ∧ |r.value (e.rand k)| ≤ 1)
    (hclose : ∀ x y, r.finite x → r.finite y → |r.value x - r.value y| ≤ τ → e.close x y = true)
    (hl : e.localities = 1) (c : Case) (hd : InDomain c)
    (hu : 2 * ((c.N : K) + 70) * r.u ≤ 1)
    (hΩ : 2 * ((c.N : K) + (c.N + 256) * r.η) ≤ r.Ω)
    (hτ : 4 * (((c.N : K) + 70) * r.u * c.N + (c.N + 256) * r.η) ≤ τ) :
    random_matrices e c = ND.pure (List.replicate (c.N * c.N) true) := by
  have hu' := r.u_nonneg
  have hη' := r.η_nonneg
  have key : ∀ a b : Nat → Nat → α,
      (∀ i j, r.finite (a i j) ∧ |r.value (a i j)| ≤ 1) →
      (∀ i j, r.finite (b i j) ∧ |r.value (b i j)| ≤ 1) → ∀ A B C,
      Holds A c.N c.N a → Holds B c.N c.N (if c.transposed then tr b else b) →
      ∃ G H : Nat → Nat → α, hpx_main e c A B C = ND.pure (rowMajor c.N G) ∧
        reference c A B = ND.pure (rowMajor c.N H) ∧
        ∀ i, i < c.N → ∀ j, j < c.N → e.close (G i j) (H i j) = true := by
    intro a b ha hb A B C hA hB
    have hno : NoOverflow r c.N (c.N + 70) (c.N + 256) a b :=
      C85_no_overflow (c := 1) (d := 1) (fun i _ j _ => ⟨(ha i j).1, (hb i j).1⟩)
        (fun i _ j _ => (ha i j).2) (fun i _ j _ => (hb i j).2) (by push_cast; exact hu)
        (by push_cast; rw [mul_one, mul_one]; exact hΩ)
    obtain ⟨G, h1, h2⟩ := hpx_main_approx e c hd hl A B C hA hB hno
    obtain ⟨H, h3, h4⟩ := reference_approx c A B hA hB (hno.mono (by omega) (by omega)) |>.mono
      (n' := c.N + 70) (m' := c.N + 256) (fun _ => by omega) (by omega)
    refine ⟨G, H, h1, h3, fun i hi j hj => ?_⟩
    obtain ⟨f1, g1⟩ := h2 i hi j hj
    obtain ⟨f2, g2⟩ := h4 i hi j hj
    refine hclose _ _ f1 f2 (le_trans ?_ hτ)
    have hW0 : 0 ≤ absEntry r c.N a b i j := Rounding.sum_abs_nonneg _ _
    have hW : absEntry r c.N a b i j ≤ c.N * (1 * 1) :=
      absEntry_le (fun i _ j _ => (ha i j).2) (fun i _ j _ => (hb i j).2) i j hi hj
    have hb := C85_bound (r := r) (c.N + 70) (c.N + 256) _ hW0 (by push_cast; exact hu)
    push_cast at hb
    have hm := mul_le_mul_of_nonneg_left hW
      (mul_nonneg (mul_nonneg (by norm_num) (by positivity)) hu' : 0 ≤ 2 * ((c.N : K) + 70) * r.u)
    have e1 : r.value (G i j) - r.value (H i j) = (r.value (G i j) - exactEntry r c.N a b i j) -
        (r.value (H i j) - exactEntry r c.N a b i j) := by ring
    rw [e1]
    refine (abs_sub _ _).trans ((add_le_add g1 g2).trans ?_)
    linarith
  unfold random_matrices
  rw [C49_random]
  refine (ND.pure_bind _ _).trans ((ND.pure_bind _ _).trans ?_)
  obtain ⟨G, H, h1, h2, h3⟩ := key (fun i j => e.rand (i * c.N + j))
    (if c.transposed then tr fun i j => e.rand (i * c.N + j) else fun i j => e.rand (i * c.N + j))
    (fun i j => hrand _) (fun i j => by cases c.transposed <;> exact hrand _) _ _ #[]
    (holds_rect c.N c.N fun i j => e.rand (i * c.N + j))
    (by cases c.transposed <;> exact holds_rect c.N c.N fun i j => e.rand (i * c.N + j))
  rw [h1]
  refine (ND.pure_bind _ _).trans ?_
  rw [h2]
  refine (ND.pure_bind _ _).trans ?_
  rw [checks_close e c.N G H h3]
  rfl

theorem random_sizes_le (c : Case) (hm : c ∈ random_cases) : c.N ≤ 1024 := by
  revert c
  decide

/-- **C86.** All tests with random matrices in the repository except `random_matrices_2` of
test_semi.cpp (C74) pass in every execution in double precision, for all random numbers from -1 to 1:
it is enough that the check accepts differences of up to a fifth of its tolerance `1E-8`. -/
theorem C86_all_random (r : Rounding K α) (hu : r.u ≤ 1 / 2 ^ 52) (hη : r.η ≤ 1 / 2 ^ 52)
    (hΩ : 4096 ≤ r.Ω) (e : Env α) (hrand : ∀ k, r.finite (e.rand k) ∧ |r.value (e.rand k)| ≤ 1)
    (hclose : ∀ x y, r.finite x → r.finite y → |r.value x - r.value y| ≤ 2 / 10 ^ 9 →
      e.close x y = true)
    (hl : e.localities = 1) (c : Case) (hm : c ∈ random_cases)
    (hs : ¬ (c.algorithm = "semi" ∧ c.N = 2)) :
    random_matrices e c = ND.pure (List.replicate (c.N * c.N) true) := by
  have hN : (c.N : K) ≤ 1024 := by exact_mod_cast random_sizes_le c hm
  have hN0 : (0 : K) ≤ c.N := Nat.cast_nonneg _
  have hu0 := r.u_nonneg
  have hη0 := r.η_nonneg
  have e1 : ((c.N : K) + 70) * r.u ≤ 1094 * (1 / 2 ^ 52) :=
    mul_le_mul (by linarith) hu hu0 (by norm_num)
  have e2 : ((c.N : K) + 256) * r.η ≤ 1280 * (1 / 2 ^ 52) :=
    mul_le_mul (by linarith) hη hη0 (by norm_num)
  have e3 : ((c.N : K) + 70) * r.u * c.N ≤ 1094 * (1 / 2 ^ 52) * 1024 :=
    mul_le_mul e1 hN hN0 (by norm_num)
  have n1 : (2 : K) * (1094 * (1 / 2 ^ 52)) ≤ 1 := by norm_num
  have n2 : (2 : K) * (1024 + 1280 * (1 / 2 ^ 52)) ≤ 4096 := by norm_num
  have n3 : (4 : K) * (1094 * (1 / 2 ^ 52) * 1024 + 1280 * (1 / 2 ^ 52)) ≤ 2 / 10 ^ 9 := by norm_num
  refine C86_random_passes r e _ hrand hclose hl c (random_inDomain c hm hs) ?_ ?_ ?_
  · linarith
  · linarith
  · linarith

section Examples
open FixedPoint

private def env : Env Int where
  rand k := (k * 1234567890123457 + 987654321) % 2 ^ 60
  close x y := |x - y| ≤ 2 ^ 32
  localities := 1
  junk _ := #[]

-- the test `random_matrices_1024` of test_combined.cpp
example : @random_matrices Int fixed60 env ⟨"combined", 1024, false, 128, 128, 1, 0, 0⟩ =
    ND.pure (List.replicate (1024 * 1024) true) := by
  refine @C86_all_random ℚ _ _ _ Int fixed60 fixedRounding (le_refl _) ?_ (le_refl _) env ?_ ?_ rfl
    ⟨"combined", 1024, false, 128, 128, 1, 0, 0⟩ (by decide) (by decide)
  · show (1 : ℚ) / 2 ^ 60 ≤ _
    norm_num
  · intro k
    refine ⟨trivial, ?_⟩
    have h1 := Int.emod_nonneg ((k : Int) * 1234567890123457 + 987654321) (b := 2 ^ 60) (by decide)
    have h2 := (Int.emod_lt_of_pos ((k : Int) * 1234567890123457 + 987654321) (b := 2 ^ 60) (by decide)).le
    show |((((k : Int) * 1234567890123457 + 987654321) % 2 ^ 60 : Int) : ℚ) / 2 ^ 60| ≤ 1
    generalize ((k : Int) * 1234567890123457 + 987654321) % 2 ^ 60 = m at *
    have h1' : (0 : ℚ) ≤ m := by exact_mod_cast h1
    have h2' : (m : ℚ) ≤ 2 ^ 60 := by exact_mod_cast h2
    rw [abs_of_nonneg (div_nonneg h1' (by norm_num)), div_le_one (by norm_num)]
    exact h2'
  · intro x y _ _ h
    have h' : |(x : ℚ) / 2 ^ 60 - (y : ℚ) / 2 ^ 60| ≤ 2 / 10 ^ 9 := h
    rw [← sub_div, abs_div, abs_of_pos (by norm_num : (0 : ℚ) < 2 ^ 60), div_le_iff₀ (by norm_num)] at h'
    have h2 : |(x : ℚ) - y| ≤ 2 ^ 32 := h'.trans (by norm_num)
    show decide (|x - y| ≤ 2 ^ 32) = true
    rw [decide_eq_true_iff]
    exact_mod_cast h2

end Examples
end Verif.Props
