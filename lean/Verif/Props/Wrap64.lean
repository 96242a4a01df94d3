import Verif.Proof.Driver64
import Verif.Props.Size64
import Verif.Props.Looped
import Verif.Props.Algorithms
import Verif.Props.Semi
import Verif.Props.Combined
import Verif.Props.KernelTiled
import Verif.Props.KernelTest
import Verif.Props.Schedule
import Verif.Props.Kernel
/-
C103: the algorithms with `size_t` arithmetic modulo 2^64.
-/
namespace Verif.Props
open Driver
variable {α : Type} [Arith α]

/-! ### below 2^31 nothing changes, errors included -/

/-- **C103.** "single" -/
theorem C103_single (N : Nat) (A B : Array α) (transposed : Bool) (br bi reps : Nat) (hN : N < 2 ^ 31)
    (hi : bi < 2 ^ 31) : Size64.Recursive.single_matrix_multiply N A B transposed br bi reps =
      Recursive.single_matrix_multiply N A B transposed br bi reps :=
  Size64.Recursive.single_eq hN hi A B transposed br reps

/-- **C103.** "pseudodynamic", including its schedule -/
theorem C103_pseudodynamic (p : StaticImproved.Params) (N : Nat) (A B : Array α) (transposed : Bool)
    (br bi reps L : Nat) (hN : N < 2 ^ 31) (hi : bi < 2 ^ 31) :
    Size64.StaticImproved.matrix_multiply p N A B transposed bi br reps L =
      StaticImproved.matrix_multiply p N A B transposed bi br reps L :=
  Size64.StaticImproved.matrix_multiply_eq hN hi p A B transposed br reps L

/-- **C103.** "algorithms" -/
theorem C103_algorithms (N : Nat) (A B : Array α) (bi br : Nat) (hN : N < 2 ^ 31)
    (hi : bi < 2 ^ 31) (hr : br < 2 ^ 31) : Size64.Algorithms.matrix_multiply N A B bi br =
      Algorithms.matrix_multiply N A B bi br :=
  Size64.Algorithms.matrix_multiply_eq hN hr hi A B

/-- **C103.** "semi" -/
theorem C103_semi (N : Nat) (A B : Array α) (bi : Nat) (hN : N < 2 ^ 31)
    (hi : bi < 2 ^ 31) : Size64.Semi.matrix_multiply N A B bi = Semi.matrix_multiply N A B bi :=
  Size64.Semi.matrix_multiply_eq hN hi A B

/-- **C103.** "combined" -/
theorem C103_combined (N : Nat) (A B : Array α) (reps : Nat) (hN : N < 2 ^ 31) :
    Size64.Combined.matrix_multiply Combined.blocking N A B reps =
      Combined.matrix_multiply Combined.blocking N A B reps :=
  Size64.Combined.matrix_multiply_eq Size64.Tiled.small_combined hN A B reps

/-- **C103.** "kernel_tiled" -/
theorem C103_kernel_tiled (N : Nat) (A B : Array α) (transposed : Bool) (reps : Nat) (hN : N < 2 ^ 31) :
    Size64.KernelTiled.matrix_multiply KernelTiled.blocking N A B transposed reps =
      KernelTiled.matrix_multiply KernelTiled.blocking N A B transposed reps :=
  Size64.KernelTiled.matrix_multiply_eq Size64.Tiled.small_tiled hN A B transposed reps

/-- **C103.** "kernel_test" -/
theorem C103_kernel_test (N : Nat) (A B : Array α) (transposed : Bool) (reps : Nat) (hN : N < 2 ^ 31) :
    Size64.KernelTest.matrix_multiply N A B transposed reps =
      KernelTest.matrix_multiply N A B transposed reps :=
  Size64.KernelTest.matrix_multiply_eq hN A B transposed reps

/-- **C103.** "looped", if additionally neither the number of blocks nor the number of steps within a
block reaches 2^64 -/
theorem C103_looped (N : Nat) (A B : Array α) (br bi : Nat) (hN : N < 2 ^ 31) (hr : br < 2 ^ 31)
    (hi : bi < 2 ^ 31) (h1 : (N / br) ^ 2 * (N / bi) < 2 ^ 64) (h2 : br ^ 2 * bi < 2 ^ 64) :
    Size64.Looped.matrix_multiply N A B br bi = Looped.matrix_multiply N A B br bi :=
  Size64.Looped.matrix_multiply_eq A B hN hr hi (by rwa [← Nat.pow_two]) (by rwa [← Nat.pow_two])

/-! ### so the results are products -/

/-- **C103.** "single" for powers of two -/
theorem C103_single_exact {R : Type} [Semiring R] (e : Nat) (A B : Array R) (a b : Nat → Nat → R)
    (transposed : Bool) (br bi reps : Nat) (hA : Holds A (2 ^ e) (2 ^ e) a)
    (hB : Holds B (2 ^ e) (2 ^ e) b) (hbr : 1 ≤ br) (hdiv : bi = 0 ∨ bi ∣ 2 ^ e) (hr : 0 < reps)
    (he : e < 31) :
    @Size64.Recursive.single_matrix_multiply R (exact R) (2 ^ e) A B transposed br bi reps =
      ND.pure (rowMajor (2 ^ e) fun i j =>
        ∑ k ∈ Finset.range (2 ^ e), a i k * (if transposed then b j k else b k j)) := by
  have hN : 2 ^ e < 2 ^ 31 := Nat.pow_lt_pow_right (by decide) he
  have hi : bi < 2 ^ 31 := by
    rcases hdiv with rfl | h
    · decide
    · exact Nat.lt_of_le_of_lt (Nat.le_of_dvd (Nat.two_pow_pos e) h) hN
  exact (@C103_single R (exact R) _ A B transposed br bi reps hN hi).trans
    (C10_single_pow2_exact e A B a b transposed br bi reps hA hB hbr hdiv hr)

/-- **C103.** "pseudodynamic" for powers of two -/
theorem C103_pseudodynamic_exact {R : Type} [Semiring R] (p : StaticImproved.Params) (e : Nat)
    (A B : Array R) (a b : Nat → Nat → R) (transposed : Bool) (br bi reps L : Nat)
    (hA : Holds A (2 ^ e) (2 ^ e) a) (hB : Holds B (2 ^ e) (2 ^ e) b) (hq : 1 ≤ p.min_work_size)
    (hbr : 1 ≤ br) (hL : 0 < L) (hr : 0 < reps) (hdiv : bi = 0 ∨ bi ∣ 2 ^ e) (he : e < 31) :
    @Size64.StaticImproved.matrix_multiply R (exact R) p (2 ^ e) A B transposed bi br reps L =
      ND.pure (rowMajor (2 ^ e) fun i j =>
        ∑ k ∈ Finset.range (2 ^ e), a i k * (if transposed then b j k else b k j)) := by
  have hN : 2 ^ e < 2 ^ 31 := Nat.pow_lt_pow_right (by decide) he
  have hi : bi < 2 ^ 31 := by
    rcases hdiv with rfl | h
    · decide
    · exact Nat.lt_of_le_of_lt (Nat.le_of_dvd (Nat.two_pow_pos e) h) hN
  exact (@C103_pseudodynamic R (exact R) p _ A B transposed br bi reps L hN hi).trans
    (C22_pseudodynamic_pow2 p e A B a b transposed br bi reps L hA hB hq hbr hL hr hdiv)

/-- **C103.** "algorithms" -/
theorem C103_algorithms_exact {R : Type} [Semiring R] (N : Nat) (A Bt : Array R)
    (a b : Nat → Nat → R) (hA : Holds A N N a) (hB : Holds Bt N N b) (bi br : Nat) (hbi : 0 < bi)
    (hbr : 0 < br) (hdi : bi ∣ N) (hdr : br ∣ N) (hN0 : 0 < N) (hN : N < 2 ^ 31) :
    @Size64.Algorithms.matrix_multiply R (exact R) N A Bt bi br =
      ND.pure (rowMajor N fun i j => ∑ k ∈ Finset.range N, a i k * b j k) :=
  (@C103_algorithms R (exact R) N A Bt bi br hN
    (Nat.lt_of_le_of_lt (Nat.le_of_dvd hN0 hdi) hN) (Nat.lt_of_le_of_lt (Nat.le_of_dvd hN0 hdr) hN)).trans
    (C24_algorithms_exact N A Bt a b hA hB bi br hbi hbr hdi hdr)

/-- **C103.** "semi" -/
theorem C103_semi_exact {R : Type} [Semiring R] (N : Nat) (A Bt : Array R) (a b : Nat → Nat → R)
    (hA : Holds A N N a) (hB : Holds Bt N N b) (bi : Nat) (h4 : 4 ∣ N) (hbi : 0 < bi) (hd : bi ∣ N)
    (hN0 : 0 < N) (hN : N < 2 ^ 31) :
    @Size64.Semi.matrix_multiply R (exact R) N A Bt bi =
      ND.pure (rowMajor N fun i j => ∑ k ∈ Finset.range N, a i k * b j k) :=
  (@C103_semi R (exact R) N A Bt bi hN (Nat.lt_of_le_of_lt (Nat.le_of_dvd hN0 hd) hN)).trans
    (C32_semi_exact N A Bt a b hA hB bi h4 hbi hd)

/-- **C103.** "combined" -/
theorem C103_combined_exact {R : Type} [Semiring R] (N : Nat) (A B : Array R) (f g : Nat → Nat → R)
    (hA : Holds A N N f) (hB : Holds B N N g) (hN : N < 2 ^ 31) :
    @Size64.Combined.matrix_multiply R (exact R) Combined.blocking N A B 1 =
      ND.pure (rowMajor N (matProd N f g)) :=
  (@C103_combined R (exact R) N A B 1 hN).trans (C34_combined N A B f g hA hB)

/-- **C103.** "kernel_tiled" -/
theorem C103_kernel_tiled_exact {R : Type} [Semiring R] (N : Nat) (A B : Array R)
    (f g : Nat → Nat → R) (hA : Holds A N N f) (hB : Holds B N N g) (transposed : Bool) (r : Nat)
    (hr : 1 ≤ r) (hN : N < 2 ^ 31) :
    @Size64.KernelTiled.matrix_multiply R (exact R) KernelTiled.blocking N A B transposed r =
      ND.pure (rowMajor N (matProd N f g)) :=
  (@C103_kernel_tiled R (exact R) N A B transposed r hN).trans
    (C37_kernel_tiled_exact N A B f g hA hB transposed r hr)

/-- **C103.** "kernel_test" -/
theorem C103_kernel_test_exact {R : Type} [Semiring R] (N : Nat) (hs : SafeSize N) (A B : Array R)
    (f g : Nat → Nat → R) (hA : Holds A N N f) (hB : Holds B N N g) (transposed : Bool) (r : Nat)
    (hr : 1 ≤ r) (hN : N < 2 ^ 31) :
    @Size64.KernelTest.matrix_multiply R (exact R) N A B transposed r =
      ND.pure (rowMajor N (matProd N f g)) :=
  (@C103_kernel_test R (exact R) N A B transposed r hN).trans
    (C39_kernel_test_exact N hs A B f g hA hB transposed r hr)

/-! ### looped -/

/-- **C103.** If the number of blocks or the number of steps within a block is a multiple of 2^64,
"looped" returns the zero matrix, whatever the input. -/
theorem C103_looped_zero (N : Nat) (A B : Array α) (br bi : Nat) (hN : N < 2 ^ 31) (hbr : 0 < br)
    (hbi : 0 < bi) (hr : br < 2 ^ 31) (hi : bi < 2 ^ 31)
    (h : 2 ^ 64 ∣ (N / br) ^ 2 * (N / bi) ∨ 2 ^ 64 ∣ br ^ 2 * bi) :
    Size64.Looped.matrix_multiply N A B br bi = .ok (rowMajor N fun _ _ => Arith.zero) := by
  rw [Nat.pow_two, Nat.pow_two] at h
  rw [Size64.Looped.matrix_multiply_zero A B hN hbr hbi hr hi h]
  rw [eq_rect (zeros_size _) (zeros_holds N N)]

private theorem pts64_length (N br bi : Nat) : (Size64.Looped.pts64 N br bi).length =
    Size64.u64 (N / br * (N / br) * (N / bi)) * Size64.u64 (br * br * bi) := by
  simp [Size64.Looped.pts64]

/-- **C103.** For sizes below 2^31, "looped" with numbers modulo 2^64 returns the product for all
inputs exactly if both block sizes divide `N` and neither the number of blocks nor the number of steps
within a block reaches 2^64. -/
theorem C103_looped_iff (N br bi : Nat) (hN0 : 0 < N) (hN : N < 2 ^ 31) (hbr : 0 < br) (hbi : 0 < bi)
    (hr : br < 2 ^ 31) (hi : bi < 2 ^ 31) :
    (∀ (A B : Array Nat) (a b : Nat → Nat → Nat), Holds A N N a → Holds B N N b →
      @Size64.Looped.matrix_multiply Nat (exact Nat) N A B br bi =
        .ok (rowMajor N fun i j => ∑ k ∈ Finset.range N, a i k * b j k)) ↔
    br ∣ N ∧ bi ∣ N ∧ (N / br) ^ 2 * (N / bi) < 2 ^ 64 ∧ br ^ 2 * bi < 2 ^ 64 := by
  constructor
  · intro hall
    have h1 := hall _ _ _ _ (holds_rect N N fun _ _ => 1) (holds_rect N N fun _ _ => 1)
    rw [@Size64.Looped.mm_eq Nat (exact Nat) N _ _ br bi hN hbr hbi hr hi] at h1
    rcases ones_foldlM N (Size64.Looped.pts64 N br bi) (@zeros Nat (exact Nat) (N * N)) with h | ⟨C, h2, h3⟩
    · have := h1.symm.trans h
      cases this
    · obtain rfl := Except.ok.inj (h1.symm.trans h2)
      have hz : (@zeros Nat (exact Nat) (N * N)).toList.sum = 0 := by
        simp [zeros]
        exact .inr rfl
      have hs : (rowMajor N fun i j => ∑ k ∈ Finset.range N, 1 * 1 : Array Nat).toList.sum = N * N * N := by
        simp [rect, List.ofFn_const]
      rw [hz, hs, pts64_length, Nat.zero_add] at h3
      have u1 : ∀ x, Size64.u64 x ≤ x := fun x => Nat.mod_le _ _
      have u2 : ∀ x, Size64.u64 x < 2 ^ 64 := fun x => Nat.mod_lt _ (by decide)
      have e1 : N / br * br ≤ N := Nat.div_mul_le_self N br
      have e2 : N / bi * bi ≤ N := Nat.div_mul_le_self N bi
      have hpos : 0 < N * N * N := Nat.mul_pos (Nat.mul_pos hN0 hN0) hN0
      have c12 : N / br * (N / br) * (N / bi) * (br * br * bi) =
          (N / br * br) * (N / br * br) * (N / bi * bi) := by ring
      have f1 := u1 (N / br * (N / br) * (N / bi))
      have f2 := u1 (br * br * bi)
      have hle : N * N * N ≤ (N / br * br) * (N / br * br) * (N / bi * bi) := by
        rw [← c12, h3]
        exact Nat.mul_le_mul f1 f2
      have d1 : N / br * br = N := by
        refine Nat.le_antisymm e1 (Nat.le_of_not_lt fun hl => ?_)
        have s1 : (N / br * br) * (N / br * br) < N * N :=
          Nat.lt_of_le_of_lt (Nat.mul_le_mul_left _ e1) (Nat.mul_lt_mul_of_pos_right hl hN0)
        exact absurd hle (Nat.not_le_of_lt (Nat.lt_of_le_of_lt (Nat.mul_le_mul_left _ e2)
          (Nat.mul_lt_mul_of_pos_right s1 hN0)))
      have d2 : N / bi * bi = N := by
        refine Nat.le_antisymm e2 (Nat.le_of_not_lt fun hl => ?_)
        exact absurd hle (Nat.not_le_of_lt (Nat.lt_of_le_of_lt
          (Nat.mul_le_mul_right _ (Nat.mul_le_mul e1 e1))
          (Nat.mul_lt_mul_of_pos_left hl (Nat.mul_pos hN0 hN0))))
      rw [d1, d2] at c12
      have p2 : 0 < br * br * bi := Nat.mul_pos (Nat.mul_pos hbr hbr) hbi
      have p1 : 0 < N / br * (N / br) * (N / bi) := Nat.pos_of_mul_pos_right (c12 ▸ hpos)
      have w1 : Size64.u64 (N / br * (N / br) * (N / bi)) = N / br * (N / br) * (N / bi) := by
        refine Nat.le_antisymm f1 (Nat.le_of_not_lt fun hl => ?_)
        have := Nat.lt_of_le_of_lt (Nat.mul_le_mul_left _ f2) (Nat.mul_lt_mul_of_pos_right hl p2)
        omega
      have w2 : Size64.u64 (br * br * bi) = br * br * bi := by
        refine Nat.le_antisymm f2 (Nat.le_of_not_lt fun hl => ?_)
        have := Nat.lt_of_le_of_lt (Nat.mul_le_mul_right _ f1) (Nat.mul_lt_mul_of_pos_left hl p1)
        omega
      rw [Nat.pow_two, Nat.pow_two]
      exact ⟨⟨N / br, by rw [Nat.mul_comm]; exact d1.symm⟩, ⟨N / bi, by rw [Nat.mul_comm]; exact d2.symm⟩,
        w1 ▸ u2 _, w2 ▸ u2 _⟩
  · rintro ⟨hdr, hdi, h1, h2⟩ A B a b hA hB
    exact (@C103_looped Nat (exact Nat) N A B br bi hN hr hi h1 h2).trans
      (C26_looped_exact N A B a b hA hB br bi hbr hbi hdr hdi)

/-- **C103.** In particular "looped" is right for all dividing blocks if `N³ < 2^64`. -/
theorem C103_looped_exact {R : Type} [Semiring R] (N : Nat) (A Bt : Array R) (a b : Nat → Nat → R)
    (hA : Holds A N N a) (hB : Holds Bt N N b) (br bi : Nat) (hbr : 0 < br) (hbi : 0 < bi)
    (hdr : br ∣ N) (hdi : bi ∣ N) (hN0 : 0 < N) (hN : N ^ 3 < 2 ^ 64) :
    @Size64.Looped.matrix_multiply R (exact R) N A Bt br bi =
      .ok (rowMajor N fun i j => ∑ k ∈ Finset.range N, a i k * b j k) := by
  have hle : ∀ x y, x ≤ N → y ≤ N → x ^ 2 * y < 2 ^ 64 := fun x y hx hy =>
    Nat.lt_of_le_of_lt (Nat.mul_le_mul (Nat.pow_le_pow_left hx 2) hy) hN
  have h31 : N < 2 ^ 31 := by
    rcases Nat.lt_or_ge N (2 ^ 31) with h | h
    · exact h
    · exact absurd (Nat.lt_of_le_of_lt (Nat.pow_le_pow_left h 3) hN) (by decide)
  have h1 := Nat.le_of_dvd hN0 hdr
  have h2 := Nat.le_of_dvd hN0 hdi
  exact (@C103_looped R (exact R) N A Bt br bi h31 (by omega) (by omega)
    (hle _ _ (Nat.div_le_self _ _) (Nat.div_le_self _ _)) (hle _ _ h1 h2)).trans
    (C26_looped_exact N A Bt a b hA hB br bi hbr hbi hdr hdi)

/-! ### the program -/

/-- **C103.** With sizes below 2^31 (and a positive input block where it is a step width, and counts
below 2^64 in "looped"), the program has exactly the outcomes it has with natural numbers. -/
theorem C103_driver (e : Env α) (o : Opts) (h : Size64.NoWrap o) : Size64.main64 e o = Driver.main e o :=
  Size64.main64_eq h e

/-- **C103.** So a checked run with admissible options passes. -/
theorem C103_check_passes (e : Env α) (hx : ExactForIdentity e)
    (hcl : ∀ p, e.close (e.rand p) (e.rand p) = true) (o : Opts) (hh : o.help = false)
    (h : Admissible e o) (hw : Size64.NoWrap o) :
    Size64.main64 e o = ND.pure (passed e o (rowMajor o.N (entryA e o.N))) :=
  (C103_driver e o hw).trans (C84_check_passes e hx hcl o hh h)

/-- **C103.** From 2^32 on the program ends with `std::out_of_range`. -/
theorem C103_driver_large (e : Env α) (o : Opts) (hh : o.help = false) (hN : 2 ^ 32 ≤ o.N) :
    Size64.main64 e o = ND.fail .outOfRange := Size64.main64_fails e o hh hN

/-! Non-vacuity. -/
section Examples
@[reducible] private def ints : Arith Int := exact Int

private def env : Env Int where
  one := 1
  rand k := 7 * k + 3
  close x y := x == y
  absDiff x y := (x - y).natAbs
  root := true
  localities := 3
  relOk _ _ := true
  junk _ := #[]

private theorem env_exact : @ExactForIdentity Int ints env :=
  @ExactForIdentity.mk Int ints env (fun p => by simp [env, Arith.mac, Arith.zero])
    (fun x y _ _ => by simp [Arith.mac, Arith.zero])
    (fun x _ => by simp [Arith.add, Arith.zero]) (fun x _ => by simp [Arith.add, Arith.zero])

section
attribute [local instance] exact

private theorem hA : Holds #[1, 2, 3, 4] 2 2 (fun i j => 2 * i + j + 1) := by
  have := holds_rect 2 2 (fun i j => 2 * i + j + 1); exact this

private theorem hB : Holds #[5, 6, 7, 8] 2 2 (fun i j => 2 * i + j + 5) := by
  have := holds_rect 2 2 (fun i j => 2 * i + j + 5); exact this

example : Size64.Recursive.single_matrix_multiply (2 ^ 1) #[1, 2, 3, 4] #[5, 6, 7, 8] false 1 0 1 =
    ND.pure #[19, 22, 43, 50] := by
  rw [C103_single_exact 1 _ _ _ _ false 1 0 1 hA hB (by decide) (.inl rfl) (by decide) (by decide)]
  rfl

example : Size64.StaticImproved.matrix_multiply ⟨1, 0, fun _ _ => false⟩ (2 ^ 1) #[1, 2, 3, 4]
    #[5, 6, 7, 8] false 0 1 1 3 = ND.pure #[19, 22, 43, 50] := by
  rw [C103_pseudodynamic_exact _ 1 _ _ _ _ false 1 0 1 3 hA hB (by decide) (by decide) (by decide)
    (by decide) (.inl rfl) (by decide)]
  rfl

example : Size64.Algorithms.matrix_multiply 2 #[1, 2, 3, 4] #[5, 6, 7, 8] 1 2 =
    ND.pure #[17, 23, 39, 53] := by
  rw [C103_algorithms_exact 2 _ _ _ _ hA hB 1 2 (by decide) (by decide) (by decide) (by decide)
    (by decide) (by decide)]
  rfl

example : Size64.Combined.matrix_multiply Combined.blocking 2 #[1, 2, 3, 4] #[5, 6, 7, 8] 1 =
    ND.pure #[19, 22, 43, 50] := by
  rw [C103_combined_exact 2 _ _ _ _ hA hB (by decide)]
  rfl

example : Size64.KernelTiled.matrix_multiply KernelTiled.blocking 2 #[1, 2, 3, 4] #[5, 6, 7, 8] false 1 =
    ND.pure #[19, 22, 43, 50] := by
  rw [C103_kernel_tiled_exact 2 _ _ _ _ hA hB false 1 (by decide) (by decide)]
  rfl

example : Size64.Looped.matrix_multiply 2 #[1, 2, 3, 4] #[5, 6, 7, 8] 1 2 = .ok #[17, 23, 39, 53] := by
  rw [C103_looped_exact 2 _ _ _ _ hA hB 1 2 (by decide) (by decide) (by decide) (by decide) (by decide)
    (by decide)]
  rfl

-- larger sizes
example (a b : Nat → Nat → Int) : Size64.Semi.matrix_multiply 1073741824 (rowMajor 1073741824 a)
    (rowMajor 1073741824 b) 128 =
    ND.pure (rowMajor 1073741824 fun i j => ∑ k ∈ Finset.range 1073741824, a i k * b j k) :=
  C103_semi_exact _ _ _ a b (holds_rect _ _ a) (holds_rect _ _ b) 128 (by decide) (by decide) (by decide)
    (by decide) (by decide)

example (a b : Nat → Nat → Int) : Size64.KernelTest.matrix_multiply 512 (rowMajor 512 a)
    (rowMajor 512 b) false 1 = ND.pure (rowMajor 512 (matProd 512 a b)) :=
  C103_kernel_test_exact 512 (by rw [safeSize_iff]; decide) _ _ a b (holds_rect _ _ a) (holds_rect _ _ b) false 1 (by decide)
    (by decide)

end

-- 2^66 blocks, taken modulo 2^64
example (A B : Array Int) : @Size64.Looped.matrix_multiply Int ints 4194304 A B 1 1 =
    .ok (rowMajor 4194304 fun _ _ => 0) :=
  @C103_looped_zero Int ints _ A B 1 1 (by decide) (by decide) (by decide) (by decide) (by decide)
    (.inl (by decide))

-- one block with 2^66 steps
example (A B : Array Int) : @Size64.Looped.matrix_multiply Int ints 4194304 A B 4194304 4194304 =
    .ok (rowMajor 4194304 fun _ _ => 0) :=
  @C103_looped_zero Int ints _ A B _ _ (by decide) (by decide) (by decide) (by decide) (by decide)
    (.inr (by decide))

-- the default block sizes
example (A B : Array Int) : @Size64.Looped.matrix_multiply Int ints 8388608 A B 128 128 =
    @Looped.matrix_multiply Int ints 8388608 A B 128 128 :=
  @C103_looped Int ints _ A B 128 128 (by decide) (by decide) (by decide) (by decide) (by decide)

-- block_input = 0
example (a b : Nat → Nat → Int) (o : Except Err (Array Int)) :
    @Size64.Semi.matrix_multiply Int ints 1024 (rowMajor 1024 a) (rowMajor 1024 b) 0 o ↔
      o = .error .diverge := by
  rw [@C103_semi Int ints 1024 _ _ 0 (by decide) (by decide)]
  exact @C33_zero_block Int ints 1024 _ _ a b (holds_rect _ _ a) (holds_rect _ _ b) (by decide) o

private theorem noWrap (o : Opts) (h1 : o.N < 2 ^ 21) (h2 : 0 < o.block_result)
    (h3 : o.block_result < 2 ^ 21) (h5 : o.block_input < 2 ^ 21) :
    Size64.NoWrap o := by
  have hle : ∀ x y, x ≤ 2 ^ 21 → y ≤ 2 ^ 21 → x * x * y < 2 ^ 64 := fun x y hx hy =>
    Nat.lt_of_le_of_lt (Nat.mul_le_mul (Nat.mul_le_mul hx hx) hy) (by decide)
  have h6 := Nat.div_le_self o.N o.block_result
  have h7 := Nat.div_le_self o.N o.block_input
  exact ⟨by omega, by omega, by omega, fun _ => hle _ _ (by omega) (by omega),
    fun _ => hle _ _ (by omega) (by omega)⟩

example : let _ := ints
    Size64.main64 env { N := 1024, check := true, algorithm := "pseudodynamic" } =
      ND.pure (passed env { N := 1024, check := true, algorithm := "pseudodynamic" }
        (rowMajor 1024 (entryA env 1024))) :=
  @C103_check_passes Int ints env env_exact (fun p => by simp [env]) _ rfl
    (.pseudodynamic rfl ⟨10, rfl⟩ (by decide) (.inr ⟨8, rfl⟩) (by decide) (by decide) (by decide))
    (noWrap _ (by decide) (by decide) (by decide) (by decide))

example : let _ := ints
    Size64.main64 env { N := 384, check := true, algorithm := "looped" } =
      ND.pure (passed env { N := 384, check := true, algorithm := "looped" }
        (rowMajor 384 (entryA env 384))) :=
  @C103_check_passes Int ints env env_exact (fun p => by simp [env]) _ rfl
    (.looped rfl rfl (by decide) (by decide) ⟨3, rfl⟩ ⟨3, rfl⟩)
    (noWrap _ (by decide) (by decide) (by decide) (by decide))

example : let _ := ints
    Size64.main64 env { N := 4294967297, algorithm := "kernel_tiled" } = ND.fail .outOfRange :=
  @C103_driver_large Int ints env _ rfl (by decide)

end Examples
end Verif.Props
