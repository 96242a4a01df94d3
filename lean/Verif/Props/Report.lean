import Verif.Proof.Report
import Verif.Proof.Ops
import Verif.Props.Naive
import Verif.Props.Kernel
import Verif.Props.Schedule
import Verif.Props.Algorithms
import Verif.Props.Looped
import Verif.Props.Semi
import Verif.Props.Combined
import Verif.Props.KernelTiled
import Verif.Props.KernelTest
import Verif.Props.Experiments
import Verif.Props.ExperimentsBlocked
import Verif.Props.Driver
/-
C101: the numbers of operations and the performance that the programs report.
-/
namespace Verif.Props
open IEEE Report Kernel Recursive StaticImproved Tiled Experiments

/-! ### the reported number -/

/-- **C101.** The reported number of operations is exactly `2 N^3` for `N` up to 208064. -/
theorem C101_flops (N : Nat) (h : N ≤ 208064) :
    (flops N N N).finite ∧ (flops N N N).value = (2 * N * N * N : Nat) := by
  have h2 : N * N ≤ 208064 * 208064 := Nat.mul_le_mul h h
  refine flops_value (by omega) (by omega) (by omega) (by omega) ?_
  rcases Nat.lt_or_ge N 208064 with h' | h'
  · have h3 : N * N * N ≤ 208063 * 208063 * 208063 :=
      Nat.mul_le_mul (Nat.mul_le_mul (by omega) (by omega)) (by omega)
    have := isDouble_even (n := N * N * N) (by omega)
    rwa [← Nat.mul_assoc, ← Nat.mul_assoc] at this
  · have e : N = 208064 := by omega
    have := Double.isDouble_int (n := 3251 ^ 3) (s := 19) (by norm_num) (by norm_num) (by norm_num)
    rw [e]
    norm_num at this ⊢
    exact this

/-- **C101.** … and wrong for the next number. -/
theorem C101_flops_sharp :
    (flops 208065 208065 208065).value ≠ (2 * 208065 * 208065 * 208065 : Nat) := by
  have h1 := mul_exact (twice_value (n := 208065) (by norm_num)) (ofNat_value (n := 208065) (by norm_num))
    (by
      have := isDouble_even (n := 208065 * 208065) (by norm_num)
      rwa [← Nat.mul_assoc] at this)
  have h2 := ofNat_value (n := 208065) (by norm_num)
  have h3 : |((2 * 208065 * 208065 : Nat) : ℚ) * (208065 : Nat)| ≤ maxDouble := by
    refine le_trans ?_ (le_maxDouble (isDouble_two_zpow (e := 60) (by norm_num) (by norm_num)))
    norm_num
  obtain ⟨_, h4⟩ := Double.mul_value h1.1 h2.1 (by rw [h1.2, h2.2]; exact h3)
  rw [h1.2, h2.2] at h4
  unfold flops
  rw [h4]
  norm_num
  decide +kernel

/-- **C101.** For all sizes up to 2^53, also those of the padded matrices, the reported number of
operations differs from `2 X Y K` by at most two relative errors of `2^-53`. -/
theorem C101_flops_error (X Y K : Nat) (hX : X ≤ 2 ^ 53) (hY : Y ≤ 2 ^ 53) (hK : K ≤ 2 ^ 53)
    (hX0 : 0 < X) (hY0 : 0 < Y) (hK0 : 0 < K) :
    (flops X Y K).finite ∧
      (1 - 2 ^ (-53 : ℤ)) ^ 2 * (2 * X * Y * K : Nat) ≤ (flops X Y K).value ∧
      (flops X Y K).value ≤ (1 + 2 ^ (-53 : ℤ)) ^ 2 * (2 * X * Y * K : Nat) :=
  have h := flops_near hX hY hK hX0 hY0 hK0
  ⟨h.finite, h.lower, h.upper⟩

/-- **C101.** The reported performance differs from the operations of all repetitions (in units of
10^9) divided by the duration by at most five relative errors of `2^-53`. -/
theorem C101_performance (r X Y K : Nat) (hr : r ≤ 2 ^ 53) (hX : X ≤ 2 ^ 53) (hY : Y ≤ 2 ^ 53)
    (hK : K ≤ 2 ^ 53) (hr0 : 0 < r) (hX0 : 0 < X) (hY0 : 0 < Y) (hK0 : 0 < K) (t : Double) (ht : t.finite)
    (h1 : 2 ^ (-100 : ℤ) ≤ t.value) (h2 : t.value ≤ 2 ^ (100 : ℤ)) :
    (performance r X Y K t).finite ∧
      (1 - 2 ^ (-53 : ℤ)) ^ 5 * ((r * (2 * X * Y * K) : Nat) / 10 ^ 9 / t.value) ≤
        (performance r X Y K t).value ∧
      (performance r X Y K t).value ≤
        (1 + 2 ^ (-53 : ℤ)) ^ 5 * ((r * (2 * X * Y * K) : Nat) / 10 ^ 9 / t.value) := by
  have t0 : 0 < t.value := (two_zpow_pos _).trans_le h1
  have n1 := flops_near hX hY hK hX0 hY0 hK0
  have p0 : 0 < 2 * X * Y * K := Nat.mul_pos (Nat.mul_pos (by omega) hY0) hK0
  have b1 : 2 * X * Y ≤ 2 ^ 54 * 2 ^ 53 := Nat.mul_le_mul (by omega) hY
  have b2 : 2 * X * Y * K ≤ 2 ^ 54 * 2 ^ 53 * 2 ^ 53 := Nat.mul_le_mul b1 hK
  generalize 2 * X * Y * K = F at *
  have b3 : r * F ≤ 2 ^ 53 * (2 ^ 54 * 2 ^ 53 * 2 ^ 53) := Nat.mul_le_mul hr b2
  have q0 : 0 < r * F := Nat.mul_pos hr0 p0
  have hl := lit_value (n := 1000000000) (by norm_num)
  have hn := ofNat_value hr
  -- the bounds that exclude overflow and underflow
  have key : ∀ m : Nat, 0 < m → m ≤ 2 ^ 53 * (2 ^ 54 * 2 ^ 53 * 2 ^ 53) →
      (2 : ℚ) ^ (-30 : ℤ) ≤ (m : ℚ) / 10 ^ 9 ∧ (m : ℚ) / 10 ^ 9 ≤ 2 ^ (213 : ℤ) := by
    intro m hm0 hm
    have c1 : (1 : ℚ) ≤ m := by exact_mod_cast hm0
    have c2 : (m : ℚ) ≤ 2 ^ 213 := by exact_mod_cast hm.trans (by norm_num)
    have e1 : (2 : ℚ) ^ (-30 : ℤ) = 1 / 2 ^ 30 := by norm_num
    have e2 : (2 : ℚ) ^ (213 : ℤ) = 2 ^ 213 := by norm_cast
    rw [e1, e2]
    constructor
    · rw [le_div_iff₀ (by norm_num)]
      refine le_trans ?_ c1
      norm_num
    · exact (div_le_self (by linarith) (by norm_num)).trans c2
  have lo : (2 : ℚ) ^ (-1000 : ℤ) ≤ 2 ^ (-30 : ℤ) := two_zpow_le (by norm_num)
  have hi : (2 : ℚ) ^ (213 : ℤ) ≤ 2 ^ (1000 : ℤ) := two_zpow_le (by norm_num)
  obtain ⟨k1, k2⟩ := key F p0 (b2.trans (by norm_num))
  obtain ⟨k3, k4⟩ := key (r * F) q0 b3
  have e9 : ((1000000000 : Nat) : ℚ) = 10 ^ 9 := by norm_num
  have n2 := n1.div (by norm_num) (by exact_mod_cast p0) hl.1 (by rw [hl.2]; norm_num)
    (by rw [hl.2, e9]; exact lo.trans k1) (by rw [hl.2, e9]; exact k2.trans hi)
  rw [hl.2, e9] at n2
  have e10 : (F : ℚ) / 10 ^ 9 * r = (r * F : Nat) / 10 ^ 9 := by push_cast; ring
  have n3 := n2.mul (y := Double.ofNat r) (by norm_num) hn.1 (by rw [hn.2]; exact Nat.cast_nonneg _)
    (by rw [hn.2, e10]; exact lo.trans k3) (by rw [hn.2, e10]; exact k4.trans hi)
  rw [hn.2, e10, Report.mul_comm] at n3
  have n4 := n3.div (by norm_num) ((two_zpow_pos _).trans_le k3) ht t0
    (by
      rw [le_div_iff₀ t0]
      refine le_trans ?_ k3
      refine (mul_le_mul_of_nonneg_left h2 (two_zpow_pos _).le).trans ?_
      rw [← two_zpow_add]
      exact two_zpow_le (by norm_num))
    (by
      rw [div_le_iff₀ t0]
      refine k4.trans ?_
      refine le_trans ?_ (mul_le_mul_of_nonneg_left h1 (two_zpow_pos _).le)
      rw [← two_zpow_add]
      exact two_zpow_le (by norm_num))
  exact ⟨n4.finite, n4.lower, n4.upper⟩

/-- **C101.** The benchmark program divides by the number of full milliseconds: five relative errors. -/
theorem C101_benchmark (n ms : Nat) (hn : n ≤ 2 ^ 53) (hn0 : 0 < n) (hms : ms ≤ 2 ^ 53) (hms0 : 0 < ms) :
    (benchmark n ms).finite ∧
      (1 - 2 ^ (-53 : ℤ)) ^ 4 / (1 + 2 ^ (-53 : ℤ)) * ((2 * n * n * n : Nat) / 10 ^ 9 / (ms / 1000)) ≤
        (benchmark n ms).value ∧
      (benchmark n ms).value ≤
        (1 + 2 ^ (-53 : ℤ)) ^ 4 / (1 - 2 ^ (-53 : ℤ)) * ((2 * n * n * n : Nat) / 10 ^ 9 / (ms / 1000)) := by
  have hl := lit_value (n := 1000000000) (by norm_num)
  have hk := lit_value (n := 1000) (by norm_num)
  have hm := ofNat_value hms
  have e9 : ((1000000000 : Nat) : ℚ) = 10 ^ 9 := by norm_num
  have e3 : ((1000 : Nat) : ℚ) = 1000 := by norm_num
  have n1 := flops_near hn hn hn hn0 hn0 hn0
  have p0 : 0 < 2 * n * n * n := Nat.mul_pos (Nat.mul_pos (by omega) hn0) hn0
  have b2 : 2 * n * n * n ≤ 2 ^ 54 * 2 ^ 53 * 2 ^ 53 :=
    Nat.mul_le_mul (Nat.mul_le_mul (by omega) hn) hn
  unfold benchmark gflop
  generalize 2 * n * n * n = F at *
  have c1 : (1 : ℚ) ≤ F := by exact_mod_cast p0
  have c2 : (F : ℚ) ≤ 2 ^ 160 := by exact_mod_cast b2.trans (by norm_num)
  have d1 : (1 : ℚ) ≤ ms := by exact_mod_cast hms0
  have d2 : (ms : ℚ) ≤ 2 ^ 53 := by exact_mod_cast hms
  have e1 : (2 : ℚ) ^ (-30 : ℤ) = 1 / 2 ^ 30 := by norm_num
  have e2 : (2 : ℚ) ^ (160 : ℤ) = 2 ^ 160 := by norm_cast
  have k1 : (2 : ℚ) ^ (-30 : ℤ) ≤ F / 10 ^ 9 := by
    rw [e1, le_div_iff₀ (by norm_num)]
    exact le_trans (by norm_num) c1
  have k2 : (F : ℚ) / 10 ^ 9 ≤ 2 ^ (160 : ℤ) := by
    rw [e2]; exact (div_le_self (by linarith) (by norm_num)).trans c2
  have k3 : (2 : ℚ) ^ (-30 : ℤ) ≤ ms / 1000 := by
    rw [e1, le_div_iff₀ (by norm_num)]
    exact le_trans (by norm_num) d1
  have k4 : (ms : ℚ) / 1000 ≤ 2 ^ (160 : ℤ) := by
    rw [e2]; exact (div_le_self (by linarith) (by norm_num)).trans (d2.trans (by norm_num))
  have lo : (2 : ℚ) ^ (-1000 : ℤ) ≤ 2 ^ (-30 : ℤ) := two_zpow_le (by norm_num)
  have hi : (2 : ℚ) ^ (160 : ℤ) ≤ 2 ^ (1000 : ℤ) := two_zpow_le (by norm_num)
  have n2 := n1.div (by norm_num) (by exact_mod_cast p0) hl.1 (by rw [hl.2]; norm_num)
    (by rw [hl.2, e9]; exact lo.trans k1) (by rw [hl.2, e9]; exact k2.trans hi)
  rw [hl.2, e9] at n2
  have s0 := near_exact hm.1
  rw [hm.2] at s0
  have s1 := s0.div (by norm_num) (by linarith) hk.1 (by rw [hk.2]; norm_num)
    (by rw [hk.2, e3]; exact lo.trans k3) (by rw [hk.2, e3]; exact k4.trans hi)
  rw [hk.2, e3] at s1
  change Near 1 (seconds ms) _ at s1
  have q0 : (0 : ℚ) < F / 10 ^ 9 := (two_zpow_pos _).trans_le k1
  have t0 : (0 : ℚ) < ms / 1000 := (two_zpow_pos _).trans_le k3
  replace s0 := s1.pos (by norm_num) t0
  have hl1 := low_half (k := 1) (by norm_num)
  have hu1 := up_two (k := 1) (by norm_num)
  have sl := s1.lower
  have su := s1.upper
  have hu0 := u_pos
  rw [pow_one] at sl su hl1 hu1
  have y1 : (2 : ℚ) ^ (-31 : ℤ) ≤ (seconds ms).value := by
    have e : (2 : ℚ) ^ (-30 : ℤ) = 2 ^ (-31 : ℤ) * 2 := by norm_num
    have := mul_le_mul_of_nonneg_right hl1 t0.le
    refine le_trans ?_ (this.trans sl)
    rw [e] at k3
    generalize (2 : ℚ) ^ (-31 : ℤ) = z at k3
    linarith
  have y2 : (seconds ms).value ≤ 2 ^ (161 : ℤ) := by
    have e : (2 : ℚ) ^ (161 : ℤ) = 2 ^ (160 : ℤ) * 2 := by norm_num
    have := mul_le_mul_of_nonneg_right hu1 t0.le
    refine (su.trans this).trans ?_
    rw [e]
    generalize (2 : ℚ) ^ (160 : ℤ) = z at k4
    linarith
  have n4 := n2.div (by norm_num) q0 s1.finite s0
    (by
      rw [le_div_iff₀ s0]
      refine le_trans ?_ k1
      refine (mul_le_mul_of_nonneg_left y2 (two_zpow_pos _).le).trans ?_
      rw [← two_zpow_add]
      exact two_zpow_le (by norm_num))
    (by
      rw [div_le_iff₀ s0]
      refine k2.trans ?_
      refine le_trans ?_ (mul_le_mul_of_nonneg_left y1 (two_zpow_pos _).le)
      rw [← two_zpow_add]
      exact two_zpow_le (by norm_num))
  have hlow0 : (0 : ℚ) < 1 - 2 ^ (-53 : ℤ) := lt_of_lt_of_le (by norm_num) hl1
  refine ⟨n4.finite, le_trans ?_ n4.lower, n4.upper.trans ?_⟩
  · rw [div_mul_eq_mul_div, mul_div_assoc, div_div]
    refine mul_le_mul_of_nonneg_left ?_ (pow_nonneg hlow0.le _)
    refine div_le_div_of_nonneg_left q0.le s0 ?_
    rwa [_root_.mul_comm]
  · rw [div_mul_eq_mul_div, mul_div_assoc, div_div _ _ (1 - _)]
    refine mul_le_mul_of_nonneg_left ?_ (pow_nonneg (by linarith) _)
    refine div_le_div_of_nonneg_left q0.le (mul_pos t0 hlow0) ?_
    rwa [_root_.mul_comm]

/-- **C101.** The benchmark program counts full milliseconds: below one millisecond it reports an
infinite performance. -/
theorem C101_benchmark_zero (n : Nat) (h0 : 0 < n) (h : n ≤ 208064) : (benchmark n 0).1 = .inf false := by
  obtain ⟨h1, h2⟩ := C101_flops n h
  have hl := lit_value (n := 1000000000) (by norm_num)
  have p : 0 < n * n * n := Nat.mul_pos (Nat.mul_pos h0 h0) h0
  have hF := flops_near (X := n) (Y := n) (K := n) (by omega) (by omega) (by omega) h0 h0 h0
  have hp : 0 < 2 * n * n * n := Nat.mul_pos (Nat.mul_pos (by omega) h0) h0
  have b : 2 * n * n * n ≤ 2 * 208064 * 208064 * 208064 :=
    Nat.mul_le_mul (Nat.mul_le_mul (by omega) h) h
  have hq1 : (1 : ℚ) ≤ (2 * n * n * n : Nat) := by exact_mod_cast hp
  have hq2 : ((2 * n * n * n : Nat) : ℚ) ≤ 2 ^ 60 := by exact_mod_cast b.trans (by norm_num)
  have lo : (2 : ℚ) ^ (-1000 : ℤ) ≤ 2 ^ (-30 : ℤ) := two_zpow_le (by norm_num)
  have hi : (2 : ℚ) ^ (60 : ℤ) ≤ 2 ^ (1000 : ℤ) := two_zpow_le (by norm_num)
  have e1 : (2 : ℚ) ^ (-30 : ℤ) = 1 / 2 ^ 30 := by norm_num
  have e2 : (2 : ℚ) ^ (60 : ℤ) = 2 ^ 60 := by norm_cast
  have hg := hF.div (by norm_num) (by exact_mod_cast hp) hl.1 (by rw [hl.2]; norm_num)
    (by
      refine lo.trans ?_
      rw [hl.2, e1, le_div_iff₀ (by norm_num)]
      refine le_trans ?_ hq1
      norm_num)
    (by
      refine le_trans ?_ hi
      rw [hl.2, e2]
      exact (div_le_self (by linarith) (by norm_num)).trans hq2)
  have hpos := hg.pos (by norm_num) (by rw [hl.2]; exact div_pos (by linarith) (by norm_num))
  have hs : (seconds 0).1 = .zero false := by
    unfold seconds
    rw [Double.ofNat_zero]
    have hv := lit_value (n := 1000) (by norm_num)
    have : (Double.lit 1000 0).1 = .num 1000 := by
      have h3 := hv.1
      have h4 := hv.2
      unfold Double.finite at h3
      unfold Double.value at h4
      norm_num at h3 h4
      cases hz : (Double.lit 1000 0).1 <;> simp_all
    show Ext.round (Ext.div (.zero false) (Double.lit 1000 0).1) = _
    rw [this]
    rfl
  show Ext.round (Ext.div (gflop n n n).1 (seconds 0).1) = _
  rw [hs]
  have hf := hg.finite
  change 0 < (gflop n n n).value at hpos
  change (gflop n n n).finite at hf
  unfold Double.finite at hf
  unfold Double.value at hpos
  cases hz : (gflop n n n).1 with
  | num q =>
    rw [hz] at hpos
    show Ext.inf (decide (q < 0) != false) = _
    rw [decide_eq_false (show ¬ q < 0 from hpos.not_gt)]
    rfl
  | zero s => rw [hz] at hpos; exact absurd hpos (lt_irrefl _)
  | inf s => rw [hz] at hpos; exact absurd hpos (lt_irrefl _)
  | nan => rw [hz] at hpos; exact absurd hpos (lt_irrefl _)

/-! ### the operations that the results are made of -/

private theorem performs {P : ND (Array Expr)} {N : Nat} {G : Nat → Nat → Expr} {c n : Nat}
    (h : P = ND.pure (rowMajor N G)) (hG : ∀ i, i < N → ∀ j, j < N → (G i j).ops = c) (hn : N * N * c = n) :
    Performs P n := ⟨_, h, (totalOps_const hG).trans hn⟩

private theorem none {ι : Type} (_ : ι) : Expr.input.ops = 0 := rfl

private theorem cube (N : Nat) : N * N * (2 * N) = 2 * N * N * N := by ring

private theorem cube_blocks {N bs : Nat} (hd : bs ∣ N) :
    N * N * (N / bs * (2 * bs + 1)) = 2 * N * N * N + N * N * (N / bs) := by
  have : N / bs * bs = N := Nat.div_mul_cancel hd
  calc N * N * (N / bs * (2 * bs + 1)) = 2 * N * N * (N / bs * bs) + N * N * (N / bs) := by ring
    _ = _ := by rw [this]

/-- **C101.** The reference multiplications: the entries of the result are computed with exactly `2 N^3`
operations. -/
theorem C101_naive (N : Nat) :
    Performs (Naive.naive_matrix_multiply N (inputs N) (inputs N)) (2 * N * N * N) ∧
    Performs (Naive.naive_matrix_multiply_transposed N (inputs N) (inputs N)) (2 * N * N * N) :=
  ⟨performs (C01_naive N _ _ _ _ (holds_inputs N) (holds_inputs N))
    (fun _ _ _ _ => ops_dot N none none) (cube N),
   performs (C02_naive_transposed N _ _ _ _ (holds_inputs N) (holds_inputs N))
    (fun _ _ _ _ => ops_dot N none none) (cube N)⟩

/-- **C101.** `looped`: exactly `2 N^3`. -/
theorem C101_looped (N br bi : Nat) (hbr : 0 < br) (hbi : 0 < bi) (hdr : br ∣ N) (hdi : bi ∣ N) :
    Performs (ND.ofM (Looped.matrix_multiply N (inputs N) (inputs N) br bi)) (2 * N * N * N) :=
  performs (congrArg ND.ofM (C26_looped N _ _ _ _ (holds_inputs N) (holds_inputs N) br bi hbr hbi hdr hdi).1)
    (fun _ _ _ _ => ops_dot N none none) (cube N)

/-- **C101.** `algorithms`: one more addition per block of `block_input` products. -/
theorem C101_algorithms (N bi br : Nat) (hbi : 0 < bi) (hbr : 0 < br) (hdi : bi ∣ N) (hdr : br ∣ N) :
    Performs (Algorithms.matrix_multiply N (inputs N) (inputs N) bi br)
      (2 * N * N * N + N * N * (N / bi)) :=
  performs (C24_algorithms N _ _ _ _ (holds_inputs N) (holds_inputs N) bi br hbi hbr hdi hdr)
    (fun _ _ _ _ => ops_bdot bi _ none none) (cube_blocks hdi)

/-- **C101.** `semi`: likewise. -/
theorem C101_semi (N bi : Nat) (h4 : 4 ∣ N) (hbi : 0 < bi) (hd : bi ∣ N) :
    Performs (Semi.matrix_multiply N (inputs N) (inputs N) bi) (2 * N * N * N + N * N * (N / bi)) :=
  performs (C32_semi N _ _ _ _ (holds_inputs N) (holds_inputs N) bi h4 hbi hd)
    (fun _ _ _ _ => ops_bdot bi _ none none) (cube_blocks hd)

private theorem ops_submatrixEntry (N : Nat) (transposed : Bool) (bi s i j : Nat) :
    (submatrixEntry N (fun _ _ => Expr.input) (fun _ _ => Expr.input) transposed bi s i j).ops =
      if transposed = false ∨ bi = 0 ∨ s < 4 then 2 * N else N / bi * (2 * bi + 1) := by
  unfold submatrixEntry
  split
  · rename_i h
    rw [if_pos (.inl h), ops_dot N none none]
  · rename_i h
    split
    · rename_i h'
      rw [if_pos (.inr h'), ops_dot N none none]
    · rename_i h'
      rw [if_neg (fun h2 => h2.elim h h'), ops_bdot bi _ none none]

/-- **C101.** `single`, per repetition: exactly `2 N^3` if the input is not blocked; otherwise one more
addition per block. -/
theorem C101_single (N e s : Nat) (transposed : Bool) (br bi reps : Nat) (hN : N = 2 ^ e * s)
    (hs : s ≤ br) (he : ∀ d, d < e → br < 2 ^ (d + 1) * s)
    (hdiv : transposed = true → bi ≠ 0 → 4 ≤ s → 4 ∣ s ∧ bi ∣ N) (hr : 0 < reps) :
    Performs (single_matrix_multiply N (inputs N) (inputs N) transposed br bi reps)
      (2 * N * N * N + if transposed = false ∨ bi = 0 ∨ s < 4 then 0 else N * N * (N / bi)) := by
  refine performs (C10_single N e s _ _ _ _ transposed br bi reps (holds_inputs N) (holds_inputs N) hN hs
    he hdiv hr) (fun _ _ _ _ => ops_submatrixEntry N transposed bi s _ _) ?_
  split
  · exact cube N
  · rename_i h
    refine cube_blocks (hdiv ?_ (fun h0 => h (.inr (.inl h0))) ?_).2
    · cases transposed
      · exact absurd (.inl rfl) h
      · rfl
    · by_contra h4
      exact h (.inr (.inr (by omega)))

/-- **C101.** `pseudodynamic`, per repetition: how the matrix is divided depends on the number of
localities, but there are always at least `2 N^3` operations and at most one more addition per block. -/
theorem C101_pseudodynamic (p : Params) (N e q : Nat) (transposed : Bool) (br bi reps L : Nat)
    (hN : N = 2 ^ e * q) (hq : q ≤ p.min_work_size) (hbr : q ≤ br) (hL : 0 < L) (hr : 0 < reps)
    (hdiv : transposed = true → bi ≠ 0 → bi ∣ N ∧ ∀ d, d ≤ e → 4 ≤ 2 ^ d * q → 4 ∣ 2 ^ d * q) :
    ∃ n, Performs (pseudodynamic_matrix_multiply p N (inputs N) (inputs N) transposed br bi reps L) n ∧
      2 * N * N * N ≤ n ∧ n ≤ 2 * N * N * N + N * N * (N / bi) := by
  obtain ⟨G, h, hG⟩ := C22_pseudodynamic_entries p N e q _ _ _ _ transposed br bi reps L
    (holds_inputs N) (holds_inputs N) hN hq hbr hL hr hdiv
  have hc : ∀ i, i < N → ∀ j, j < N → 2 * N ≤ (G i j).ops ∧ (G i j).ops ≤ 2 * N + N / bi := by
    intro i hi j hj
    obtain ⟨d, hd, hg⟩ := hG i hi j hj
    rw [hg, ops_submatrixEntry]
    split
    · exact ⟨Nat.le_refl _, Nat.le_add_right _ _⟩
    · rename_i hn
      have ht : transposed = true := by
        cases transposed
        · exact absurd (.inl rfl) hn
        · rfl
      have hb := (hdiv ht (fun h0 => hn (.inr (.inl h0)))).1
      have e2 : N / bi * (2 * bi + 1) = 2 * (N / bi * bi) + N / bi := by ring
      rw [e2, Nat.div_mul_cancel hb]
      exact ⟨Nat.le_add_right _ _, Nat.le_refl _⟩
  obtain ⟨h1, h2⟩ := totalOps_between hc
  refine ⟨_, ⟨_, h, rfl⟩, ?_, ?_⟩
  · rwa [cube] at h1
  · refine h2.trans (Nat.le_of_eq ?_)
    ring

private theorem tiles (K : Nat) : ceilDiv K 256 * 256 / 64 = ceilDiv K 256 * 4 := by omega

/-- **C101.** `combined`: all `r` repetitions are added up, each with `2 K + K / 64` operations per
entry, where `K` is `N` rounded up to a multiple of 256. -/
theorem C101_combined (N r : Nat) :
    Performs (Combined.matrix_multiply Combined.blocking N (inputs N) (inputs N) r)
      (r * (N * N * (2 * (ceilDiv N 256 * 256) + ceilDiv N 256 * 4))) :=
  performs (C35_combined _ Combined.valid N _ _ _ _ (holds_inputs N) (holds_inputs N) r)
    (fun _ _ _ _ => ops_repeatDot r _ _ (fun _ => ops_pad _ _ _) (fun _ => ops_pad _ _ _)) (by
      show N * N * (r * (ceilDiv N 256 * 256 / 64 * (2 * 64 + 1))) = _
      rw [tiles]; ring)

/-- **C101.** `kernel_tiled`, per repetition. -/
theorem C101_kernel_tiled (N r : Nat) (transposed : Bool) (hr : 1 ≤ r) :
    Performs (KernelTiled.matrix_multiply KernelTiled.blocking N (inputs N) (inputs N) transposed r)
      (N * N * (2 * (ceilDiv N 256 * 256) + ceilDiv N 256 * 4)) :=
  performs (C37_kernel_tiled _ KernelTiled.valid N _ _ _ _ (holds_inputs N) (holds_inputs N) transposed r)
    (fun _ _ _ _ => by
      rw [if_neg (by omega)]
      exact ops_bdot _ _ (fun _ => ops_pad _ _ _) (fun _ => ops_pad _ _ _)) (by
      show N * N * (ceilDiv N 256 * 256 / 64 * (2 * 64 + 1)) = _
      rw [tiles]; ring)

/-- **C101.** `kernel_test`, per repetition. -/
theorem C101_kernel_test (N r : Nat) (hN : SafeSize N) (transposed : Bool) (hr : 1 ≤ r) :
    Performs (KernelTest.matrix_multiply N (inputs N) (inputs N) transposed r)
      (N * N * (2 * (ceilDiv N 512 * 512) + ceilDiv N 512 * 32)) :=
  performs (C39_kernel_test N hN _ _ _ _ (holds_inputs N) (holds_inputs N) transposed r hr)
    (fun _ _ _ _ => ops_bdot _ _ (fun _ => ops_pad _ _ _) (fun _ => ops_pad _ _ _)) (by
      have : ceilDiv N 512 * 512 / 16 = ceilDiv N 512 * 32 := by omega
      rw [this]; ring)

/-! ### the experiment kernels -/

private theorem size_inputs (n : Nat) : (inputs n).size = n * n := by simp [inputs]

/-- **C101.** Of the experiment kernels, `multNaive` and `multTransposed` (on a zero matrix),
`multCounter`, `multBlocked2`, `multExchanged`, `multRegister` and `multIntrinLoop` need exactly the
`2 n^3` operations that the benchmark program divides by the time. -/
theorem C101_experiments (n : Nat) :
    Performs (multNaive (inputs n) (inputs n) (zeros (n * n)) n) (2 * n * n * n) ∧
    Performs (ND.ofM (multTransposed (inputs n) (inputs n) (zeros (n * n)) n)) (2 * n * n * n) ∧
    Performs (multCounter (inputs n) (inputs n) (zeros (n * n)) n) (2 * n * n * n) ∧
    (2 ∣ n → Performs (multBlocked2 (inputs n) (inputs n) (zeros (n * n)) n) (2 * n * n * n)) ∧
    (128 ∣ n → ∀ st : Stack Expr, st.Sized 128 128 →
      Performs (multExchanged st (inputs n) (inputs n) (zeros (n * n)) n) (2 * n * n * n)) ∧
    (256 ∣ n → ∀ st : Stack Expr, st.Sized 256 64 → ∀ oR oB, oR % 4 = 0 → oB % 4 = 0 →
      Performs (multRegister true oR oB st (inputs n) (inputs n) (zeros (n * n)) n) (2 * n * n * n)) ∧
    (128 ∣ n → ∀ st : Stack Expr, st.Sized 128 128 → ∀ oA oB oC, oA % 4 = 0 → oB % 4 = 0 → oC % 4 = 0 →
      Performs (multIntrinLoop oA oB oC st (inputs n) (inputs n) (zeros (n * n)) n) (2 * n * n * n)) := by
  have hA := holds_inputs n
  have hs : (zeros (n * n) : Array Expr).size = n * n := by simp
  refine ⟨?_, ?_, ?_, fun hn => ?_, fun hn st hst => ?_, fun hn st hst oR oB h1 h2 => ?_,
    fun hn st hst oA oB oC h1 h2 h3 => ?_⟩
  · exact performs (C54_naive n _ _ _ _ _ _ hA hA (zeros_holds n n) hs)
      (fun _ _ _ _ => ops_dot n none none) (cube n)
  · exact performs (congrArg ND.ofM (C54_transposed n _ _ _ _ _ _ hA hA (zeros_holds n n) hs))
      (fun _ _ _ _ => ops_dot n none none) (cube n)
  · exact performs (C54_counter n _ _ _ _ _ hA hA hs) (fun _ _ _ _ => ops_dot n none none) (cube n)
  · exact performs (C55_even n hn _ _ _ _ _ hA hA hs) (fun _ _ _ _ => ops_dot n none none) (cube n)
  · exact performs (C65_exchanged n hn st hst _ _ _ _ _ hA hA hs) (fun _ _ _ _ => ops_dot n none none)
      (cube n)
  · exact performs (C68_register oR oB h1 h2 n hn st hst _ _ _ _ _ hA hA hs)
      (fun _ _ _ _ => ops_dot n none none) (cube n)
  · exact performs (C69_intrinLoop oA oB oC h1 h2 h3 n hn st hst _ _ _ _ _ hA hA hs)
      (fun _ _ _ _ => ops_dot n none none) (cube n)

/-- **C101.** The kernels with four partial sums need four more additions for each block of 128 or 256
products, or for each entry. -/
theorem C101_experiments_quarters (n : Nat) :
    (128 ∣ n → ∀ st : Stack Expr, st.Sized 128 128 →
      Performs (multGPU st (inputs n) (inputs n) (zeros (n * n)) n)
        (2 * n * n * n + 4 * (n * n * (n / 128)))) ∧
    (256 ∣ n → ∀ st : Stack Expr, st.Sized 256 256 → ∀ oA oB, oA % 4 = 0 → oB % 4 = 0 →
      Performs (multGPUASM true oA oB st (inputs n) (inputs n) (zeros (n * n)) n)
        (2 * n * n * n + 4 * (n * n * (n / 256)))) ∧
    (4 ∣ n → n < 2 ^ 31 → ∀ gnuc oA oB, 4 < gnuc → oA % 4 = 0 → oB % 4 = 0 →
      Performs (multASM gnuc oA oB (inputs n) (inputs n) (zeros (n * n)) n)
        (2 * n * n * n + 4 * (n * n))) := by
  have hA := holds_inputs n
  have hs : (zeros (n * n) : Array Expr).size = n * n := by simp
  refine ⟨fun hn st hst => ?_, fun hn st hst oA oB h1 h2 => ?_, fun hn hn' gnuc oA oB hg h1 h2 => ?_⟩
  · refine performs (C66_gpu n hn st hst _ _ _ _ _ hA hA hs)
      (fun _ _ _ _ => ops_quarterBlocksDot n 128 none none) ?_
    obtain ⟨m, rfl⟩ := hn
    rw [Nat.mul_div_cancel_left _ (by decide)]
    ring
  · refine performs (C67_gpuasm oA oB h1 h2 n hn st hst _ _ _ _ _ hA hA hs)
      (fun _ _ _ _ => ops_quarterBlocksDot n 256 none none) ?_
    obtain ⟨m, rfl⟩ := hn
    rw [Nat.mul_div_cancel_left _ (by decide)]
    ring
  · refine performs (c := 8 * (n / 4) + 4) (C70_asm gnuc oA oB hg h1 h2 n hn hn' _ _ _ _ _ hA hA hs)
      (fun _ _ _ _ => ?_) ?_
    · unfold addQuarters quarterDot
      simp only [ops_add, ops_dot _ none none]
      show 0 + _ + 1 + _ + 1 + _ + 1 + _ + 1 = _
      omega
    · obtain ⟨m, rfl⟩ := hn
      rw [Nat.mul_div_cancel_left _ (by decide)]
      ring

/-- **C101.** `multBlocked4` leaves out three of four products: the benchmark program reports four times
the operations that it needs. -/
theorem C101_blocked4 (n : Nat) (hn : 4 ∣ n) :
    ∃ m, Performs (multBlocked4 (inputs n) (inputs n) (zeros (n * n)) n) m ∧ 4 * m = 2 * n * n * n := by
  have hA := holds_inputs n
  refine ⟨_, performs (C56_result n hn _ _ _ _ _ hA hA (by simp))
    (fun _ _ _ _ => ops_dot _ none none) rfl, ?_⟩
  obtain ⟨m, rfl⟩ := hn
  rw [Nat.mul_div_cancel_left _ (by decide)]
  ring

/-! ### repetitions -/

/-- **C101.** `algorithms`, `looped`, `semi` and `proposal` ignore the number of repetitions: they
multiply once, but the reported performance is that of all repetitions. -/
theorem C101_ignored {α : Type} [Arith α] (e : Driver.Env α) (o : Driver.Opts) (A B : Array α) (r : Nat)
    (h : o.algorithm = "algorithms" ∨ o.algorithm = "looped" ∨ o.algorithm = "semi" ∨
      o.algorithm = "proposal") :
    Driver.dispatch e { o with repetitions := r } A B = Driver.dispatch e o A B := by
  unfold Driver.dispatch
  rcases h with h | h | h | h <;> simp [h]

section Examples

-- N = 4, blocks of two products
example : Performs (Algorithms.matrix_multiply 4 (inputs 4) (inputs 4) 2 2) (128 + 32) :=
  C101_algorithms 4 2 2 (by decide) (by decide) (by decide) (by decide)

example : Performs (Semi.matrix_multiply 8 (inputs 8) (inputs 8) 4) (1024 + 128) :=
  C101_semi 8 4 (by decide) (by decide) (by decide)

example : Performs (ND.ofM (Looped.matrix_multiply 6 (inputs 6) (inputs 6) 2 3)) 432 :=
  C101_looped 6 2 3 (by decide) (by decide) (by decide) (by decide)

example : Performs (single_matrix_multiply 16 (inputs 16) (inputs 16) true 8 4 3) (8192 + 1024) :=
  C101_single 16 1 8 true 8 4 3 (by decide) (by decide) (by intro d hd; obtain rfl : d = 0 := (by omega); decide)
    (fun _ _ _ => ⟨by decide, by decide⟩) (by decide)

-- N = 1: most of the operations are those on the padding
example : Performs (Combined.matrix_multiply Combined.blocking 1 (inputs 1) (inputs 1) 2) 1032 :=
  C101_combined 1 2

example : Performs (KernelTiled.matrix_multiply KernelTiled.blocking 300 (inputs 300) (inputs 300) false 1)
    (90000 * 1032) := C101_kernel_tiled 300 1 false (by decide)

example : Performs (KernelTest.matrix_multiply 500 (inputs 500) (inputs 500) true 1) (250000 * 1056) :=
  C101_kernel_test 500 1 (by unfold SafeSize; decide) true (by decide)

example : ∃ n, Performs (pseudodynamic_matrix_multiply ⟨8, 1, fun _ _ => true⟩ 16 (inputs 16) (inputs 16)
    true 8 4 1 2) n ∧ 8192 ≤ n ∧ n ≤ 8192 + 1024 :=
  C101_pseudodynamic ⟨8, 1, fun _ _ => true⟩ 16 1 8 true 8 4 1 2 (by decide) (by decide) (by decide)
    (by decide) (by decide) fun _ _ => ⟨by decide, fun d hd _ => by
      rcases Nat.le_one_iff_eq_zero_or_eq_one.1 hd with rfl | rfl <;> decide⟩

-- three repetitions of N = 1000 in two seconds: about 3 Gflops
example : (performance 3 1000 1000 1000 (.ofNat 2)).finite :=
  have h2 := ofNat_value (n := 2) (by norm_num)
  (C101_performance 3 1000 1000 1000 (by norm_num) (by norm_num) (by norm_num) (by norm_num) (by norm_num)
    (by norm_num) (by norm_num) (by norm_num) _ h2.1 (by rw [h2.2]; norm_num) (by rw [h2.2]; norm_num)).1

example : (benchmark 4096 250).finite :=
  (C101_benchmark 4096 250 (by norm_num) (by norm_num) (by norm_num) (by norm_num)).1

example (st : Stack Expr) (hst : st.Sized 128 128) :
    Performs (multGPU st (inputs 4096) (inputs 4096) (zeros (4096 * 4096)) 4096) (2 ^ 37 + 2 ^ 31) :=
  (C101_experiments_quarters 4096).1 (by decide) st hst

-- the benchmark program on its size: 2^37 operations reported, 2^35 needed
example : ∃ m, Performs (multBlocked4 (inputs 4096) (inputs 4096) (zeros (4096 * 4096)) 4096) m ∧
    4 * m = 2 ^ 37 := C101_blocked4 4096 (by decide)

example : (flops 4096 4096 4096).value = 2 ^ 37 := by
  rw [(C101_flops 4096 (by decide)).2]; norm_num

end Examples

end Verif.Props
