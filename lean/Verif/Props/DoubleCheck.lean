import Verif.Props.Double
import Verif.Props.DriverFloat
import Verif.Props.Rounding
import Verif.Props.TestsFloat
import Verif.Proof.DoubleUse
/-
C104: what a passed check says about doubles.
-/
namespace Verif.Props
open IEEE

/-- The exact difference of two doubles is finite only if both are. -/
private theorem finite_of_sub {x y : Double} (h : (Double.sub x y).finite) : x.finite ∧ y.finite := by
  rw [Double.finite_iff] at h ⊢
  rw [Double.finite_iff]
  obtain ⟨x, hx⟩ := x
  obtain ⟨y, hy⟩ := y
  change (Ext.round (Ext.add x y.neg)).finite at h
  cases x with
  | nan => exact absurd h id
  | inf s =>
    cases y with
    | inf t =>
      refine absurd h ?_
      show ¬ (Ext.round (if s = !t then .inf s else .nan)).finite
      split <;> exact id
    | _ => exact absurd h id
  | _ =>
    cases y with
    | nan => exact absurd h id
    | inf t => exact absurd h id
    | _ => exact ⟨trivial, trivial⟩

theorem round_value {x : Ext} (hx : x.finite) (h : x.round.finite) :
    x.round.value = roundNum x.value := by
  cases x with
  | num q =>
    unfold Ext.round at h ⊢
    dsimp only at h ⊢
    split at h
    · exact absurd h id
    · next h1 =>
      rw [if_neg h1]
      split
      · next h2 => exact h2.symm
      · rfl
  | zero => exact roundNum_zero.symm
  | _ => exact absurd hx id

private theorem sub_value' {x y : Double} (h : (Double.sub x y).finite) :
    (Double.sub x y).value = roundNum (x.value - y.value) := by
  obtain ⟨hx, hy⟩ := finite_of_sub h
  rw [Double.finite_iff] at h hx hy
  obtain ⟨h3, h4⟩ := Ext.finite_neg hy
  obtain ⟨h1, h2⟩ := Ext.finite_add hx h3
  rw [Double.value_eq, Double.value_eq x, Double.value_eq y, sub_eq_add_neg, ← h4, ← h2]
  exact round_value h1 h

private theorem absLt_iff {x : Double} {t : ℚ} :
    Double.absLt x t = true ↔ x.finite ∧ |x.value| < t := by
  obtain ⟨x, hx⟩ := x
  cases x <;> simp [Double.absLt, Double.finite, Double.value]

/-- **C104.** `fabs(x - y) < t` holds only if `x` and `y` are finite and their exact difference, before
any rounding, is below `t`. -/
theorem C104_sound (t x y : Double) (h : Double.small t x y = true) :
    x.finite ∧ y.finite ∧ |x.value - y.value| < t.value := by
  obtain ⟨h1, h2⟩ := absLt_iff.1 h
  obtain ⟨hx, hy⟩ := finite_of_sub h1
  refine ⟨hx, hy, ?_⟩
  by_contra hc
  rw [not_lt] at hc
  have ht := Double.isDouble_value t
  rw [sub_value' h1] at h2
  rcases le_abs.1 hc with h' | h'
  · exact absurd h2 (not_lt.2 ((le_roundNum_of_le ht h').trans (le_abs_self _)))
  · refine absurd h2 (not_lt.2 (le_trans ?_ (neg_le_abs _)))
    have := roundNum_le_of_le (isDouble_neg ht) (show x.value - y.value ≤ -t.value by linarith)
    linarith

/-- **C104.** Conversely it holds if a double below `t` bounds the difference. -/
theorem C104_complete (t x y s : Double) (hx : x.finite) (hy : y.finite)
    (h : |x.value - y.value| ≤ s.value) (hs : s.value < t.value) : Double.small t x y = true := by
  have hd := Double.isDouble_value s
  obtain ⟨h1, h2⟩ := Double.sub_value hx hy (h.trans ((le_abs_self _).trans (le_maxDouble hd)))
  refine absLt_iff.2 ⟨h1, lt_of_le_of_lt ?_ hs⟩
  rw [h2]
  have := abs_le.1 h
  refine abs_le.2 ⟨le_roundNum_of_le (isDouble_neg hd) this.1, roundNum_le_of_le hd this.2⟩

private theorem accepts {fuse : Double → Double → Double → Bool} {e : Driver.Env Double}
    (hone : e.one = Double.lit 1 0) (hrand : ∀ p, Drawn (e.rand p)) (N : Nat) (C : Array Double) :
    @Driver.Accepts Double (Double.arith fuse) e N C ↔ C.size = N * N ∧ ∀ i, i < N → ∀ j, j < N →
      ∃ c, C[i * N + j]? = some c ∧ e.close c (e.rand (i * N + j)) = true := by
  refine and_congr_right fun _ => forall_congr' fun i => imp_congr_right fun _ =>
    forall_congr' fun j => imp_congr_right fun hj => exists_congr fun c => and_congr_right fun _ => ?_
  have h := @dot_id Double (Double.arith fuse) e (C97_identity fuse e hone hrand) N i j hj
  rw [show @mulSpec Double (Double.arith fuse) N (@Driver.entryA Double e N) (@Driver.entryB Double (Double.arith fuse) e) i j =
    e.rand (i * N + j) from h]

/-- **C104.** If the program ends normally and its check has passed, then `C` has `N * N` elements, all
finite and each less than `1E-10` away from that of `A`, whichever algorithm and options were chosen. -/
theorem C104_driver_passed (fuse : Double → Double → Double → Bool) (e : Driver.Env Double)
    (hone : e.one = Double.lit 1 0) (hrand : ∀ p, Drawn (e.rand p))
    (hclose : e.close = Double.small (Double.lit 1 10)) (hroot : e.root = true) (o : Driver.Opts)
    (hh : o.help = false) (hc : o.check = true) (rep : Driver.Report Double)
    (h : @Driver.main Double (Double.arith fuse) e o (.ok rep)) (hp : rep.check = some true) :
    rep.C.size = o.N * o.N ∧ ∀ i, i < o.N → ∀ j, j < o.N → ∃ c, rep.C[i * o.N + j]? = some c ∧
      c.finite ∧ |c.value - (e.rand (i * o.N + j)).value| < (Double.lit 1 10).value := by
  have hn : o.algorithm ∈ Driver.names := by
    by_contra hn
    rw [@C50_unknown Double (Double.arith fuse) e o hh hn] at h
    obtain rfl := Except.ok.inj h
    cases hp
  have := ((@C51_check Double (Double.arith fuse) e o rep hh h hn hroot hc).1.1 hp)
  rw [accepts hone hrand] at this
  refine ⟨this.1, fun i hi j hj => ?_⟩
  obtain ⟨c, h1, h2⟩ := this.2 i hi j hj
  rw [hclose] at h2
  obtain ⟨h3, -, h4⟩ := C104_sound _ _ _ h2
  exact ⟨c, h1, h3, h4⟩

/-- **C104.** An infinite or undefined element, or one that is `1E-10` or more away from that of `A`,
makes the check fail. -/
theorem C104_driver_failed (fuse : Double → Double → Double → Bool) (e : Driver.Env Double)
    (hone : e.one = Double.lit 1 0) (hrand : ∀ p, Drawn (e.rand p))
    (hclose : e.close = Double.small (Double.lit 1 10)) (hroot : e.root = true) (o : Driver.Opts)
    (hh : o.help = false) (hc : o.check = true) (hn : o.algorithm ∈ Driver.names)
    (rep : Driver.Report Double) (h : @Driver.main Double (Double.arith fuse) e o (.ok rep))
    (i j : Nat) (hi : i < o.N) (hj : j < o.N) (c : Double) (hg : rep.C[i * o.N + j]? = some c)
    (hb : ¬ c.finite ∨ (Double.lit 1 10).value ≤ |c.value - (e.rand (i * o.N + j)).value|) :
    rep.check = some false := by
  refine (@C51_check Double (Double.arith fuse) e o rep hh h hn hroot hc).2.2 fun ha => ?_
  rw [accepts hone hrand] at ha
  obtain ⟨c', h1, h2⟩ := ha.2 i hi j hj
  obtain rfl := Option.some.inj (hg.symm.trans h1)
  rw [hclose] at h2
  obtain ⟨h3, -, h4⟩ := C104_sound _ _ _ h2
  rcases hb with hb | hb
  · exact hb h3
  · exact absurd h4 (not_lt.2 hb)

private theorem rd_inv {α : Type} {v : Array α} {i : Nat} {x : α} (h : rd v i = .ok x) : v[i]? = some x := by
  unfold rd at h
  split at h
  · next hv => exact hv.trans (congrArg some (Except.ok.inj h))
  · cases h

private theorem checks_fold {α : Type} [Arith α] (e : Tests.Env α) (C R : Array α) (l : List Nat) :
    ∀ (acc bs : List Bool), l.foldlM (fun acc i => (do
        let x ← rd C i
        let y ← rd R i
        pure (acc ++ [e.close x y]) : M (List Bool))) acc = .ok bs →
      (∃ bs', bs = acc ++ bs') ∧ ((∀ b ∈ bs, b = true) → ∀ i ∈ l, ∃ x y, C[i]? = some x ∧
        R[i]? = some y ∧ e.close x y = true) := by
  induction l with
  | nil =>
    intro acc bs h
    obtain rfl := Except.ok.inj h
    exact ⟨⟨[], (List.append_nil _).symm⟩, fun _ i hi => absurd hi (List.not_mem_nil)⟩
  | cons i l ih =>
    intro acc bs h
    rw [List.foldlM_cons] at h
    obtain ⟨acc', h1, h2⟩ := Semi.bind_ok h
    obtain ⟨x, hx, h1⟩ := Semi.bind_ok h1
    obtain ⟨y, hy, h1⟩ := Semi.bind_ok h1
    obtain rfl := Except.ok.inj h1
    obtain ⟨⟨bs', rfl⟩, h3⟩ := ih _ _ h2
    refine ⟨⟨e.close x y :: bs', by simp⟩, fun hb k hk => ?_⟩
    rcases List.mem_cons.1 hk with rfl | hk
    · exact ⟨x, y, rd_inv hx, rd_inv hy, hb _ (by simp)⟩
    · exact h3 hb k hk

/-- The checks of a test succeed only if every element is there and close. -/
theorem checks_sound {α : Type} [Arith α] (e : Tests.Env α) (N : Nat) (C R : Array α) (bs : List Bool)
    (h : Tests.checks e N C R = .ok bs) (hb : ∀ b ∈ bs, b = true) (p : Nat) (hp : p < N * N) :
    ∃ x y, C[p]? = some x ∧ R[p]? = some y ∧ e.close x y = true := by
  unfold Tests.checks at h
  rw [forStep_eq (by decide)] at h
  refine (checks_fold e C R _ _ _ h).2 hb p ?_
  exact (mem_steps (by decide)).2 ⟨p, by omega, hp⟩

private theorem estimate {n W u η : ℚ} (hn0 : 0 ≤ n) (hn : n ≤ 1024) (hW0 : 0 ≤ W) (hW : W ≤ n)
    (hu0 : 0 ≤ u) (hu : u ≤ 1 / 2 ^ 53) (hη : η ≤ 1 / 2 ^ 52) :
    2 * (n + 1) * u * W + 2 * (n * η) ≤ 3 / 10 ^ 10 := by
  have h1 : (n + 1) * u ≤ 1025 * (1 / 2 ^ 53) := mul_le_mul (by linarith) hu hu0 (by norm_num)
  have h2 : (n + 1) * u * W ≤ 1025 * (1 / 2 ^ 53) * 1024 :=
    mul_le_mul h1 (hW.trans hn) hW0 (by norm_num)
  have h3 : n * η ≤ 1024 * (1 / 2 ^ 52) :=
    (mul_le_mul_of_nonneg_left hη hn0).trans (mul_le_mul_of_nonneg_right hn (by norm_num))
  have h4 : (2 : ℚ) * (1025 * (1 / 2 ^ 53) * 1024) + 2 * (1024 * (1 / 2 ^ 52)) ≤ 3 / 10 ^ 10 := by norm_num
  have h5 : 2 * (n + 1) * u * W = 2 * ((n + 1) * u * W) := by ring
  rw [h5]
  linarith

/-- The versions of `BOOST_CHECK_SMALL` differ at the tolerance only. -/
private theorem small_of_smallEq {s t x y : Double} (h : Double.smallEq t x y = true)
    (hs : t.value < s.value) : Double.small s x y = true := by
  unfold Double.smallEq at h
  unfold Double.small Double.absLt
  revert h
  cases (Double.sub x y).1 with
  | num q => exact fun h => decide_eq_true (lt_of_le_of_lt (of_decide_eq_true h) hs)
  | zero b => exact fun h => decide_eq_true (lt_of_le_of_lt (of_decide_eq_true h) hs)
  | _ => exact id

private theorem small_mono {s t x y : Double} (h : Double.small t x y = true)
    (hs : t.value < s.value) : Double.small s x y = true := by
  obtain ⟨h1, h2⟩ := absLt_iff.1 h
  exact absLt_iff.2 ⟨h1, h2.trans hs⟩

private theorem lit_lower : (Double.lit 1 8).value < (Double.lit 11 9).value := by decide +kernel

private theorem lit_upper : (Double.lit 11 9).value ≤ 111 / 10 ^ 10 := by decide +kernel

private theorem final {fuse : Double → Double → Double → Bool} {n : Nat} {W x g s : ℚ} (hn0 : (0 : ℚ) ≤ n)
    (hn : (n : ℚ) ≤ 1024) (hW0 : 0 ≤ W) (hW : W ≤ n) (h2 : |x - g| < (Double.lit 11 9).value)
    (h3 : |g - s| ≤ @Rounding.bound ℚ _ _ _ Double (Double.arith fuse) (Double.rounding fuse) (n + 1) n W) :
    |x - s| < 12 / 10 ^ 9 := by
  let _ := Double.arith fuse
  have hu : (Double.rounding fuse).u ≤ 1 / 2 ^ 53 :=
    le_of_eq (show (2 : ℚ) ^ (-53 : ℤ) = 1 / 2 ^ 53 by norm_num)
  have hu0 : 0 ≤ (Double.rounding fuse).u := (Double.rounding fuse).u_nonneg
  have hη : (Double.rounding fuse).η ≤ 1 / 2 ^ 52 := η_le52
  have hs : 2 * ((n + 1 : Nat) : ℚ) * (Double.rounding fuse).u ≤ 1 := by
    push_cast
    have := mul_le_mul (show (n : ℚ) + 1 ≤ 1025 by linarith) hu hu0 (by norm_num)
    have h4 : (1025 : ℚ) * (1 / 2 ^ 53) ≤ 1 / 2 := by norm_num
    rw [mul_assoc]
    linarith
  have hb := @C85_bound ℚ _ _ _ Double (Double.arith fuse) (Double.rounding fuse) (n + 1) n _ hW0 hs
  have he := estimate hn0 hn hW0 hW hu0 hu hη
  push_cast at hb
  have hl := lit_upper
  have e1 : x - s = (x - g) + (g - s) := by ring
  rw [e1]
  refine lt_of_le_of_lt (abs_add_le _ _) ?_
  have h5 : (111 : ℚ) / 10 ^ 10 + 3 / 10 ^ 10 ≤ 12 / 10 ^ 9 := by norm_num
  linarith

private theorem no_overflow (fuse : Double → Double → Double → Bool) {N : Nat} (hN : N ≤ 1024)
    {a b : Nat → Nat → Double} (ha : ∀ i, i < N → ∀ j, j < N → (a i j).finite ∧ |(a i j).value| ≤ 1)
    (hb : ∀ i, i < N → ∀ j, j < N → (b i j).finite ∧ |(b i j).value| ≤ 1) :
    @NoOverflow ℚ _ _ _ Double (Double.arith fuse) (Double.rounding fuse) N (N + 1) N a b := by
  have h1 : (1 : ℚ) ≤ 2 ^ (500 : ℤ) := one_le_zpow₀ (by norm_num) (by norm_num)
  exact C97_no_overflow fuse (by omega) (by omega) (by omega)
    (fun i hi j hj => ⟨(ha i hi j hj).1, (ha i hi j hj).2.trans h1⟩)
    (fun i hi j hj => ⟨(hb i hi j hj).1, (hb i hi j hj).2.trans h1⟩)

private theorem absEntry_le_one (fuse : Double → Double → Double → Bool) {N : Nat}
    {a b : Nat → Nat → Double} (ha : ∀ i, i < N → ∀ j, j < N → (a i j).finite ∧ |(a i j).value| ≤ 1)
    (hb : ∀ i, i < N → ∀ j, j < N → (b i j).finite ∧ |(b i j).value| ≤ 1) (i j : Nat) (hi : i < N)
    (hj : j < N) :
    @absEntry ℚ _ _ _ Double (Double.arith fuse) (Double.rounding fuse) N a b i j ≤ N := by
  have := @absEntry_le ℚ _ _ _ Double (Double.arith fuse) (Double.rounding fuse) N a b 1 1
    (fun i hi j hj => (ha i hi j hj).2) (fun i hi j hj => (hb i hi j hj).2) i j hi hj
  rwa [mul_one, mul_one] at this

/-- **C104.** If all checks of a test with random numbers from -1 to 1 and a size up to 1024 succeed,
then the tested matrix, wherever it comes from, has finite entries, each less than `1.2E-8` away from
the exact product. -/
theorem C104_random_test (fuse : Double → Double → Double → Bool) (e : Tests.Env Double)
    (hclose : e.close = Double.small (Double.lit 1 8) ∨ e.close = Double.smallEq (Double.lit 1 8)) (c : Tests.Case) (hN : c.N ≤ 1024)
    (A B : Array Double) (a b : Nat → Nat → Double) (hA : Holds A c.N c.N a)
    (hB : Holds B c.N c.N (if c.transposed then tr b else b))
    (ha : ∀ i, i < c.N → ∀ j, j < c.N → (a i j).finite ∧ |(a i j).value| ≤ 1)
    (hb : ∀ i, i < c.N → ∀ j, j < c.N → (b i j).finite ∧ |(b i j).value| ≤ 1)
    (R C : Array Double) (hR : @Tests.reference Double (Double.arith fuse) c A B (.ok R))
    (bs : List Bool) (hc : Tests.checks e c.N C R = .ok bs) (hbs : ∀ b ∈ bs, b = true)
    (i j : Nat) (hi : i < c.N) (hj : j < c.N) :
    ∃ x, C[i * c.N + j]? = some x ∧ x.finite ∧
      |x.value - ∑ k ∈ Finset.range c.N, (a i k).value * (b k j).value| < 12 / 10 ^ 9 := by
  have hp : i * c.N + j < c.N * c.N := by
    calc i * c.N + j < i * c.N + c.N := by omega
      _ = (i + 1) * c.N := by ring
      _ ≤ c.N * c.N := Nat.mul_le_mul_right _ hi
  obtain ⟨x, y, hx, hy, hxy⟩ := @checks_sound Double (Double.arith fuse) e c.N C R bs hc hbs (i * c.N + j) hp
  have hxy : Double.small (Double.lit 11 9) x y = true := by
    rcases hclose with hclose | hclose
    · rw [hclose] at hxy
      exact small_mono hxy lit_lower
    · rw [hclose] at hxy
      exact small_of_smallEq hxy lit_lower
  obtain ⟨h1, -, h2⟩ := C104_sound _ _ _ hxy
  refine ⟨x, hx, h1, ?_⟩
  have hno := no_overflow fuse hN ha hb
  have hap : @ApproxProduct ℚ _ _ _ Double (Double.arith fuse) (Double.rounding fuse) c.N (c.N + 1) c.N a b
      (@Tests.reference Double (Double.arith fuse) c A B) := by
    unfold Tests.reference
    cases ht : c.transposed with
    | false =>
      rw [ht] at hB
      exact @C85_naive ℚ _ _ _ Double (Double.arith fuse) _ _ a b A B hA hB hno
    | true =>
      rw [ht] at hB
      exact @C85_naive_transposed ℚ _ _ _ Double (Double.arith fuse) _ _ a b A B hA hB hno
  obtain ⟨G, hG, hE⟩ := hap
  rw [hG] at hR
  obtain rfl := Except.ok.inj hR
  obtain rfl := Option.some.inj (hy.symm.trans (holds_rect c.N c.N G i hi j hj))
  obtain ⟨-, h3⟩ := hE i hi j hj
  have hW0 : 0 ≤ @absEntry ℚ _ _ _ Double (Double.arith fuse) (Double.rounding fuse) c.N a b i j :=
    Rounding.sum_abs_nonneg _ _
  have hW := absEntry_le_one fuse ha hb i j hi hj
  have hn : (c.N : ℚ) ≤ 1024 := (Nat.cast_le.2 hN).trans (by norm_num)
  have hn0 : (0 : ℚ) ≤ c.N := Nat.cast_nonneg _
  exact final hn0 hn hW0 hW h2 h3

private theorem bind_ok {R S : Type} {x : ND R} {f : R → ND S} {v : S} (h : (x >>= f) (.ok v)) :
    ∃ r, x (.ok r) ∧ f r (.ok v) := by
  rcases h with ⟨e, -, h⟩ | h
  · cases h
  · exact h

/-- **C104.** If a test case with random matrices passes, whatever the algorithm, then the matrix that the
algorithm returned in this run has finite entries, each less than `1.2E-8` away from the exact product of
the two matrices. -/
theorem C104_test_passed (fuse : Double → Double → Double → Bool) (e : Tests.Env Double)
    (hrand : ∀ k, (e.rand k).finite ∧ |(e.rand k).value| ≤ 1)
    (hclose : e.close = Double.small (Double.lit 1 8) ∨ e.close = Double.smallEq (Double.lit 1 8))
    (c : Tests.Case) (hN : c.N ≤ 1024) (bs : List Bool)
    (h : @Tests.random_matrices Double (Double.arith fuse) e c (.ok bs)) (hbs : ∀ b ∈ bs, b = true) :
    ∃ C, @Tests.hpx_main Double (Double.arith fuse) e c
        (rowMajor c.N fun i j => e.rand (i * c.N + j)) (rowMajor c.N fun i j => e.rand (i * c.N + j)) #[] (.ok C) ∧
      ∀ i, i < c.N → ∀ j, j < c.N → ∃ x, C[i * c.N + j]? = some x ∧ x.finite ∧
        |x.value - ∑ k ∈ Finset.range c.N, (e.rand (i * c.N + k)).value *
          (if c.transposed then e.rand (j * c.N + k) else e.rand (k * c.N + j)).value| < 12 / 10 ^ 9 := by
  unfold Tests.random_matrices at h
  obtain ⟨A, hA, h1⟩ := bind_ok h
  obtain ⟨B, hB, h2⟩ := bind_ok h1
  obtain ⟨C, hC, h3⟩ := bind_ok h2
  obtain ⟨R, hRc⟩ := bind_ok h3
  have hR := hRc.1
  have hA' : Except.ok A = @Util.create_random_matrix Double (Double.arith fuse) e.rand c.N := hA
  have hB' : Except.ok B = @Util.create_random_matrix Double (Double.arith fuse) e.rand c.N := hB
  rw [@C49_random Double (Double.arith fuse)] at hA' hB'
  obtain rfl := Except.ok.inj hA'
  obtain rfl := Except.ok.inj hB'
  have hc : Tests.checks e c.N C R = .ok bs := Eq.symm hRc.2
  refine ⟨C, hC, fun i hi j hj => ?_⟩
  have := C104_random_test fuse e hclose c hN _ _ (fun i j => e.rand (i * c.N + j))
    (fun k j => if c.transposed then e.rand (j * c.N + k) else e.rand (k * c.N + j))
    (holds_rect c.N c.N _) ?_ (fun i _ j _ => hrand _) ?_ R C hR bs hc hbs i j hi hj
  · exact this
  · cases ht : c.transposed with
    | false => exact holds_rect c.N c.N fun i j => e.rand (i * c.N + j)
    | true => exact holds_rect c.N c.N fun i j => e.rand (i * c.N + j)
  · intro i _ j _
    split <;> exact hrand _

section Examples

private def never : Double → Double → Double → Bool := fun _ _ _ => false

-- the exact difference is just below the tolerance, the next number is not accepted
example : Double.small (Double.lit 1 0) (Double.lit 3 0) (Double.lit 21 1) = true ∧
    Double.small (Double.lit 1 0) (Double.lit 3 0) (Double.lit 2 0) = false ∧
    Double.smallEq (Double.lit 1 0) (Double.lit 3 0) (Double.lit 2 0) = true := by decide +kernel

-- neither infinities nor undefined numbers are accepted, not even if they are equal
example : let inf : Double := ⟨.inf false, trivial⟩
    Double.small (Double.lit 1 0) inf inf = false ∧ Double.small (Double.lit 1 0) inf (Double.lit 1 0) = false :=
  by decide +kernel

example : |(Double.lit 3 0).value - (Double.lit 21 1).value| < (Double.lit 1 0).value :=
  (C104_sound (Double.lit 1 0) (Double.lit 3 0) (Double.lit 21 1) (by decide +kernel)).2.2

example : Double.small (Double.lit 1 10) (Double.lit 1 1) (Double.lit 10000000001 11) = true :=
  C104_complete _ _ _ (Double.lit 2 11) (by decide +kernel) (by decide +kernel) (by decide +kernel)
    (by decide +kernel)

private def driver : Driver.Env Double where
  one := Double.lit 1 0
  rand := sampleNumbers
  close := Double.small (Double.lit 1 10)
  absDiff x y := Double.sub x y
  root := true
  localities := 3
  relOk _ _ := false
  junk _ := #[]

private def opts : Driver.Opts := { Driver.Globals.init (α := Double) |>.o with
  N := 100, algorithm := "kernel_tiled", repetitions := 2, check := true, transposed := true }

-- the check of this run passes, so the conclusion holds for its matrix
example : ∃ rep, @Driver.main Double (Double.arith never) driver opts (.ok rep) ∧
    rep.C.size = opts.N * opts.N ∧ ∀ i, i < opts.N → ∀ j, j < opts.N →
    ∃ c, rep.C[i * opts.N + j]? = some c ∧ c.finite ∧
      |c.value - (driver.rand (i * opts.N + j)).value| < (Double.lit 1 10).value := by
  have h := C97_driver never driver rfl sampleNumbers_drawn rfl opts rfl (.kernel_tiled rfl (by decide))
  have h' : @Driver.main Double (Double.arith never) driver opts (.ok (passed driver opts (rowMajor 100 (Driver.entryA driver 100)))) := by
    rw [h]
    exact rfl
  exact ⟨_, h', C104_driver_passed never driver rfl sampleNumbers_drawn rfl rfl opts rfl rfl _ h' rfl⟩

private def env : Tests.Env Double where
  rand := sampleNumbers
  close := Double.small (Double.lit 1 8)
  localities := 1
  junk _ := #[]

-- this test case passes
example : ∃ C, @Tests.hpx_main Double (Double.arith never) env ⟨"combined", 256, false, 128, 128, 1, 0, 0⟩
    (rowMajor 256 fun i j => sampleNumbers (i * 256 + j)) (rowMajor 256 fun i j => sampleNumbers (i * 256 + j)) #[]
    (.ok C) ∧ ∀ i, i < 256 → ∀ j, j < 256 → ∃ x, C[i * 256 + j]? = some x ∧ x.finite ∧
      |x.value - ∑ k ∈ Finset.range 256, (sampleNumbers (i * 256 + k)).value * (sampleNumbers (k * 256 + j)).value| <
        12 / 10 ^ 9 :=
  C104_test_passed never env sampleNumbers_ok (.inl rfl) ⟨"combined", 256, false, 128, 128, 1, 0, 0⟩ (by decide)
    (List.replicate (256 * 256) true)
    (by rw [C97_all_random never env sampleNumbers_ok rfl rfl _ (by decide) (by decide)]; rfl)
    (fun b hb => List.eq_of_mem_replicate hb)

end Examples
end Verif.Props
