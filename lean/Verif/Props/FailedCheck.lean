import Verif.Props.DoubleCheck
import Verif.Props.ExactDomain
import Verif.Props.ScheduleDrop
import Verif.Props.Halving
import Verif.Proof.SameBits
/-
C116: wrong results are noticed by the check of the driver program, in doubles.
-/
namespace Verif.Props
open IEEE SameBits

/-- Below the tolerance of the check. -/
def Tiny (x : Double) : Prop := |x.value| < (Double.lit 1 10).value

/-- `r` times `x`, added one after another, every sum rounded. -/
def addUp (r : Nat) (x : Double) : Double := (fun s => Double.add s x)^[r] Double.zero

private theorem addUp_succ (r : Nat) (x : Double) : addUp (r + 1) x = Double.add (addUp r x) x :=
  Function.iterate_succ_apply' _ _ _

private theorem addUp_not_neg (r : Nat) (x : Double) : (addUp r x).1 ≠ .zero true := by
  induction r with
  | zero => exact fun h => by injection h with h; cases h
  | succ r ih =>
    rw [addUp_succ]
    exact add_not_neg_zero ih

/-- One more blockwise dot product with a column of the identity matrix. -/
private theorem bdotFrom_unit {α : Type} [Arith α] {one : α} {f g : Nat → α} {j bs nb : Nat}
    (h : Unit1 one f j) (hg : ∀ k, g k = if k = j then one else Arith.zero) (hj : j < nb * bs) (acc : α)
    (h1 : Arith.add acc Arith.zero = acc) (h2 : Arith.add (Arith.add acc (f j)) Arith.zero = Arith.add acc (f j)) :
    bdotFrom acc bs nb f g = Arith.add acc (f j) := by
  have key : ∀ m, bdotFrom acc bs m f g = if j < m * bs then Arith.add acc (f j) else acc := by
    intro m
    induction m with
    | zero => rw [if_neg (by omega)]; rfl
    | succ m ih =>
      unfold bdotFrom at *
      rw [List.range_succ, List.foldl_append, ih, List.foldl_cons, List.foldl_nil,
        h.dot_shift hg, Nat.succ_mul]
      by_cases hm : j < m * bs
      · rw [if_pos hm, if_neg (by omega), if_pos (by omega), h2]
      · rw [if_neg hm]
        by_cases hb : j < m * bs + bs
        · rw [if_pos (by omega), if_pos hb]
        · rw [if_neg (by omega), if_neg hb, h1]
  rw [key, if_pos hj]


/-- The result of the program is `C`, and the check compares it with `A`. -/
private theorem run_checked {fuse : Double → Double → Double → Bool} {e : Driver.Env Double}
    (hone : e.one = Double.lit 1 0) (hrand : ∀ p, Drawn (e.rand p)) (hroot : e.root = true)
    {o : Driver.Opts} (hh : o.help = false) (hc : o.check = true) {P : ND (Array Double)}
    {G : Nat → Nat → Double} (hreq : @Driver.Requested Double (Double.arith fuse) e o P)
    (hP : P = ND.pure (rowMajor o.N G)) :
    ∃ b, @Driver.main Double (Double.arith fuse) e o = ND.pure ⟨0, false, some b, rowMajor o.N G⟩ ∧
      (b = true ↔ ∀ i, i < o.N → ∀ j, j < o.N → e.close (G i j) (e.rand (i * o.N + j)) = true) := by
  refine ⟨@Driver.std_equal Double e.close (rowMajor o.N G) (@Driver.reference Double (Double.arith fuse) e o.N),
    ?_, ?_⟩
  · rw [@driver_requested Double (Double.arith fuse) e o P hh hreq, hP]
    refine (ND.pure_bind _ _).trans ?_
    unfold Driver.finish
    rw [if_neg (by simp [rect])]
    simp only [hroot, hc, Bool.and_self, if_true]
  · refine (@Driver.std_equal_iff Double (Double.arith fuse) e.close o.N _ _).trans ?_
    have hdot : ∀ i j, j < o.N → @mulSpec Double (Double.arith fuse) o.N (@Driver.entryA Double e o.N)
        (@Driver.entryB Double (Double.arith fuse) e) i j = e.rand (i * o.N + j) := fun i j hj =>
      @dot_id Double (Double.arith fuse) e (C97_identity fuse e hone hrand) o.N i j hj
    constructor
    · rintro ⟨_, h⟩ i hi j hj
      obtain ⟨c, h1, h2⟩ := h i hi j hj
      rw [holds_rect _ _ _ i hi j hj] at h1
      rw [hdot i j hj] at h2
      rw [Option.some.inj h1]
      exact h2
    · intro h
      refine ⟨by simp [rect], fun i hi j hj => ⟨_, holds_rect _ _ _ i hi j hj, ?_⟩⟩
      rw [hdot i j hj]
      exact h i hi j hj

/-- **C116.** `combined` with doubles and any number of repetitions: every element of the result is
that of `A`, added up as often as there are repetitions; the check passes exactly if all these sums are
close to the elements of `A`. -/
theorem C116_combined (fuse : Double → Double → Double → Bool) (e : Driver.Env Double)
    (hone : e.one = Double.lit 1 0) (hrand : ∀ p, Drawn (e.rand p)) (hroot : e.root = true)
    (o : Driver.Opts) (hh : o.help = false) (hc : o.check = true) (ha : o.algorithm = "combined")
    (ht : o.transposed = false) :
    ∃ b, @Driver.main Double (Double.arith fuse) e o = ND.pure ⟨0, false, some b,
        rowMajor o.N fun i j => addUp o.repetitions (e.rand (i * o.N + j))⟩ ∧
      (b = true ↔ ∀ i, i < o.N → ∀ j, j < o.N →
        e.close (addUp o.repetitions (e.rand (i * o.N + j))) (e.rand (i * o.N + j)) = true) := by
  let _ := Double.arith fuse
  refine run_checked hone hrand hroot hh hc (@Driver.Requested.combined Double _ e o ha ht) ?_
  have hA : Holds (Driver.vecA e o.N) o.N o.N (Driver.entryA e o.N) := holds_rect _ _ _
  have hB : Holds (Driver.vecB e o.N) o.N o.N (Driver.entryB e) := holds_rect _ _ _
  rw [C35_combined Combined.blocking Combined.valid o.N _ _ _ _ hA hB]
  refine congrArg ND.pure (rect_congr fun i hi j hj => ?_)
  have hu := unit_pad (C97_identity fuse e hone hrand) o.N i j hi hj
  have hpad : Tiled.pad o.N (Driver.entryA e o.N) i j = e.rand (i * o.N + j) := if_pos ⟨hi, hj⟩
  have hg : ∀ k, Tiled.pad o.N (Driver.entryB e) k j = if k = j then e.one else Arith.zero := by
    intro k
    unfold Tiled.pad Driver.entryB
    by_cases hk : k = j
    · rw [if_pos (by omega), if_pos hk]
    · rw [if_neg hk, ite_self]
  have hK : j < ceilDiv o.N Combined.blocking.L3_K_STEP * Combined.blocking.L3_K_STEP /
      Combined.blocking.L1_K_STEP * Combined.blocking.L1_K_STEP := by
    have h1 : Combined.blocking.L1_K_STEP ∣ ceilDiv o.N Combined.blocking.L3_K_STEP * Combined.blocking.L3_K_STEP :=
      (Combined.valid.k21.trans Combined.valid.k32).mul_left _
    rw [Nat.div_mul_cancel h1]
    exact lt_of_lt_of_le hj (Tiled.le_padded Combined.valid.k3)
  unfold Tiled.repeatDot
  generalize o.repetitions = r
  induction r with
  | zero => rfl
  | succ r ih =>
    rw [Function.iterate_succ_apply', ih, addUp_succ]
    refine (bdotFrom_unit hu hg hK _ (not_neg_zero (addUp_not_neg _ _)) ?_).trans ?_
    · rw [hpad]
      exact not_neg_zero (add_not_neg_zero (addUp_not_neg _ _))
    · rw [hpad]
      rfl

/-! ### When the check passes nevertheless -/

private theorem add_fin {x y : Double} (h : (Double.add x y).finite) :
    x.finite ∧ y.finite ∧ (Double.add x y).value = roundNum (x.value + y.value) := by
  have hf : x.finite ∧ y.finite := by
    rw [Double.finite_iff] at h ⊢
    rw [Double.finite_iff]
    obtain ⟨x, hx⟩ := x
    obtain ⟨y, hy⟩ := y
    change (Ext.round (Ext.add x y)).finite at h
    cases x with
    | nan => exact absurd h id
    | inf s =>
      cases y with
      | inf t =>
        refine absurd h ?_
        show ¬ (Ext.round (if s = t then .inf s else .nan)).finite
        split <;> exact id
      | _ => exact absurd h id
    | _ =>
      cases y with
      | nan => exact absurd h id
      | inf t => exact absurd h id
      | _ => exact ⟨trivial, trivial⟩
  refine ⟨hf.1, hf.2, ?_⟩
  rw [Double.finite_iff] at h hf
  rw [Double.finite_iff] at hf
  obtain ⟨h1, h2⟩ := Ext.finite_add hf.1 hf.2
  rw [Double.value_eq, Double.value_eq x, Double.value_eq y, ← h2]
  exact round_value h1 h

private theorem isDouble_twice {a : ℚ} (h : IsDouble a) (h1 : |a| ≤ 1) : IsDouble (a + a) := by
  obtain ⟨m, e, hm, he1, he2, rfl⟩ := h
  rcases lt_or_eq_of_le he2 with he | rfl
  · refine ⟨m, e + 1, hm, by omega, by omega, ?_⟩
    rw [two_zpow_add, zpow_one]
    ring
  · have h2 : m = 0 := by
      by_contra h0
      have h3 : (1 : ℚ) ≤ |(m : ℚ)| := by exact_mod_cast Int.one_le_abs h0
      rw [abs_mul, abs_of_pos (two_zpow_pos _)] at h1
      have h4 : (1 : ℚ) < 2 ^ (971 : ℤ) := one_lt_zpow₀ (by norm_num) (by norm_num)
      have h5 := mul_le_mul_of_nonneg_right h3 (two_zpow_pos 971).le
      rw [one_mul] at h5
      exact absurd (h4.trans_le h5) (not_lt.2 h1)
    rw [h2, Int.cast_zero, zero_mul, add_zero]
    exact isDouble_zero

/-- From two summands on the sum is at least twice as large as the number. -/
private theorem addUp_grows {a : Double} (ha : |a.value| ≤ 1) (r : Nat) (h : (addUp (r + 2) a).finite) :
    (0 ≤ a.value → a.value + a.value ≤ (addUp (r + 2) a).value) ∧
      (a.value ≤ 0 → (addUp (r + 2) a).value ≤ a.value + a.value) := by
  induction r with
  | zero =>
    rw [addUp_succ] at h ⊢
    obtain ⟨h1, -, h2⟩ := add_fin h
    rw [h2]
    rw [addUp_succ] at h1
    obtain ⟨-, -, h3⟩ := add_fin h1
    have h4 : (addUp 1 a).value = a.value := by
      refine h3.trans ?_
      show roundNum (0 + a.value) = _
      rw [zero_add]
      exact roundNum_exact (Double.isDouble_value a)
    rw [h4, roundNum_exact (isDouble_twice (Double.isDouble_value a) ha)]
    exact ⟨fun _ => le_refl _, fun _ => le_refl _⟩
  | succ r ih =>
    rw [addUp_succ] at h ⊢
    obtain ⟨h1, -, h2⟩ := add_fin h
    rw [h2]
    have hd := Double.isDouble_value (addUp (r + 2) a)
    exact ⟨fun h0 => ((ih h1).1 h0).trans (le_roundNum_of_le hd (by linarith)),
      fun h0 => (roundNum_le_of_le hd (by linarith)).trans ((ih h1).2 h0)⟩

/-- `small` where the difference is a double. -/
private theorem small_diff {t x y d : Double} (hx : x.finite) (hy : y.finite) (hd : d.finite)
    (h : |x.value - y.value| = |d.value|) : Double.small t x y = true ↔ |d.value| < t.value := by
  constructor
  · intro hs
    rw [← h]
    exact (C104_sound t x y hs).2.2
  · intro hs
    have hs' : ∃ s : Double, s.value = |d.value| := by
      rcases abs_choice d.value with h1 | h1
      · exact ⟨d, h1.symm⟩
      · have hm := le_maxDouble (Double.isDouble_value d)
        have h2 := (Double.sub_value (x := Double.zero) (y := d) trivial hd (by
          rw [Double.zero_value, zero_sub, abs_neg]; exact hm)).2
        rw [Double.zero_value, zero_sub, roundNum_exact (isDouble_neg (Double.isDouble_value d))] at h2
        exact ⟨_, h2.trans h1.symm⟩
    obtain ⟨s, hs'⟩ := hs'
    exact C104_complete t x y s hx hy (by rw [h, hs']) (by rw [hs']; exact hs)

private theorem zero_close {a : Double} (ha : a.finite) :
    Double.small (Double.lit 1 10) Double.zero a = true ↔ Tiny a :=
  small_diff trivial ha ha (by rw [Double.zero_value, zero_sub, abs_neg])

private theorem self_close {a : Double} (ha : a.finite) : Double.small (Double.lit 1 10) a a = true :=
  (small_diff (d := Double.zero) ha ha trivial (by rw [sub_self, Double.zero_value])).2
    (by rw [Double.zero_value, abs_zero]; decide +kernel)

private theorem addUp_one {a : Double} (ha : Drawn a) : addUp 1 a = a := by
  apply Subtype.ext
  show Ext.round (Ext.add (.zero false) a.1) = a.1
  obtain ⟨⟨x, h1⟩, hf, hz⟩ := a, ha
  cases x with
  | nan => exact absurd hf id
  | inf => exact absurd hf id
  | zero s =>
    cases s with
    | true => exact absurd rfl hz
    | false => rfl
  | num q => exact Ext.round_exact h1

private theorem addUp_close {a : Double} (ha : a.finite) (h1 : |a.value| ≤ 1) (r : Nat) (hr : r ≠ 1)
    (h : Double.small (Double.lit 1 10) (addUp r a) a = true) : Tiny a := by
  match r, hr with
  | 0, _ => exact (zero_close ha).1 h
  | r + 2, _ =>
    obtain ⟨hf, -, h2⟩ := C104_sound _ _ _ h
    obtain ⟨h3, h4⟩ := addUp_grows h1 r hf
    refine lt_of_le_of_lt ?_ h2
    rcases le_total 0 a.value with h0 | h0
    · rw [abs_of_nonneg h0]
      exact le_trans (by linarith [h3 h0]) (le_abs_self _)
    · rw [abs_of_nonpos h0]
      exact le_trans (by linarith [h4 h0]) (neg_le_abs _)

private theorem addUp_two {a : Double} (ha : Drawn a) (h1 : |a.value| ≤ 1) :
    Double.small (Double.lit 1 10) (addUp 2 a) a = true ↔ Tiny a := by
  rw [addUp_succ, addUp_one ha]
  have hm : |a.value + a.value| ≤ maxDouble := by
    refine (abs_add_le _ _).trans ((add_le_add h1 h1).trans ?_)
    exact le_trans (by decide +kernel : (1 + 1 : ℚ) ≤ |2|) (le_maxDouble (isDouble_nat (n := 2) (by norm_num)))
  obtain ⟨h2, h3⟩ := Double.add_value ha.1 ha.1 hm
  refine small_diff h2 ha.1 ha.1 ?_
  rw [h3, roundNum_exact (isDouble_twice (Double.isDouble_value a) h1), add_sub_cancel_right]

/-- **C116.** `combined` with a number of repetitions other than 1 passes the check only if all numbers
of `A` are below the tolerance; with 0 and 2 repetitions this is also sufficient. -/
theorem C116_combined_noticed (fuse : Double → Double → Double → Bool) (e : Driver.Env Double)
    (hone : e.one = Double.lit 1 0) (hrand : ∀ p, Drawn (e.rand p) ∧ |(e.rand p).value| ≤ 1)
    (hclose : e.close = Double.small (Double.lit 1 10)) (hroot : e.root = true) (o : Driver.Opts)
    (hh : o.help = false) (hc : o.check = true) (ha : o.algorithm = "combined")
    (ht : o.transposed = false) (hr : o.repetitions ≠ 1) (rep : Driver.Report Double)
    (h : @Driver.main Double (Double.arith fuse) e o (.ok rep)) :
    (rep.check = some true → ∀ p, p < o.N * o.N → Tiny (e.rand p)) ∧
      (o.repetitions ≤ 2 → (rep.check = some true ↔ ∀ p, p < o.N * o.N → Tiny (e.rand p))) := by
  obtain ⟨b, h1, h2⟩ := C116_combined fuse e hone (fun p => (hrand p).1) hroot o hh hc ha ht
  rw [h1] at h
  obtain rfl := Except.ok.inj h
  have hp : ∀ P : Double → Prop, (∀ i, i < o.N → ∀ j, j < o.N → P (e.rand (i * o.N + j))) ↔
      ∀ p, p < o.N * o.N → P (e.rand p) := by
    intro P
    constructor
    · intro h p hp
      have hN : 0 < o.N := Nat.pos_of_ne_zero fun h0 => by rw [h0] at hp; omega
      have := h _ (Nat.div_lt_of_lt_mul hp) _ (Nat.mod_lt p hN)
      rwa [Nat.div_add_mod' p o.N] at this
    · exact fun h i hi j hj => h _ (idx_lt hi hj)
  rw [hclose] at h2
  have hb : (some b = some true) ↔ b = true := ⟨Option.some.inj, congrArg some⟩
  refine ⟨fun ht p hp' => ?_, fun hr2 => ?_⟩
  · have := (hp fun x => Double.small (Double.lit 1 10) (addUp o.repetitions x) x = true).1 (h2.1 (hb.1 ht)) p hp'
    exact addUp_close (hrand p).1.1 (hrand p).2 _ hr this
  · refine hb.trans (h2.trans ?_)
    rw [hp fun x => Double.small (Double.lit 1 10) (addUp o.repetitions x) x = true]
    refine forall_congr' fun p => imp_congr_right fun _ => ?_
    have h02 : o.repetitions = 0 ∨ o.repetitions = 2 := by omega
    rcases h02 with h0 | h0 <;> rw [h0]
    · exact zero_close (hrand p).1.1
    · exact addUp_two (hrand p).1 (hrand p).2

/-- **C116.** A zero in the place of a number that is not below the tolerance makes the check fail,
whatever the algorithm. -/
theorem C116_zero (fuse : Double → Double → Double → Bool) (e : Driver.Env Double)
    (hone : e.one = Double.lit 1 0) (hrand : ∀ p, Drawn (e.rand p))
    (hclose : e.close = Double.small (Double.lit 1 10)) (hroot : e.root = true) (o : Driver.Opts)
    (hh : o.help = false) (hc : o.check = true) (hn : o.algorithm ∈ Driver.names)
    (rep : Driver.Report Double) (h : @Driver.main Double (Double.arith fuse) e o (.ok rep))
    (i j : Nat) (hi : i < o.N) (hj : j < o.N) (hz : rep.C[i * o.N + j]? = some Double.zero)
    (ht : ¬ Tiny (e.rand (i * o.N + j))) : rep.check = some false := by
  refine C104_driver_failed fuse e hone hrand hclose hroot o hh hc hn rep h i j hi hj _ hz (.inr ?_)
  rw [Double.zero_value, zero_sub, abs_neg]
  exact not_lt.1 ht

/-- **C116.** `single` with a size that cannot be halved without remainder down to `block_result`, for
instance an odd one above it: the check fails unless the last number of `A` is below the tolerance. -/
theorem C116_single_remainder (fuse : Double → Double → Double → Bool) (e : Driver.Env Double)
    (hone : e.one = Double.lit 1 0) (hrand : ∀ p, Drawn (e.rand p))
    (hclose : e.close = Double.small (Double.lit 1 10)) (hroot : e.root = true) (o : Driver.Opts)
    (hh : o.help = false) (hc : o.check = true) (ha : o.algorithm = "single") (hr : 1 ≤ o.repetitions)
    (hN : 0 < o.N) (hbr : ¬ HalvesTo o.block_result o.N) (rep : Driver.Report Double)
    (h : @Driver.main Double (Double.arith fuse) e o (.ok rep)) (ht : ¬ Tiny (e.rand (o.N * o.N - 1))) :
    rep.check = some false := by
  have hp := ((@C50_returns Double (Double.arith fuse) e o _ hh
    (@Driver.Requested.single Double (Double.arith fuse) e o ha hr) rep).1 h).1
  have hi : (o.N - 1) * o.N + (o.N - 1) = o.N * o.N - 1 := by
    have : (o.N - 1) * o.N + o.N = o.N * o.N := by
      rw [← Nat.succ_mul]
      congr 1
      omega
    omega
  have hz : rep.C[o.N * o.N - 1]? = some Double.zero := by
    let _ := Double.arith fuse
    by_cases hl : LeafIn o.N o.transposed o.block_input (leafSize o.block_result o.N)
        (extent o.block_result o.N) (extent o.block_result o.N)
    · rw [C107_single o.N (Driver.vecA e o.N) (Driver.vecB e o.N) (Driver.entryA e o.N) (Driver.entryB e) _ _ _ _ (holds_rect _ _ _)
        (holds_rect _ _ _) hl hr] at hp
      rw [Except.ok.inj hp]
      have hlt : o.N * o.N - 1 < o.N * o.N := Nat.sub_lt (Nat.mul_pos hN hN) Nat.one_pos
      unfold spread
      rw [Array.getElem?_ofFn, dif_pos hlt]
      dsimp only
      rw [(C107_source o.block_result o.N).2.2.2.1 hN hbr]
      rfl
    · rw [C107_single_ub o.N (Driver.vecA e o.N) (Driver.vecB e o.N) _ _ _ _ (rect_size _ _ _) (rect_size _ _ _) hl hr] at hp
      cases hp
  exact C116_zero fuse e hone hrand hclose hroot o hh hc (by rw [ha]; decide) rep h (o.N - 1) (o.N - 1)
    (by omega) (by omega) (by rw [hi]; exact hz) (by rw [hi]; exact ht)

/-- **C116.** `pseudodynamic` with an odd size that is distributed: the check fails unless the whole
last row and the whole last column of `A` are below the tolerance. -/
theorem C116_pseudodynamic_odd (fuse : Double → Double → Double → Bool) (e : Driver.Env Double)
    (hone : e.one = Double.lit 1 0) (hrand : ∀ p, Drawn (e.rand p))
    (hclose : e.close = Double.small (Double.lit 1 10)) (hroot : e.root = true) (o : Driver.Opts)
    (hh : o.help = false) (hc : o.check = true) (ha : o.algorithm = "pseudodynamic")
    (hodd : o.N % 2 = 1) (hN63 : o.N * o.N < 2 ^ 63) (hmin : o.min_work_size < o.N)
    (hdiff : o.max_work_difference ≤ o.N * o.N) (hL : 3 ≤ e.localities) (rep : Driver.Report Double)
    (h : @Driver.main Double (Double.arith fuse) e o (.ok rep)) (i j : Nat) (hi : i < o.N) (hj : j < o.N)
    (hl : i = o.N - 1 ∨ j = o.N - 1) (ht : ¬ Tiny (e.rand (i * o.N + j))) : rep.check = some false := by
  have hp := ((@C50_returns Double (Double.arith fuse) e o _ hh
    (@Driver.Requested.pseudodynamic Double (Double.arith fuse) e o ha) rep).1 h).1
  have hz := fun k hk => @C93_odd_split Double (Double.arith fuse) _ o.N _ hodd hN63 hmin hdiff hL _ _ _ _ _ _ _ hp
    k hk
  refine C116_zero fuse e hone hrand hclose hroot o hh hc (by rw [ha]; decide) rep h i j hi hj ?_ ht
  rcases hl with rfl | rfl
  · exact (hz j hj).1
  · exact (hz i hi).2

/-- **C116.** `looped` with a dividing `block_result`: the result is `A` bit for bit except for zeros in
the last `N % block_input` columns, and the check passes exactly if `A` is below the tolerance there. -/
theorem C116_looped (fuse : Double → Double → Double → Bool) (e : Driver.Env Double)
    (hone : e.one = Double.lit 1 0) (hrand : ∀ p, Drawn (e.rand p))
    (hclose : e.close = Double.small (Double.lit 1 10)) (hroot : e.root = true) (o : Driver.Opts)
    (hh : o.help = false) (hc : o.check = true) (ha : o.algorithm = "looped") (ht : o.transposed = true)
    (hbr : 0 < o.block_result) (hbi : 0 < o.block_input) (hd : o.block_result ∣ o.N) :
    ∃ b, @Driver.main Double (Double.arith fuse) e o = ND.pure ⟨0, false, some b, rowMajor o.N fun i j =>
        if j < o.N - o.N % o.block_input then e.rand (i * o.N + j) else Double.zero⟩ ∧
      (b = true ↔ ∀ i, i < o.N → ∀ j, o.N - o.N % o.block_input ≤ j → j < o.N →
        Tiny (e.rand (i * o.N + j))) := by
  let _ := Double.arith fuse
  have hP : ND.ofM (Looped.matrix_multiply o.N (Driver.vecA e o.N) (Driver.vecB e o.N) o.block_result
      o.block_input) = ND.pure (rowMajor o.N fun i j =>
        if j < o.N - o.N % o.block_input then e.rand (i * o.N + j) else Double.zero) := by
    rw [C109_looped o.N (Driver.vecA e o.N) (Driver.vecB e o.N) (Driver.entryA e o.N) (Driver.entryB e)
      (holds_rect _ _ _) (holds_rect _ _ _) (by simp [Driver.vecA, rect]) _ _ hbr hbi, if_pos hd, ND.ofM_ok]
    refine congrArg ND.pure (rect_congr fun i hi j hj => ?_)
    have := (unit_row (C97_identity fuse e hone hrand) o.N i j).dot_shift
      (g := Driver.entryB e j) (fun k => by simp only [Driver.entryB, eq_comm]) 0 (o.N - o.N % o.block_input)
    simp only [Nat.zero_add, Nat.zero_le, true_and] at this
    exact this
  obtain ⟨b, h1, h2⟩ := run_checked hone hrand hroot hh hc (@Driver.Requested.looped Double _ e o ha ht) hP
  refine ⟨b, h1, h2.trans ?_⟩
  rw [hclose]
  constructor
  · intro h i hi j hj1 hj2
    have := h i hi j hj2
    rw [if_neg (by omega)] at this
    exact (zero_close (hrand _).1).1 this
  · intro h i hi j hj
    by_cases hj1 : j < o.N - o.N % o.block_input
    · rw [if_pos hj1]
      exact self_close (hrand _).1
    · rw [if_neg hj1]
      exact (zero_close (hrand _).1).2 (h i hi j (by omega) hj)

/-- **C116.** `single` with `--block-result=0`: the result is the zero matrix, and the check passes
exactly if all numbers of `A` are below the tolerance. -/
theorem C116_block_result_zero (fuse : Double → Double → Double → Bool) (e : Driver.Env Double)
    (hone : e.one = Double.lit 1 0) (hrand : ∀ p, Drawn (e.rand p))
    (hclose : e.close = Double.small (Double.lit 1 10)) (hroot : e.root = true) (o : Driver.Opts)
    (hh : o.help = false) (hc : o.check = true) (ha : o.algorithm = "single") (hr : 1 ≤ o.repetitions)
    (hb : o.block_result = 0) :
    ∃ b, @Driver.main Double (Double.arith fuse) e o =
        ND.pure ⟨0, false, some b, rowMajor o.N fun _ _ => Double.zero⟩ ∧
      (b = true ↔ ∀ p, p < o.N * o.N → Tiny (e.rand p)) := by
  obtain ⟨b, h1, h2⟩ := @C83_block_result_zero Double (Double.arith fuse) e (C97_identity fuse e hone hrand) o hh ha
    hr hb hroot hc
  refine ⟨b, h1, h2.trans (forall_congr' fun p => imp_congr_right fun _ => ?_)⟩
  rw [hclose]
  exact zero_close (hrand p).1

section Examples

/-- 0.1, 0.2, … -/
private def env : Driver.Env Double where
  one := Double.lit 1 0
  rand p := sampleNumbers (p + 1)
  close := Double.small (Double.lit 1 10)
  absDiff x y := Double.sub x y
  root := true
  localities := 3
  relOk _ _ := false
  junk _ := #[]

private theorem env_drawn (p : Nat) : Drawn (env.rand p) ∧ |(env.rand p).value| ≤ 1 :=
  ⟨sampleNumbers_drawn _, (sampleNumbers_ok _).2⟩

private theorem not_tiny (p : Nat) (h : (p + 1) % 10 = 1 ∨ (p + 1) % 10 = 5 ∨ (p + 1) % 10 = 9) :
    ¬ Tiny (env.rand p) := by
  show ¬ |(Double.lit ((p + 1) % 10 : Nat) 1).value| < _
  rcases h with h | h | h <;> rw [h] <;> decide +kernel

/-- numbers below the tolerance -/
private def faint : Driver.Env Double := { env with rand := fun _ => Double.lit 1 11 }

private theorem faint_drawn (p : Nat) : Drawn (faint.rand p) ∧ |(faint.rand p).value| ≤ 1 := by
  have h : Drawn (Double.lit 1 11) ∧ |(Double.lit 1 11).value| ≤ 1 :=
    ⟨⟨by decide +kernel, by decide +kernel⟩, by decide +kernel⟩
  exact h

-- 0.1 added up three times is not three times 0.1
example : addUp 3 (Double.lit 1 1) ≠ Double.lit 3 1 := by
  intro h
  exact absurd (congrArg Subtype.val h) (by decide +kernel)

-- C116_combined, C116_combined_noticed: two repetitions are noticed, not so if the numbers are tiny
example : ∃ C, @Driver.main Double (Double.arith fun _ _ _ => true) env
    { N := 2, check := true, algorithm := "combined", transposed := false, repetitions := 3 } =
      ND.pure ⟨0, false, some false, C⟩ := by
  obtain ⟨b, h, -⟩ := C116_combined (fun _ _ _ => true) env rfl (fun p => (env_drawn p).1) rfl
    { N := 2, check := true, algorithm := "combined", transposed := false, repetitions := 3 } rfl rfl rfl rfl
  have := C116_combined_noticed (fun _ _ _ => true) env rfl env_drawn rfl rfl
    { N := 2, check := true, algorithm := "combined", transposed := false, repetitions := 3 } rfl rfl rfl rfl
    (show 3 ≠ 1 by decide) _ (by rw [h]; exact rfl)
  cases b with
  | false => exact ⟨_, h⟩
  | true => exact absurd (this.1 rfl 0 (show 0 < 2 * 2 by decide)) (not_tiny 0 (.inl rfl))

example : ∃ C, @Driver.main Double (Double.arith fun _ _ _ => true) faint
    { N := 2, check := true, algorithm := "combined", transposed := false, repetitions := 2 } =
      ND.pure ⟨0, false, some true, C⟩ := by
  obtain ⟨b, h, -⟩ := C116_combined (fun _ _ _ => true) faint rfl (fun p => (faint_drawn p).1) rfl
    { N := 2, check := true, algorithm := "combined", transposed := false, repetitions := 2 } rfl rfl rfl rfl
  have := C116_combined_noticed (fun _ _ _ => true) faint rfl faint_drawn rfl rfl
    { N := 2, check := true, algorithm := "combined", transposed := false, repetitions := 2 } rfl rfl rfl rfl
    (show 2 ≠ 1 by decide) _ (by rw [h]; exact rfl)
  have hb : some b = some true := (this.2 (Nat.le_refl 2)).2 fun p _ =>
    (show |(Double.lit 1 11).value| < (Double.lit 1 10).value by decide +kernel)
  rw [Option.some.inj hb] at h
  exact ⟨_, h⟩

-- C116_single_remainder, C116_zero: N = 3 (the last number is 0.9), and every outcome is a normal end
example : ∃ C, @Driver.main Double (Double.arith fun _ _ _ => false) env
      { N := 3, check := true, block_result := 2, transposed := false } =
    ND.pure ⟨0, false, some false, C⟩ := by
  have hfin := @driver_requested Double (Double.arith fun _ _ _ => false) env
      { N := 3, check := true, block_result := 2, transposed := false } _ rfl
    (@Driver.Requested.single Double (Double.arith fun _ _ _ => false) env
      { N := 3, check := true, block_result := 2, transposed := false } rfl (Nat.le_refl 1))
  have hrun := @C107_single Double (Double.arith fun _ _ _ => false) 3 (Driver.vecA env 3)
    (@Driver.vecB Double (Double.arith fun _ _ _ => false) env 3) _ _ false 2 128 1 (holds_rect _ _ _)
    (holds_rect _ _ _) (fun h => by cases h) (by decide)
  have hfin := hfin.trans ((congrArg (· >>= _) hrun).trans (ND.pure_bind _ _))
  unfold Driver.finish at hfin
  rw [if_neg (by decide)] at hfin
  have hodd : ¬ HalvesTo 2 3 := by
    rintro ⟨e, s, h1, h2, -⟩
    rcases e with _ | e
    · omega
    · have h3 : 2 ∣ 3 := h1 ▸ (Dvd.intro_left (2 ^ e) rfl).mul_right s
      omega
  have := C116_single_remainder (fun _ _ _ => false) env rfl (fun p => (env_drawn p).1) rfl rfl
    { N := 3, check := true, block_result := 2, transposed := false } rfl rfl rfl (Nat.le_refl 1)
    (show 0 < 3 by decide) hodd _ (by rw [hfin]; exact rfl) (not_tiny 8 (.inr (.inr rfl)))
  dsimp only at this
  rw [this] at hfin
  exact ⟨_, hfin⟩

private def oddOpts : Driver.Opts :=
  { N := 3, check := true, algorithm := "pseudodynamic", min_work_size := 1, max_work_difference := 0,
    transposed := false }

-- C116_pseudodynamic_odd: three localities, N = 3, entry (2, 2); the program can end normally
example : ∃ rep, @Driver.main Double (Double.arith fun _ _ _ => false) env oddOpts (.ok rep) ∧
    rep.check = some false := by
  obtain ⟨r, h1, h2⟩ := @C94_pseudodynamic Double (Double.arith fun _ _ _ => false) ⟨1, 0, fun _ _ => false⟩ 3
    (Driver.vecA env 3) (@Driver.vecB Double (Double.arith fun _ _ _ => false) env 3) false 128 128 1 3 (by omega)
  obtain ⟨C, rfl, _⟩ := h2 rfl
  have hf : ∃ rep, @Driver.finish Double (Double.arith fun _ _ _ => false) env oddOpts C (.ok rep) := by
    unfold Driver.finish
    rw [if_neg (fun h => absurd h.1 (by decide))]
    exact ⟨_, rfl⟩
  obtain ⟨rep, hf⟩ := hf
  have h : @Driver.main Double (Double.arith fun _ _ _ => false) env oddOpts (.ok rep) := by
    rw [@driver_requested Double (Double.arith fun _ _ _ => false) env oddOpts _ rfl
      (@Driver.Requested.pseudodynamic Double (Double.arith fun _ _ _ => false) env oddOpts rfl)]
    exact .inr ⟨C, (h1 (.ok C)).2 rfl, hf⟩
  exact ⟨rep, h, C116_pseudodynamic_odd _ env rfl (fun p => (env_drawn p).1) rfl rfl oddOpts
    rfl rfl rfl rfl (show 3 * 3 < 2 ^ 63 by decide) (show 1 < 3 by decide) (Nat.zero_le _) (Nat.le_refl 3) rep h
    2 2 (show 2 < 3 by decide) (show 2 < 3 by decide) (.inl rfl) (not_tiny 8 (.inr (.inr rfl)))⟩

-- C116_looped: N = 3, blocks of two columns
example : ∃ C, @Driver.main Double (Double.arith fun _ _ _ => false) env
    { N := 3, check := true, algorithm := "looped", block_result := 3, block_input := 2 } =
      ND.pure ⟨0, false, some false, C⟩ := by
  obtain ⟨b, h, hb⟩ := C116_looped (fun _ _ _ => false) env rfl (fun p => (env_drawn p).1) rfl rfl
    { N := 3, check := true, algorithm := "looped", block_result := 3, block_input := 2 } rfl rfl rfl rfl
    (show 0 < 3 by decide) (show 0 < 2 by decide) (Nat.dvd_refl 3)
  cases b with
  | false => exact ⟨_, h⟩
  | true =>
    exact absurd (hb.1 rfl 2 (show 2 < 3 by decide) 2 (show 3 - 3 % 2 ≤ 2 by decide) (show 2 < 3 by decide))
      (not_tiny 8 (.inr (.inr rfl)))

-- C116_block_result_zero
example : ∃ C, @Driver.main Double (Double.arith fun _ _ _ => false) env
    { N := 2, check := true, block_result := 0 } = ND.pure ⟨0, false, some false, C⟩ := by
  obtain ⟨b, h, hb⟩ := C116_block_result_zero (fun _ _ _ => false) env rfl (fun p => (env_drawn p).1) rfl rfl
    { N := 2, check := true, block_result := 0 } rfl rfl rfl (Nat.le_refl 1) rfl
  cases b with
  | false => exact ⟨_, h⟩
  | true => exact absurd (hb.1 rfl 0 (show 0 < 2 * 2 by decide)) (not_tiny 0 (.inl rfl))

end Examples

end Verif.Props
