import Verif.Proof.SameBits
import Verif.Props.Plan
/-
C128: which multiplications agree to the last bit.
-/
namespace Verif.Props
open Kernel IEEE SameBits

section General
variable {α : Type} [Arith α]

/-- **C128**, any arithmetic: `combined` with one repetition and `kernel_tiled` agree. -/
theorem C128_tiled (N : Nat) (A B : Array α) (a b : Nat → Nat → α) (hA : Holds A N N a)
    (hB : Holds B N N b) (t : Bool) (reps : Nat) (hr : 1 ≤ reps) :
    Combined.matrix_multiply Combined.blocking N A B 1 =
      KernelTiled.matrix_multiply KernelTiled.blocking N A B t reps := by
  rw [C35_combined _ Combined.valid N A B a b hA hB 1,
    C37_kernel_tiled _ KernelTiled.valid N A B a b hA hB t reps]
  refine congrArg _ (rect_congr fun i hi j hj => ?_)
  rw [if_neg (by omega)]
  rfl

/-- **C128**, any arithmetic: `algorithms`, `semi` and `single` with input blocks agree if they have
the same `block_input`. -/
theorem C128_blocked (N e s : Nat) (A Bt : Array α) (a b : Nat → Nat → α) (hA : Holds A N N a)
    (hB : Holds Bt N N (tr b)) (bi br br' reps : Nat) (hbi : 0 < bi) (hd : bi ∣ N) (hbr : 0 < br)
    (hdr : br ∣ N) (h4 : 4 ∣ s) (h0 : 0 < s) (hN : N = 2 ^ e * s) (hs : s ≤ br')
    (he : ∀ d, d < e → br' < 2 ^ (d + 1) * s) (hr : 0 < reps) :
    Algorithms.matrix_multiply N A Bt bi br = Semi.matrix_multiply N A Bt bi ∧
    Recursive.single_matrix_multiply N A Bt true br' bi reps = Semi.matrix_multiply N A Bt bi := by
  rw [C24_algorithms N A Bt a (tr b) hA hB bi br hbi hbr hd hdr,
    C32_semi N A Bt a (tr b) hA hB bi (hN ▸ Nat.dvd_trans h4 (Nat.dvd_mul_left _ _)) hbi hd,
    C10_single N e s A Bt a _ true br' bi reps hA hB hN hs he (fun _ _ _ => ⟨h4, hd⟩) hr]
  refine ⟨rfl, congrArg _ (rect_congr fun i hi j hj => ?_)⟩
  have := Nat.le_of_dvd h0 h4
  unfold submatrixEntry
  rw [if_neg (by decide), if_neg (by omega)]

/-- **C128**, any arithmetic: the naive multiplication, `looped` and `single` without input blocks
agree, in both layouts of the second matrix. -/
theorem C128_unblocked (N e s : Nat) (A B Bt : Array α) (a b : Nat → Nat → α) (hA : Holds A N N a)
    (hB : Holds B N N b) (hBt : Holds Bt N N (tr b)) (bi br br' bi' reps : Nat) (hbi : 0 < bi)
    (hd : bi ∣ N) (hbr : 0 < br) (hdr : br ∣ N) (hN : N = 2 ^ e * s) (hs : s ≤ br')
    (he : ∀ d, d < e → br' < 2 ^ (d + 1) * s) (hr : 0 < reps) (P : ND (Array α))
    (hP : P ∈ [Naive.naive_matrix_multiply_transposed N A Bt,
      ND.ofM (Looped.matrix_multiply N A Bt br bi),
      Recursive.single_matrix_multiply N A B false br' bi' reps,
      Recursive.single_matrix_multiply N A Bt true br' 0 reps]) :
    P = Naive.naive_matrix_multiply N A B := by
  rw [C01_naive N A B a b hA hB]
  simp only [List.mem_cons, List.not_mem_nil, or_false] at hP
  rcases hP with rfl | rfl | rfl | rfl
  · exact C02_naive_transposed N A Bt a (tr b) hA hBt
  · exact congrArg ND.ofM (C26_looped N A Bt a (tr b) hA hBt br bi hbr hbi hdr hd).1
  · exact C10_single N e s A B a b false br' bi' reps hA hB hN hs he (fun h => by cases h) hr
  · exact C10_single N e s A Bt a (tr b) true br' 0 reps hA hBt hN hs he (fun _ h => absurd rfl h) hr

private theorem combined_one (N : Nat) (A B : Array α) (a b : Nat → Nat → α) (hA : Holds A N N a)
    (hB : Holds B N N b) : Combined.matrix_multiply Combined.blocking N A B 1 =
      ND.pure (rowMajor N fun i j => bdot 64 (ceilDiv N 256 * 4) (fun k => Tiled.pad N a i k)
        fun k => Tiled.pad N b k j) := by
  rw [C35_combined _ Combined.valid N A B a b hA hB 1,
    show Combined.blocking.L3_K_STEP = 256 from rfl, show Combined.blocking.L1_K_STEP = 64 from rfl,
    show ceilDiv N 256 * 256 / 64 = ceilDiv N 256 * 4 by omega]
  rfl

private theorem dot_pad {N i j : Nat} (hi : i < N) (hj : j < N) (a b : Nat → Nat → α) :
    dot N (fun k => Tiled.pad N a i k) (fun k => Tiled.pad N b k j) =
      dot N (a i) fun k => b k j := by
  unfold dot dotFrom
  refine List.foldl_ext _ _ _ fun s k hk => ?_
  rw [List.mem_range] at hk
  simp only [Tiled.pad, hi, hj, hk, and_self, if_true]

private theorem holds_of_size {N : Nat} {A : Array α} (h : A.size = N * N) :
    ∃ a : Nat → Nat → α, Holds A N N a := by
  refine ⟨fun i j => (A[i * N + j]?).getD Arith.zero, fun i hi j hj => ?_⟩
  have := idx_lt hi hj
  simp [Array.getElem?_eq_getElem (show i * N + j < A.size by omega)]

end General

/-! ### doubles -/

variable (fuse : Double → Double → Double → Bool)

private theorem pad_x {N bs : Nat} (hN : bs + 2 ≤ N) {i : Nat} (hi : i < N) :
    (fun k => @Tiled.pad Double (Double.arith fuse) N (fun _ k => xRow bs k) i k) = xRow bs := by
  funext k
  unfold Tiled.pad
  split
  · rfl
  · unfold xRow
    rw [if_neg (by omega), if_neg (by omega)]
    exact (Double.ofInt_zero 0).symm

private theorem pad_one {N bs : Nat} (hN : bs + 2 ≤ N) {j : Nat} (hj : j < N) :
    Ones bs fun k => @Tiled.pad Double (Double.arith fuse) N (fun _ _ => one) k j := by
  intro k
  unfold Tiled.pad
  by_cases h : k < N ∧ j < N
  · left; exact if_pos h
  · right; exact ⟨if_neg h, by omega, by omega, by omega⟩

private theorem ones (bs : Nat) : Ones bs fun _ => one := fun _ => .inl rfl

private theorem pure_ne {N : Nat} (hN : 0 < N) : (ND.pure (rowMajor N fun _ _ =>
    Double.ofInt 0 (2 ^ 53 + 2)) : ND (Array Double)) ≠
      ND.pure (rowMajor N fun _ _ => Double.ofInt 0 (2 ^ 53)) := by
  intro h
  have h := congrArg (fun C : Array Double => C[0 * N + 0]?) (pure_inj h)
  beta_reduce at h
  rw [holds_rect N N _ 0 hN 0 hN, holds_rect N N _ 0 hN 0 hN] at h
  exact x_ne (Option.some.inj h).symm

/-- **C128.** From size 66 on there are matrices of doubles for which the blocked sums of `combined`
and `kernel_tiled` differ from the naive multiplication in every entry. -/
theorem C128_tiled_differs (N : Nat) (hN : 66 ≤ N) :
    Double.ofInt 0 (2 ^ 53 + 2) ≠ Double.ofInt 0 (2 ^ 53) ∧
    ∃ A B : Array Double, A.size = N * N ∧ B.size = N * N ∧
      @Naive.naive_matrix_multiply Double (Double.arith fuse) N A B =
        ND.pure (rowMajor N fun _ _ => Double.ofInt 0 (2 ^ 53)) ∧
      @Combined.matrix_multiply Double (Double.arith fuse) Combined.blocking N A B 1 =
        ND.pure (rowMajor N fun _ _ => Double.ofInt 0 (2 ^ 53 + 2)) ∧
      ∀ t reps, 1 ≤ reps →
        @KernelTiled.matrix_multiply Double (Double.arith fuse) KernelTiled.blocking N A B t reps =
          ND.pure (rowMajor N fun _ _ => Double.ofInt 0 (2 ^ 53 + 2)) := by
  let _ := Double.arith fuse
  have hA := holds_rect N N fun (_ k : Nat) => xRow 64 k
  have hB := holds_rect N N fun (_ _ : Nat) => one
  have h1 : Combined.matrix_multiply Combined.blocking N (rowMajor N fun _ k => xRow 64 k)
      (rowMajor N fun _ _ => one) 1 = ND.pure (rowMajor N fun _ _ => Double.ofInt 0 (2 ^ 53 + 2)) := by
    have hb : 2 ≤ ceilDiv N 256 * 4 := by unfold ceilDiv; omega
    rw [combined_one N _ _ _ _ hA hB]
    refine congrArg _ (rect_congr fun i hi j hj => ?_)
    rw [pad_x fuse (bs := 64) hN hi]
    exact bdot_x fuse 64 _ (by decide) hb _ (pad_one fuse hN hj)
  refine ⟨x_ne.symm, _, _, rect_size .., rect_size .., ?_, h1, fun t reps hr => ?_⟩
  · rw [C01_naive N _ _ _ _ hA hB]
    exact congrArg _ (rect_congr fun i hi j hj => dot_x fuse 64 N (by omega) _ (ones 64))
  · rw [← C128_tiled N _ _ _ _ hA hB t reps hr, h1]

private theorem small_eq {N : Nat} (hN : N ≤ 65) (a b : Nat → Nat → Double) {i j : Nat} (hi : i < N)
    (hj : j < N) :
    @bdot Double (Double.arith plain) 64 (ceilDiv N 256 * 4)
      (fun k => @Tiled.pad Double (Double.arith plain) N a i k)
      (fun k => @Tiled.pad Double (Double.arith plain) N b k j) =
    @dot Double (Double.arith plain) N (a i) fun k => b k j := by
  let _ := Double.arith plain
  have h0 : ∀ k, N ≤ k →
      Double.mul (Tiled.pad N a i k) (Tiled.pad N b k j) = Double.zero := by
    intro k hk
    have h1 : Tiled.pad N a i k = Double.zero := if_neg (by omega)
    have h2 : Tiled.pad N b k j = Double.zero := if_neg (by omega)
    rw [h1, h2]
    exact Subtype.ext (by decide +kernel)
  have e : ceilDiv N 256 * 4 = 2 + 2 := by unfold ceilDiv; omega
  rw [e, bdot_first 64 2 (by decide) (fun k => Tiled.pad N a i k) (fun k => Tiled.pad N b k j)
    fun k hk => h0 k (by omega),
    dot_tail N (64 + 1) (by omega) (fun k => Tiled.pad N a i k) (fun k => Tiled.pad N b k j)
    fun k hk _ => h0 k hk]
  exact dot_pad hi hj a b

/-- **C128.** Without fused operations `combined` (one repetition) returns the same doubles as the
naive multiplication for all matrices exactly up to size 65. -/
theorem C128_combined_iff (N : Nat) :
    (∀ A B : Array Double, A.size = N * N → B.size = N * N →
      @Combined.matrix_multiply Double (Double.arith plain) Combined.blocking N A B 1 =
        @Naive.naive_matrix_multiply Double (Double.arith plain) N A B) ↔ N ≤ 65 := by
  let _ := Double.arith plain
  constructor
  · intro h
    apply Classical.byContradiction
    intro hN
    obtain ⟨_, A, B, hA, hB, h1, h2, _⟩ := C128_tiled_differs plain N (by omega)
    have := h A B hA hB
    rw [h1, h2] at this
    exact pure_ne (by omega) this
  · intro hN A B hA hB
    obtain ⟨a, ha⟩ := holds_of_size hA
    obtain ⟨b, hb⟩ := holds_of_size hB
    rw [combined_one N A B a b ha hb, C01_naive N A B a b ha hb]
    exact congrArg _ (rect_congr fun i hi j hj => small_eq hN a b hi hj)

/-- **C128.** The same for `kernel_tiled`. -/
theorem C128_kernel_tiled_iff (N : Nat) (t : Bool) (reps : Nat) (hr : 1 ≤ reps) :
    (∀ A B : Array Double, A.size = N * N → B.size = N * N →
      @KernelTiled.matrix_multiply Double (Double.arith plain) KernelTiled.blocking N A B t reps =
        @Naive.naive_matrix_multiply Double (Double.arith plain) N A B) ↔ N ≤ 65 := by
  let _ := Double.arith plain
  rw [← C128_combined_iff]
  refine forall_congr' fun A => forall_congr' fun B => forall_congr' fun hA => forall_congr' fun hB => ?_
  obtain ⟨a, ha⟩ := holds_of_size hA
  obtain ⟨b, hb⟩ := holds_of_size hB
  rw [C128_tiled N A B a b ha hb t reps hr]

/-- **C128.** With fused operations, up to size 64: the only difference is that the naive
multiplication may return a negative zero where `combined` returns a positive one. -/
theorem C128_fused (N : Nat) (hN : N ≤ 64) (A B : Array Double) (a b : Nat → Nat → Double)
    (hA : Holds A N N a) (hB : Holds B N N b) :
    ∃ C C', @Naive.naive_matrix_multiply Double (Double.arith fuse) N A B = ND.pure C ∧
      @Combined.matrix_multiply Double (Double.arith fuse) Combined.blocking N A B 1 = ND.pure C' ∧
      ∀ i j, i < N → j < N → ∃ x y, C[i * N + j]? = some x ∧ C'[i * N + j]? = some y ∧
        (y = x ∨ x.1 = .zero true ∧ y.1 = .zero false) := by
  let _ := Double.arith fuse
  refine ⟨_, _, C01_naive N A B a b hA hB, combined_one N A B a b hA hB,
    fun i j hi hj => ⟨_, _, holds_rect N N _ i hi j hj, holds_rect N N _ i hi j hj, ?_⟩⟩
  have e : ceilDiv N 256 * 4 = 3 + 1 := by unfold ceilDiv; omega
  rw [e, bdot_padded fuse N 64 3 hN (fun k => Tiled.pad N a i k) (fun k => Tiled.pad N b k j)
    fun k hk => ⟨if_neg (by omega), if_neg (by omega)⟩, dot_pad hi hj a b]
  generalize (dot N (a i) fun k => b k j) = x
  by_cases h : x.1 = .zero true
  · right
    refine ⟨h, ?_⟩
    show Ext.round (Ext.add (.zero false) x.1) = _
    rw [h]
    rfl
  · exact .inl (zero_add' h)

/-! ### input blocks -/

private theorem bdot_iff {N bi : Nat} (hbi : 0 < bi) (hd : bi ∣ N) (P : Array Double → Array Double →
    ND (Array Double)) (hP : ∀ A Bt a b, Holds A N N a → Holds Bt N N b → P A Bt =
      ND.pure (rowMajor N fun i j => @bdot Double (Double.arith plain) bi (N / bi) (a i) (b j))) :
    (∀ A Bt : Array Double, A.size = N * N → Bt.size = N * N → P A Bt =
      @Naive.naive_matrix_multiply_transposed Double (Double.arith plain) N A Bt) ↔
    N = 0 ∨ bi = 1 ∨ bi = N := by
  let _ := Double.arith plain
  constructor
  · intro h
    apply Classical.byContradiction
    intro hn
    have hA := holds_rect N N fun (_ k : Nat) => xRow bi k
    have hB := holds_rect N N fun (_ _ : Nat) => one
    have hle := Nat.le_of_dvd (by omega) hd
    have := h (rowMajor N fun _ k => xRow bi k) (rowMajor N fun _ _ => one) (rect_size ..)
      (rect_size ..)
    rw [hP _ _ _ _ hA hB, C02_naive_transposed N _ _ _ _ hA hB] at this
    have h1 := bdot_x plain bi (N / bi) (by omega) (two_blocks (by omega) hd (by omega)) _ (ones bi)
    have h2 := dot_x plain bi N (by omega) _ (ones bi)
    rw [h1, h2] at this
    exact pure_ne (by omega) this
  · intro h A Bt hA hB
    obtain ⟨a, ha⟩ := holds_of_size hA
    obtain ⟨b, hb⟩ := holds_of_size hB
    rw [hP A Bt a b ha hb, C02_naive_transposed N A Bt a b ha hb]
    refine congrArg _ (rect_congr fun i hi j hj => ?_)
    rcases h with rfl | rfl | rfl
    · omega
    · rw [Nat.div_one]; exact bdot_ones N _ _
    · rw [Nat.div_self hbi]; exact bdot_one _ _ _

/-- **C128.** Without fused operations `algorithms` returns the same doubles as the naive
multiplication for all matrices exactly if its input blocks are single elements or whole rows. -/
theorem C128_algorithms_iff (N bi br : Nat) (hbi : 0 < bi) (hbr : 0 < br) (hdi : bi ∣ N)
    (hdr : br ∣ N) :
    (∀ A Bt : Array Double, A.size = N * N → Bt.size = N * N →
      @Algorithms.matrix_multiply Double (Double.arith plain) N A Bt bi br =
        @Naive.naive_matrix_multiply_transposed Double (Double.arith plain) N A Bt) ↔
    N = 0 ∨ bi = 1 ∨ bi = N :=
  let _ := Double.arith plain
  bdot_iff hbi hdi _ fun A Bt a b ha hb => C24_algorithms N A Bt a b ha hb bi br hbi hbr hdi hdr

/-- **C128.** The same for `semi`. -/
theorem C128_semi_iff (N bi : Nat) (h4 : 4 ∣ N) (hbi : 0 < bi) (hd : bi ∣ N) :
    (∀ A Bt : Array Double, A.size = N * N → Bt.size = N * N →
      @Semi.matrix_multiply Double (Double.arith plain) N A Bt bi =
        @Naive.naive_matrix_multiply_transposed Double (Double.arith plain) N A Bt) ↔
    N = 0 ∨ bi = 1 ∨ bi = N :=
  let _ := Double.arith plain
  bdot_iff hbi hd _ fun A Bt a b ha hb => C32_semi N A Bt a b ha hb bi h4 hbi hd

/-- **C128.** `kernel_test` never returns the same doubles as the naive multiplication for all
matrices of one of its safe sizes, except for the empty ones. -/
theorem C128_kernel_test_iff (N : Nat) (hN : SafeSize N) (t : Bool) (reps : Nat) (hr : 1 ≤ reps) :
    (∀ A B : Array Double, A.size = N * N → B.size = N * N →
      @KernelTest.matrix_multiply Double (Double.arith fuse) N A B t reps =
        @Naive.naive_matrix_multiply Double (Double.arith fuse) N A B) ↔ N = 0 := by
  let _ := Double.arith fuse
  constructor
  · intro h
    apply Classical.byContradiction
    intro h0
    have hN' := hN
    unfold SafeSize at hN'
    have h449 : 449 ≤ N := by omega
    have hA := holds_rect N N fun (_ k : Nat) => xRow 16 k
    have hB := holds_rect N N fun (_ _ : Nat) => one
    have := h (rowMajor N fun _ k => xRow 16 k) (rowMajor N fun _ _ => one) (rect_size ..)
      (rect_size ..)
    rw [C39_kernel_test N hN _ _ _ _ hA hB t reps hr, C01_naive N _ _ _ _ hA hB] at this
    refine pure_ne (N := N) (by omega) (Eq.trans ?_ (this.trans ?_))
    · refine congrArg _ (rect_congr fun i hi j hj => ?_)
      rw [pad_x fuse (bs := 16) (by omega) hi]
      exact (bdot_x fuse 16 _ (by decide)
        (show 2 ≤ ceilDiv N 512 * 512 / 16 by unfold ceilDiv; omega) _
        (pad_one fuse (by omega) hj)).symm
    · exact congrArg _ (rect_congr fun i hi j hj => dot_x fuse 16 N (by omega) _ (ones 16))
  · rintro rfl A B hA hB
    obtain ⟨a, ha⟩ := holds_of_size hA
    obtain ⟨b, hb⟩ := holds_of_size hB
    rw [C39_kernel_test 0 hN A B a b ha hb t reps hr, C01_naive 0 A B a b ha hb]
    exact congrArg _ (rect_congr fun i hi => absurd hi (Nat.not_lt_zero _))

section Examples

example {α : Type} [Arith α] (a b : Nat → Nat → α) :
    Combined.matrix_multiply Combined.blocking 3 (rowMajor 3 a) (rowMajor 3 b) 1 =
      KernelTiled.matrix_multiply KernelTiled.blocking 3 (rowMajor 3 a) (rowMajor 3 b) true 2 :=
  C128_tiled 3 _ _ a b (holds_rect _ _ _) (holds_rect _ _ _) true 2 (by decide)

example {α : Type} [Arith α] (a b : Nat → Nat → α) :
    Algorithms.matrix_multiply 8 (rowMajor 8 a) (rowMajor 8 (tr b)) 2 4 =
      Semi.matrix_multiply 8 (rowMajor 8 a) (rowMajor 8 (tr b)) 2 ∧
    Recursive.single_matrix_multiply 8 (rowMajor 8 a) (rowMajor 8 (tr b)) true 4 2 1 =
      Semi.matrix_multiply 8 (rowMajor 8 a) (rowMajor 8 (tr b)) 2 :=
  C128_blocked 8 1 4 _ _ a b (holds_rect _ _ _) (holds_rect _ _ _) 2 4 4 1 (by decide) (by decide)
    (by decide) (by decide) (by decide) (by decide) rfl (by decide)
    (fun d h => by obtain rfl : d = 0 := by omega
                   decide) (by decide)

example {α : Type} [Arith α] (a b : Nat → Nat → α) :
    Recursive.single_matrix_multiply 6 (rowMajor 6 a) (rowMajor 6 b) false 3 7 2 =
      Naive.naive_matrix_multiply 6 (rowMajor 6 a) (rowMajor 6 b) :=
  C128_unblocked 6 1 3 _ _ (rowMajor 6 (tr b)) a b (holds_rect _ _ _) (holds_rect _ _ _) (holds_rect _ _ _) 2 3
    3 7 2 (by decide) (by decide) (by decide) (by decide) rfl (by decide)
    (fun d h => by obtain rfl : d = 0 := by omega
                   decide) (by decide) _ (by simp)

/-- Size 65 is padded and split into blocks of 64, yet nothing changes. -/
example (A B : Array Double) (hA : A.size = 65 * 65) (hB : B.size = 65 * 65) :
    @Combined.matrix_multiply Double (Double.arith plain) Combined.blocking 65 A B 1 =
      @Naive.naive_matrix_multiply Double (Double.arith plain) 65 A B :=
  (C128_combined_iff 65).2 (by decide) A B hA hB

/-- Size 256 with the default `block_input` and `block_result` of the driver, 128. -/
example : ¬ ∀ A Bt : Array Double, A.size = 256 * 256 → Bt.size = 256 * 256 →
    @Algorithms.matrix_multiply Double (Double.arith plain) 256 A Bt 128 128 =
      @Naive.naive_matrix_multiply_transposed Double (Double.arith plain) 256 A Bt :=
  fun h => absurd ((C128_algorithms_iff 256 128 128 (by decide) (by decide) (by decide) (by decide)).1
    h) (by decide)

/-- A fused operation returns a negative zero: the second case of `C128_fused` occurs. -/
example : (@dot Double (Double.arith fun _ _ _ => true) 1 (fun _ => Double.ofInt (-1074) (-1))
      fun _ => Double.ofInt (-1074) 1).1 = .zero true ∧
    (@bdot Double (Double.arith fun _ _ _ => true) 64 4
      (fun k => if k = 0 then Double.ofInt (-1074) (-1) else Double.zero)
      fun k => if k = 0 then Double.ofInt (-1074) 1 else Double.zero).1 = .zero false := by
  decide +kernel

example : SafeSize 512 ∧ SafeSize 1024 := by unfold SafeSize; decide

end Examples

end Verif.Props
