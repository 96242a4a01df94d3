import Verif.Proof.Rounding
import Verif.Props.Agree
import Mathlib.Tactic.NormNum
import Mathlib.Tactic.FieldSimp
import Mathlib.Algebra.Order.Field.Rat
/-
C85: bounds for the rounding errors of all algorithms.
-/
namespace Verif.Props
open Kernel
variable {K : Type} [Field K] [LinearOrder K] [IsStrictOrderedRing K] {α : Type} [Arith α]

/-- The exact entry `(i, j)` of the product of two matrices of floating-point numbers. -/
def exactEntry (r : Rounding K α) (N : Nat) (a b : Nat → Nat → α) (i j : Nat) : K :=
  ∑ k ∈ Finset.range N, r.value (a i k) * r.value (b k j)

/-- The sum of the absolute values of the products. -/
def absEntry (r : Rounding K α) (N : Nat) (a b : Nat → Nat → α) (i j : Nat) : K :=
  ∑ k ∈ Finset.range N, |r.value (a i k) * r.value (b k j)|

/-- All entries are finite, and no overflow occurs in sums of `m` products with `n` roundings. -/
structure NoOverflow (r : Rounding K α) (N n m : Nat) (a b : Nat → Nat → α) : Prop where
  finite : ∀ i, i < N → ∀ j, j < N → r.finite (a i j) ∧ r.finite (b i j)
  fits : ∀ i, i < N → ∀ j, j < N → r.Fits n m (absEntry r N a b i j)

/-- The program has one outcome, a matrix whose entries are those of the product up to the error of
sums of `m` products with at most `n` roundings each. -/
def ApproxProduct (r : Rounding K α) (N n m : Nat) (a b : Nat → Nat → α) (P : ND (Array α)) : Prop :=
  ∃ G : Nat → Nat → α, P = ND.pure (rowMajor N G) ∧ ∀ i, i < N → ∀ j, j < N →
    r.finite (G i j) ∧
    |r.value (G i j) - exactEntry r N a b i j| ≤ r.bound n m (absEntry r N a b i j)

variable {r : Rounding K α} {N : Nat} {a b : Nat → Nat → α}

theorem NoOverflow.mono {n m n' m' : Nat} (h : NoOverflow r N n' m' a b) (hn : n ≤ n') (hm : m ≤ m') :
    NoOverflow r N n m a b :=
  ⟨h.finite, fun i hi j hj => (h.fits i hi j hj).mono hn hm (Rounding.sum_abs_nonneg _ _) (le_refl _)⟩

/-! ### the accumulation orders -/

private theorem dot_approx (h : NoOverflow r N (N + 1) N a b) {i j : Nat} (hi : i < N) (hj : j < N) :
    r.Approx (N + 1) N (exactEntry r N a b i j) (absEntry r N a b i j)
      (dot N (a i) fun k => b k j) :=
  Rounding.approx_dot (fun k hk => ⟨(h.finite i hi k hk).1, (h.finite k hk j hj).2⟩) (h.fits i hi j hj)

private theorem bdot_approx {bs : Nat} (hd : bs ∣ N) (h : NoOverflow r N (bs + 1 + N / bs) N a b)
    {i j : Nat} (hi : i < N) (hj : j < N) :
    r.Approx (bs + 1 + N / bs) N (exactEntry r N a b i j) (absEntry r N a b i j)
      (bdot bs (N / bs) (a i) fun k => b k j) := by
  have hN : N / bs * bs = N := Nat.div_mul_cancel hd
  have := Rounding.approx_bdot (r := r) (bs := bs) (nb := N / bs) (f := a i) (g := fun k => b k j)
    (by rw [hN]; exact fun k hk => ⟨(h.finite i hi k hk).1, (h.finite k hk j hj).2⟩)
    (by rw [hN]; exact h.fits i hi j hj)
  rwa [hN] at this

private theorem pad_sum {M : Nat} (hM : N ≤ M) {i j : Nat} (hi : i < N) (hj : j < N) (F : K → K)
    (hF : F 0 = 0) :
    ∑ k ∈ Finset.range M, F (r.value (Tiled.pad N a i k) * r.value (Tiled.pad N b k j)) =
      ∑ k ∈ Finset.range N, F (r.value (a i k) * r.value (b k j)) := by
  obtain ⟨d, rfl⟩ := Nat.exists_eq_add_of_le hM
  rw [Finset.sum_range_add]
  have h1 : ∑ x ∈ Finset.range d,
      F (r.value (Tiled.pad N a i (N + x)) * r.value (Tiled.pad N b (N + x) j)) = 0 := by
    refine Finset.sum_eq_zero fun x _ => ?_
    rw [show Tiled.pad N a i (N + x) = Arith.zero from if_neg (by omega), r.zero_value, zero_mul, hF]
  rw [h1, add_zero]
  refine Finset.sum_congr rfl fun k hk => ?_
  rw [Finset.mem_range] at hk
  rw [show Tiled.pad N a i k = a i k from if_pos ⟨hi, hk⟩,
    show Tiled.pad N b k j = b k j from if_pos ⟨hk, hj⟩]

private theorem pad_finite {f : Nat → Nat → α} (h : ∀ i, i < N → ∀ j, j < N → r.finite (f i j))
    (i j : Nat) : r.finite (Tiled.pad N f i j) := by
  unfold Tiled.pad
  split
  · rename_i hc; exact h i hc.1 j hc.2
  · exact r.zero_finite

private theorem pad_approx {bs nb : Nat} (hM : N ≤ nb * bs)
    (h : NoOverflow r N (bs + 1 + nb) (nb * bs) a b) {i j : Nat} (hi : i < N) (hj : j < N) :
    r.Approx (bs + 1 + nb) (nb * bs) (exactEntry r N a b i j) (absEntry r N a b i j)
      (bdot bs nb (fun k => Tiled.pad N a i k) fun k => Tiled.pad N b k j) := by
  have e1 := pad_sum (r := r) (a := a) (b := b) hM hi hj id rfl
  have e2 := pad_sum (r := r) (a := a) (b := b) hM hi hj abs abs_zero
  have := Rounding.approx_bdot (r := r) (bs := bs) (nb := nb) (f := fun k => Tiled.pad N a i k)
    (g := fun k => Tiled.pad N b k j)
    (fun k hk => ⟨pad_finite (fun i hi j hj => (h.finite i hi j hj).1) i k,
      pad_finite (fun i hi j hj => (h.finite i hi j hj).2) k j⟩)
    (by rw [e2]; exact h.fits i hi j hj)
  rw [e2] at this
  simp only [id] at e1
  rw [e1] at this
  exact this

/-- As `pad_approx`, with the products taken `c` times. -/
private theorem repeat_approx {bs nb : Nat} (c : Nat) (hM : N ≤ nb * bs)
    (hfin : ∀ i, i < N → ∀ j, j < N → r.finite (a i j) ∧ r.finite (b i j)) {i j : Nat} (hi : i < N)
    (hj : j < N) (h : r.Fits (bs + 1 + c * nb) (c * (nb * bs)) (c * absEntry r N a b i j)) :
    r.Approx (bs + 1 + c * nb) (c * (nb * bs)) (c * exactEntry r N a b i j) (c * absEntry r N a b i j)
      (Tiled.repeatDot c bs nb (fun k => Tiled.pad N a i k) fun k => Tiled.pad N b k j) := by
  have e1 := pad_sum (r := r) (a := a) (b := b) hM hi hj id rfl
  have e2 := pad_sum (r := r) (a := a) (b := b) hM hi hj abs abs_zero
  have := Rounding.approx_repeat (r := r) (bs := bs) (nb := nb) (f := fun k => Tiled.pad N a i k)
    (g := fun k => Tiled.pad N b k j) c
    (fun k hk => ⟨pad_finite (fun i hi j hj => (hfin i hi j hj).1) i k,
      pad_finite (fun i hi j hj => (hfin i hi j hj).2) k j⟩)
    (by rw [e2]; exact h)
  rw [e2] at this
  simp only [id] at e1
  rw [e1] at this
  exact this

private theorem block_depth {bs : Nat} (hd : bs ∣ N) (hN : 0 < N) : bs + 1 + N / bs ≤ N + 2 := by
  obtain ⟨q, rfl⟩ := hd
  have hb : 0 < bs := Nat.pos_of_ne_zero fun h => by subst h; simp at hN
  have hq : 0 < q := Nat.pos_of_ne_zero fun h => by subst h; simp at hN
  rw [Nat.mul_div_cancel_left _ hb]
  obtain ⟨b', rfl⟩ := Nat.exists_eq_add_of_lt hb
  obtain ⟨q', rfl⟩ := Nat.exists_eq_add_of_lt hq
  have : (0 + b' + 1) * (0 + q' + 1) = b' * q' + b' + q' + 1 := by ring
  omega

private theorem entry_approx (h : NoOverflow r N (N + 2) N a b) {i j : Nat} (hi : i < N) (hj : j < N)
    (t : Bool) (bi s : Nat) (hd : t = true → bi ≠ 0 → 4 ≤ s → bi ∣ N) :
    r.Approx (N + 2) N (exactEntry r N a b i j) (absEntry r N a b i j)
      (submatrixEntry N a (if t then tr b else b) t bi s i j) := by
  have h0 := Rounding.sum_abs_nonneg N fun k => r.value (a i k) * r.value (b k j)
  have hdot := (dot_approx (h.mono (by omega) (Nat.le_refl _)) hi hj).mono (n' := N + 2) (by omega)
    (Nat.le_refl _) h0 (le_refl _)
  unfold submatrixEntry
  cases t with
  | false => exact hdot
  | true =>
    rw [if_neg (by decide)]
    split
    · exact hdot
    · have hd := hd rfl (by omega) (by omega)
      have hle := block_depth hd (by omega)
      exact (bdot_approx hd (h.mono hle (Nat.le_refl _)) hi hj).mono hle (Nat.le_refl _) h0 (le_refl _)

/-! ### the algorithms -/

/-- **C85.** The naive multiplication. -/
theorem C85_naive (A B : Array α) (hA : Holds A N N a) (hB : Holds B N N b)
    (h : NoOverflow r N (N + 1) N a b) :
    ApproxProduct r N (N + 1) N a b (Naive.naive_matrix_multiply N A B) :=
  ⟨_, C01_naive N A B a b hA hB, fun _ hi _ hj => dot_approx h hi hj⟩

/-- **C85.** The naive multiplication with `B` transposed. -/
theorem C85_naive_transposed (A Bt : Array α) (hA : Holds A N N a) (hB : Holds Bt N N (tr b))
    (h : NoOverflow r N (N + 1) N a b) :
    ApproxProduct r N (N + 1) N a b (Naive.naive_matrix_multiply_transposed N A Bt) :=
  ⟨_, C02_naive_transposed N A Bt a (tr b) hA hB, fun _ hi _ hj => dot_approx h hi hj⟩

/-- **C85.** `single`, for `N = 2^e * s` where the halving stops at `s` (as in C10). -/
theorem C85_single (e s : Nat) (A B : Array α) (transposed : Bool) (br bi reps : Nat)
    (hA : Holds A N N a) (hB : Holds B N N (if transposed then tr b else b)) (hN : N = 2 ^ e * s)
    (hs : s ≤ br) (he : ∀ d, d < e → br < 2 ^ (d + 1) * s)
    (hdiv : transposed = true → bi ≠ 0 → 4 ≤ s → 4 ∣ s ∧ bi ∣ N) (hr : 0 < reps)
    (h : NoOverflow r N (N + 2) N a b) :
    ApproxProduct r N (N + 2) N a b
      (Recursive.single_matrix_multiply N A B transposed br bi reps) :=
  ⟨_, C10_single N e s A B a _ transposed br bi reps hA hB hN hs he hdiv hr,
    fun _ hi _ hj => entry_approx h hi hj _ _ _ fun h1 h2 h3 => (hdiv h1 h2 h3).2⟩

/-- **C85.** `single` with a power of two as size. -/
theorem C85_single_pow2 (e : Nat) (A B : Array α) (transposed : Bool) (br bi reps : Nat)
    (hA : Holds A (2 ^ e) (2 ^ e) a) (hB : Holds B (2 ^ e) (2 ^ e) (if transposed then tr b else b))
    (hbr : 1 ≤ br) (hbi : bi = 0 ∨ bi ∣ 2 ^ e) (hr : 1 ≤ reps)
    (h : NoOverflow r (2 ^ e) (2 ^ e + 2) (2 ^ e) a b) :
    ApproxProduct r (2 ^ e) (2 ^ e + 2) (2 ^ e) a b
      (Recursive.single_matrix_multiply (2 ^ e) A B transposed br bi reps) := by
  obtain ⟨d, hd, h1, h2⟩ := StaticImproved.halving_stops hbr e
  refine C85_single (e - d) (2 ^ d * 1) A B transposed br bi reps hA hB ?_ h1 h2 ?_ hr h
  · rw [Nat.mul_one, ← Nat.pow_add]; congr 1; omega
  · intro _ h3 h4
    rw [Nat.mul_one] at h4 ⊢
    refine ⟨?_, hbi.resolve_left h3⟩
    have : 2 ≤ d := by
      rcases Nat.lt_or_ge d 2 with h | h
      · have : d = 0 ∨ d = 1 := by omega
        rcases this with rfl | rfl <;> simp at h4
      · exact h
    exact Nat.pow_dvd_pow 2 this

/-- **C85.** `pseudodynamic`, for every number of localities. -/
theorem C85_pseudodynamic (p : StaticImproved.Params) (e q : Nat) (A B : Array α)
    (transposed : Bool) (br bi reps L : Nat) (hA : Holds A N N a)
    (hB : Holds B N N (if transposed then tr b else b)) (hN : N = 2 ^ e * q)
    (hq : q ≤ p.min_work_size) (hbr : q ≤ br) (hL : 0 < L) (hr : 0 < reps)
    (hdiv : transposed = true → bi ≠ 0 → bi ∣ N ∧ ∀ d, d ≤ e → 4 ≤ 2 ^ d * q → 4 ∣ 2 ^ d * q)
    (h : NoOverflow r N (N + 2) N a b) :
    ApproxProduct r N (N + 2) N a b
      (StaticImproved.pseudodynamic_matrix_multiply p N A B transposed br bi reps L) := by
  obtain ⟨G, hG, hE⟩ := C22_pseudodynamic_entries p N e q A B a _ transposed br bi reps L hA hB hN hq
    hbr hL hr hdiv
  refine ⟨G, hG, fun i hi j hj => ?_⟩
  obtain ⟨d, _, he⟩ := hE i hi j hj
  rw [he]
  exact entry_approx h hi hj _ _ _ fun h1 h2 _ => (hdiv h1 h2).1

/-- **C85.** `algorithms`: the blocking shortens the chains of roundings. -/
theorem C85_algorithms (A Bt : Array α) (hA : Holds A N N a) (hB : Holds Bt N N (tr b)) (bi br : Nat)
    (hbi : 0 < bi) (hbr : 0 < br) (hdi : bi ∣ N) (hdr : br ∣ N)
    (h : NoOverflow r N (bi + 1 + N / bi) N a b) :
    ApproxProduct r N (bi + 1 + N / bi) N a b (Algorithms.matrix_multiply N A Bt bi br) :=
  ⟨_, C24_algorithms N A Bt a (tr b) hA hB bi br hbi hbr hdi hdr,
    fun _ hi _ hj => bdot_approx hdi h hi hj⟩

/-- **C85.** `looped`. -/
theorem C85_looped (A Bt : Array α) (hA : Holds A N N a) (hB : Holds Bt N N (tr b)) (br bi : Nat)
    (hbr : 0 < br) (hbi : 0 < bi) (hdr : br ∣ N) (hdi : bi ∣ N) (h : NoOverflow r N (N + 1) N a b) :
    ApproxProduct r N (N + 1) N a b (ND.ofM (Looped.matrix_multiply N A Bt br bi)) :=
  ⟨_, congrArg ND.ofM (C26_looped N A Bt a (tr b) hA hB br bi hbr hbi hdr hdi).1,
    fun _ hi _ hj => dot_approx h hi hj⟩

/-- **C85.** `semi`. -/
theorem C85_semi (A Bt : Array α) (hA : Holds A N N a) (hB : Holds Bt N N (tr b)) (bi : Nat)
    (h4 : 4 ∣ N) (hbi : 0 < bi) (hd : bi ∣ N) (h : NoOverflow r N (bi + 1 + N / bi) N a b) :
    ApproxProduct r N (bi + 1 + N / bi) N a b (Semi.matrix_multiply N A Bt bi) :=
  ⟨_, C32_semi N A Bt a (tr b) hA hB bi h4 hbi hd, fun _ hi _ hj => bdot_approx hd h hi hj⟩

/-- The length of the padded sums of `combined` and `kernel_tiled`, in blocks of 64. -/
def paddedBlocks (N : Nat) : Nat := ceilDiv N 256 * 4

private theorem blocks_eq (N : Nat) : ceilDiv N 256 * 256 / 64 = paddedBlocks N := by
  unfold paddedBlocks
  omega

private theorem le_blocks (N : Nat) : N ≤ paddedBlocks N * 64 := by
  unfold paddedBlocks ceilDiv
  omega

/-- **C85.** `combined` with one repetition, for every size. -/
theorem C85_combined (A B : Array α) (hA : Holds A N N a) (hB : Holds B N N b)
    (h : NoOverflow r N (65 + paddedBlocks N) (paddedBlocks N * 64) a b) :
    ApproxProduct r N (65 + paddedBlocks N) (paddedBlocks N * 64) a b
      (Combined.matrix_multiply Combined.blocking N A B 1) := by
  refine ⟨_, C35_combined _ Combined.valid N A B a b hA hB 1, fun i hi j hj => ?_⟩
  have := pad_approx (bs := 64) (le_blocks N) h hi hj
  have e : Combined.blocking.L1_K_STEP = 64 ∧ Combined.blocking.L3_K_STEP = 256 := ⟨rfl, rfl⟩
  rw [e.1, e.2, blocks_eq]
  exact this

/-- **C85.** `combined` with `c` repetitions, for every size: it returns `c` times the product (C35), with
the error of sums of `c` times as many products. -/
theorem C85_combined_repeated (c : Nat) (A B : Array α) (hA : Holds A N N a) (hB : Holds B N N b)
    (hfin : ∀ i, i < N → ∀ j, j < N → r.finite (a i j) ∧ r.finite (b i j))
    (hfits : ∀ i, i < N → ∀ j, j < N →
      r.Fits (65 + c * paddedBlocks N) (c * (paddedBlocks N * 64)) (c * absEntry r N a b i j)) :
    ∃ G : Nat → Nat → α,
      Combined.matrix_multiply Combined.blocking N A B c = ND.pure (rowMajor N G) ∧
      ∀ i, i < N → ∀ j, j < N → r.finite (G i j) ∧
        |r.value (G i j) - c * exactEntry r N a b i j| ≤
          r.bound (65 + c * paddedBlocks N) (c * (paddedBlocks N * 64)) (c * absEntry r N a b i j) := by
  refine ⟨_, C35_combined _ Combined.valid N A B a b hA hB c, fun i hi j hj => ?_⟩
  have := repeat_approx (bs := 64) c (le_blocks N) hfin hi hj (hfits i hi j hj)
  have e : Combined.blocking.L1_K_STEP = 64 ∧ Combined.blocking.L3_K_STEP = 256 := ⟨rfl, rfl⟩
  rw [e.1, e.2, blocks_eq]
  exact this

/-- **C85.** `kernel_tiled`, for every size. -/
theorem C85_kernel_tiled (A B : Array α) (hA : Holds A N N a) (hB : Holds B N N b) (t : Bool)
    (reps : Nat) (hr : 1 ≤ reps)
    (h : NoOverflow r N (65 + paddedBlocks N) (paddedBlocks N * 64) a b) :
    ApproxProduct r N (65 + paddedBlocks N) (paddedBlocks N * 64) a b
      (KernelTiled.matrix_multiply KernelTiled.blocking N A B t reps) := by
  refine ⟨_, C37_kernel_tiled _ KernelTiled.valid N A B a b hA hB t reps, fun i hi j hj => ?_⟩
  rw [if_neg (by omega)]
  have := pad_approx (bs := 64) (le_blocks N) h hi hj
  have e : KernelTiled.blocking.L1_K_STEP = 64 ∧ KernelTiled.blocking.L3_K_STEP = 256 := ⟨rfl, rfl⟩
  rw [e.1, e.2, blocks_eq]
  exact this

/-- **C85.** `kernel_test`, for its safe sizes. -/
theorem C85_kernel_test (hN : SafeSize N) (A B : Array α) (hA : Holds A N N a) (hB : Holds B N N b)
    (t : Bool) (reps : Nat) (hr : 1 ≤ reps)
    (h : NoOverflow r N (17 + ceilDiv N 512 * 32) (ceilDiv N 512 * 512) a b) :
    ApproxProduct r N (17 + ceilDiv N 512 * 32) (ceilDiv N 512 * 512) a b
      (KernelTest.matrix_multiply N A B t reps) := by
  refine ⟨_, C39_kernel_test N hN A B a b hA hB t reps hr, fun i hi j hj => ?_⟩
  have e1 : ceilDiv N 512 * 512 / 16 = ceilDiv N 512 * 32 := by omega
  have e2 : ceilDiv N 512 * 32 * 16 = ceilDiv N 512 * 512 := by omega
  have := pad_approx (bs := 16) (nb := ceilDiv N 512 * 32) (by unfold ceilDiv; omega)
    (by rw [e2]; exact h) hi hj
  rw [e2] at this
  rw [e1]
  exact this

/-- **C85.** Two programs that approximate the same product agree up to the sum of their bounds. -/
theorem C85_agree {n m n' m' : Nat} {P P' : ND (Array α)} (h : ApproxProduct r N n m a b P)
    (h' : ApproxProduct r N n' m' a b P') (C C' : Array α) (hC : P (.ok C)) (hC' : P' (.ok C'))
    (i j : Nat) (hi : i < N) (hj : j < N) : ∃ x y, C[i * N + j]? = some x ∧ C'[i * N + j]? = some y ∧
      |r.value x - r.value y| ≤
        r.bound n m (absEntry r N a b i j) + r.bound n' m' (absEntry r N a b i j) := by
  obtain ⟨G, rfl, hG⟩ := h
  obtain ⟨G', rfl, hG'⟩ := h'
  cases hC
  cases hC'
  refine ⟨_, _, holds_rect N N G i hi j hj, holds_rect N N G' i hi j hj, ?_⟩
  have h1 := (hG i hi j hj).2
  have h2 := (hG' i hi j hj).2
  have e : r.value (G i j) - r.value (G' i j) = (r.value (G i j) - exactEntry r N a b i j) -
      (r.value (G' i j) - exactEntry r N a b i j) := by ring
  rw [e]
  exact (abs_sub _ _).trans (add_le_add h1 h2)

private theorem pow_le {n : Nat} (hn : 2 * n * r.u ≤ 1) : (1 + r.u) ^ n ≤ 1 + 2 * n * r.u := by
  have hu := r.u_nonneg
  have key : ∀ k : Nat, k ≤ n → (1 + r.u) ^ k ≤ 1 + 2 * k * r.u := by
    intro k
    induction k with
    | zero => intro _; simp
    | succ k ih =>
      intro hk
      have h1 := ih (by omega)
      have h2 : (k : K) ≤ n := Nat.cast_le.2 (by omega)
      have h3 : 2 * (k : K) * r.u ≤ 1 :=
        le_trans (mul_le_mul_of_nonneg_right (by linarith) hu) hn
      rw [pow_succ]
      have h4 := mul_le_mul_of_nonneg_right h1 (by linarith : 0 ≤ 1 + r.u)
      have h5 := mul_le_mul_of_nonneg_right h3 hu
      push_cast
      linarith [mul_add (1 + 2 * (k : K) * r.u) 1 r.u, add_mul 1 (2 * (k : K) * r.u) r.u]
  exact key n (Nat.le_refl _)

/-- **C85.** The bound in the usual form: for `2 * n * u ≤ 1` it is at most
`2 * n * u * W + 2 * m * η`. -/
theorem C85_bound (n m : Nat) (W : K) (hW : 0 ≤ W) (hn : 2 * n * r.u ≤ 1) :
    r.bound n m W ≤ 2 * n * r.u * W + 2 * (m * r.η) := by
  have h1 := pow_le hn
  have h2 : 0 ≤ (m : K) * r.η := mul_nonneg (Nat.cast_nonneg m) r.η_nonneg
  unfold Rounding.bound
  have h3 := mul_le_mul_of_nonneg_right (by linarith : (1 + r.u) ^ n - 1 ≤ 2 * n * r.u) hW
  have h4 := mul_le_mul_of_nonneg_right (by linarith : (1 + r.u) ^ n ≤ 2) h2
  linarith

theorem absEntry_le {c d : K} (ha : ∀ i, i < N → ∀ j, j < N → |r.value (a i j)| ≤ c)
    (hb : ∀ i, i < N → ∀ j, j < N → |r.value (b i j)| ≤ d) (i j : Nat) (hi : i < N) (hj : j < N) :
    absEntry r N a b i j ≤ N * (c * d) := by
  unfold absEntry
  have := Finset.sum_le_card_nsmul (Finset.range N)
    (fun k => |r.value (a i k) * r.value (b k j)|) (c * d) fun k hk => by
      rw [Finset.mem_range] at hk
      rw [abs_mul]
      exact mul_le_mul (ha i hi k hk) (hb k hk j hj) (abs_nonneg _)
        ((abs_nonneg _).trans (ha i hi k hk))
  rwa [Finset.card_range, nsmul_eq_mul] at this

/-- **C85.** There is no overflow if the entries are bounded. -/
theorem C85_no_overflow {c d : K} {n m : Nat}
    (hf : ∀ i, i < N → ∀ j, j < N → r.finite (a i j) ∧ r.finite (b i j))
    (ha : ∀ i, i < N → ∀ j, j < N → |r.value (a i j)| ≤ c)
    (hb : ∀ i, i < N → ∀ j, j < N → |r.value (b i j)| ≤ d) (hn : 2 * n * r.u ≤ 1)
    (hΩ : 2 * (N * (c * d) + m * r.η) ≤ r.Ω) : NoOverflow r N n m a b := by
  refine ⟨hf, fun i hi j hj => le_trans ?_ hΩ⟩
  have h1 := pow_le hn
  have h2 : 0 ≤ (m : K) * r.η := mul_nonneg (Nat.cast_nonneg m) r.η_nonneg
  have h3 := absEntry_le ha hb i j hi hj
  have h4 : 0 ≤ absEntry r N a b i j := Rounding.sum_abs_nonneg _ _
  exact mul_le_mul (by linarith) (by linarith) (by linarith) (by norm_num)

section Examples

/-- Integers with 16 significant bits, truncated. -/
private def trunc (x : Int) : Int := x - x % (2 ^ (Nat.log2 x.natAbs - 15) : Nat)

@[reducible] private def sixteen : Arith Int where
  zero := 0
  add x y := trunc (x + y)
  mac acc x y := trunc (acc + trunc (x * y))

-- not associative
example : sixteen.add (sixteen.add 65536 1) 1 ≠ sixteen.add 65536 (sixteen.add 1 1) := by decide

private theorem trunc_law (x : Int) : ∃ δ : ℚ, |δ| ≤ 1 / 32768 ∧ (trunc x : ℚ) = x * (1 + δ) := by
  by_cases h0 : x = 0
  · exact ⟨0, by norm_num, by subst h0; norm_num [trunc]⟩
  have hx : (x : ℚ) ≠ 0 := by exact_mod_cast h0
  refine ⟨((trunc x - x : Int) : ℚ) / x, ?_, by push_cast; field_simp; ring⟩
  rw [abs_div, div_le_div_iff₀ (abs_pos.2 hx) (by norm_num)]
  have key : |trunc x - x| * 32768 ≤ |x| := by
    unfold trunc
    have hn : x.natAbs ≠ 0 := by omega
    have h1 := Nat.log2_self_le hn
    generalize Nat.log2 x.natAbs = l at *
    rcases Nat.lt_or_ge l 15 with h | h
    · rw [Nat.sub_eq_zero_of_le (by omega)]
      simp
    · have h2 : 2 ^ l = 2 ^ (l - 15) * 32768 := by
        rw [show (32768 : Nat) = 2 ^ 15 from rfl, ← Nat.pow_add]; congr 1; omega
      have hp : 0 < 2 ^ (l - 15) := Nat.two_pow_pos _
      generalize 2 ^ (l - 15) = s at *
      have h3 := Int.emod_nonneg x (b := (s : Int)) (by omega)
      have h4 := Int.emod_lt_of_pos x (b := (s : Int)) (by omega)
      generalize x % (s : Int) = m at *
      rw [show x - m - x = -m by omega, abs_neg, abs_of_nonneg h3, Int.abs_eq_natAbs]
      omega
  have : |((trunc x - x : Int) : ℚ)| * 32768 ≤ |(x : ℚ)| := by exact_mod_cast key
  linarith

private def sixteenRounding : @Rounding ℚ _ _ _ Int sixteen := @Rounding.mk ℚ _ _ _ Int sixteen
  (fun x => (x : ℚ)) (fun _ => True) (1 / 32768) 0 1000000 (by norm_num) (le_refl _) trivial
  Int.cast_zero
  (fun x y _ _ _ => by
    obtain ⟨δ, h1, h2⟩ := trunc_law (x + y)
    refine ⟨trivial, δ, h1, ?_⟩
    show (trunc (x + y) : ℚ) = _
    rw [h2]; push_cast; ring)
  (fun c x y _ _ _ _ => by
    obtain ⟨δ, h1, h2⟩ := trunc_law (x * y)
    obtain ⟨δ', h3, h4⟩ := trunc_law (c + trunc (x * y))
    refine ⟨trivial, δ, 0, δ', h1, by norm_num, h3, ?_⟩
    show (trunc (c + trunc (x * y)) : ℚ) = _
    rw [h4]; push_cast; rw [h2]; push_cast; ring)

private theorem sixteen_fits : @NoOverflow ℚ _ _ _ Int sixteen sixteenRounding 8 100 65536
    (fun i k => i + k) fun k j => k * j := by
  let _ := sixteen
  refine C85_no_overflow (c := 14) (d := 49) (fun _ _ _ _ => ⟨trivial, trivial⟩) (fun i hi j hj => ?_)
    (fun i hi j hj => ?_) ?_ ?_
  · show |((i + j : Int) : ℚ)| ≤ 14
    have : |(i + j : Int)| ≤ 14 := by rw [abs_of_nonneg (by omega)]; omega
    exact_mod_cast this
  · show |((i * j : Int) : ℚ)| ≤ 49
    have h1 : i * j ≤ 7 * 7 := Nat.mul_le_mul (by omega) (by omega)
    have : |(i * j : Int)| ≤ 49 := by
      rw [abs_of_nonneg (Int.mul_nonneg (by omega) (by omega))]
      exact_mod_cast h1
    exact_mod_cast this
  · show 2 * ((100 : Nat) : ℚ) * (1 / 32768) ≤ 1
    norm_num
  · show 2 * (((8 : Nat) : ℚ) * (14 * 49) + ((65536 : Nat) : ℚ) * 0) ≤ 1000000
    norm_num

private def matA : Array Int := rowMajor 8 fun i k => (i : Int) + k
private def matB : Array Int := rowMajor 8 fun k j => (k : Int) * j
private def matBt : Array Int := rowMajor 8 (tr fun k j => (k : Int) * j)

private theorem holdsA : Holds matA 8 8 fun i k => (i : Int) + k :=
  holds_rect 8 8 fun i k => (i : Int) + k
private theorem holdsB : Holds matB 8 8 fun k j => (k : Int) * j :=
  holds_rect 8 8 fun k j => (k : Int) * j
private theorem holdsBt : Holds matBt 8 8 (tr fun k j => (k : Int) * j) :=
  holds_rect 8 8 (tr fun k j => (k : Int) * j)

private theorem fits {n m : Nat} (hn : n ≤ 100) (hm : m ≤ 65536) :
    @NoOverflow ℚ _ _ _ Int sixteen sixteenRounding 8 n m (fun i k => i + k) fun k j => k * j :=
  @NoOverflow.mono ℚ _ _ _ Int sixteen _ _ _ _ _ _ _ _ sixteen_fits hn hm

private theorem ex_single : let _ := sixteen
    ApproxProduct sixteenRounding 8 10 8 (fun i k => i + k) (fun k j => k * j)
      (Recursive.single_matrix_multiply 8 matA matBt true 4 2 1) :=
  @C85_single_pow2 ℚ _ _ _ Int sixteen sixteenRounding _ _ 3 _ _ true 4 2 1 holdsA holdsBt (by decide)
    (.inr ⟨4, rfl⟩) (by decide) (fits (by decide) (by decide))

private theorem ex_combined : let _ := sixteen
    ApproxProduct sixteenRounding 8 69 256 (fun i k => i + k) (fun k j => k * j)
      (Combined.matrix_multiply Combined.blocking 8 matA matB 1) :=
  @C85_combined ℚ _ _ _ Int sixteen sixteenRounding 8 _ _ matA matB holdsA holdsB
    (fits (by decide) (by decide))

example : let _ := sixteen
    ApproxProduct sixteenRounding 8 10 8 (fun i k => i + k) (fun k j => k * j)
      (StaticImproved.pseudodynamic_matrix_multiply ⟨2, 0, fun _ _ => false⟩ 8 matA matB false 2 0 1 5) :=
  @C85_pseudodynamic ℚ _ _ _ Int sixteen sixteenRounding 8 _ _ _ 3 1 _ _ false 2 0 1 5 holdsA holdsB rfl
    (by decide) (by decide) (by decide) (by decide) (by simp) (fits (by decide) (by decide))

-- blocks of 2: seven roundings, with blocks of 1 there are ten
example : let _ := sixteen
    ApproxProduct sixteenRounding 8 7 8 (fun i k => i + k) (fun k j => k * j)
      (Algorithms.matrix_multiply 8 matA matBt 2 4) :=
  @C85_algorithms ℚ _ _ _ Int sixteen sixteenRounding 8 _ _ _ _ holdsA holdsBt 2 4 (by decide)
    (by decide) ⟨4, rfl⟩ ⟨2, rfl⟩ (fits (by decide) (by decide))

example : let _ := sixteen
    ApproxProduct sixteenRounding 8 9 8 (fun i k => i + k) (fun k j => k * j)
      (ND.ofM (Looped.matrix_multiply 8 matA matBt 2 4)) :=
  @C85_looped ℚ _ _ _ Int sixteen sixteenRounding 8 _ _ _ _ holdsA holdsBt 2 4 (by decide)
    (by decide) ⟨4, rfl⟩ ⟨2, rfl⟩ (fits (by decide) (by decide))

example : let _ := sixteen
    ApproxProduct sixteenRounding 8 7 8 (fun i k => i + k) (fun k j => k * j)
      (Semi.matrix_multiply 8 matA matBt 2) :=
  @C85_semi ℚ _ _ _ Int sixteen sixteenRounding 8 _ _ _ _ holdsA holdsBt 2 ⟨2, rfl⟩ (by decide)
    ⟨4, rfl⟩ (fits (by decide) (by decide))

example : let _ := sixteen
    ApproxProduct sixteenRounding 8 69 256 (fun i k => i + k) (fun k j => k * j)
      (KernelTiled.matrix_multiply KernelTiled.blocking 8 matA matB false 3) :=
  @C85_kernel_tiled ℚ _ _ _ Int sixteen sixteenRounding 8 _ _ matA matB holdsA holdsB false 3
    (by decide) (fits (by decide) (by decide))

-- three repetitions: 77 roundings, 768 products
example : let _ := sixteen
    ∃ G : Nat → Nat → Int, Combined.matrix_multiply Combined.blocking 8 matA matB 3 =
        ND.pure (rowMajor 8 G) ∧ ∀ i, i < 8 → ∀ j, j < 8 → True ∧
      |(G i j : ℚ) - (3 : Nat) * exactEntry sixteenRounding 8 (fun i k => i + k) (fun k j => k * j) i j| ≤
        sixteenRounding.bound 77 768
          ((3 : Nat) * absEntry sixteenRounding 8 (fun i k => i + k) (fun k j => k * j) i j) := by
  intro _
  refine C85_combined_repeated (r := sixteenRounding) 3 matA matB holdsA holdsB
    (fun _ _ _ _ => ⟨trivial, trivial⟩) fun i hi j hj => ?_
  have h1 := absEntry_le (r := sixteenRounding) (N := 8) (a := fun i k => (i : Int) + k)
    (b := fun k j => (k : Int) * j) (c := 14) (d := 49) (fun i hi j hj => ?_) (fun i hi j hj => ?_) i j hi hj
  · show (1 + (1 / 32768 : ℚ)) ^ 77 * ((3 : Nat) * absEntry sixteenRounding 8 _ _ i j +
      ((768 : Nat) : ℚ) * 0) ≤ 1000000
    have h2 : (1 + (1 / 32768 : ℚ)) ^ 77 ≤ 2 := by norm_num
    have h3 : (0 : ℚ) ≤ absEntry sixteenRounding 8 (fun i k => (i : Int) + k) (fun k j => (k : Int) * j) i j :=
      Rounding.sum_abs_nonneg _ _
    calc _ ≤ (2 : ℚ) * (3 * ((8 : Nat) * (14 * 49)) + 0) :=
          mul_le_mul h2 (by push_cast at h1 ⊢; linarith) (by push_cast; linarith) (by norm_num)
      _ ≤ _ := by norm_num
  · show |((i + j : Int) : ℚ)| ≤ 14
    have : |(i + j : Int)| ≤ 14 := by rw [abs_of_nonneg (by omega)]; omega
    exact_mod_cast this
  · show |((i * j : Int) : ℚ)| ≤ 49
    have h1 : i * j ≤ 7 * 7 := Nat.mul_le_mul (by omega) (by omega)
    have : |(i * j : Int)| ≤ 49 := by
      rw [abs_of_nonneg (Int.mul_nonneg (by omega) (by omega))]
      exact_mod_cast h1
    exact_mod_cast this

-- 512 is the least power of two in the domain of `kernel_test`
example : let _ := sixteen
    ApproxProduct sixteenRounding 512 49 512 (fun _ _ => 1) (fun _ _ => -1)
      (KernelTest.matrix_multiply 512 (rowMajor 512 fun _ _ => (1 : Int)) (rowMajor 512 fun _ _ => -1)
        false 3) := by
  intro _
  refine C85_kernel_test (.inr ⟨⟨128, rfl⟩, by decide⟩) _ _ (holds_rect _ _ _) (holds_rect _ _ _) false 3
    (by decide) (C85_no_overflow (c := 1) (d := 1) (fun _ _ _ _ => ⟨trivial, trivial⟩)
      (fun i hi j hj => ?_) (fun i hi j hj => ?_) ?_ ?_)
  · show |((1 : Int) : ℚ)| ≤ 1
    norm_num
  · show |((-1 : Int) : ℚ)| ≤ 1
    norm_num
  · show 2 * ((49 : Nat) : ℚ) * (1 / 32768) ≤ 1
    norm_num
  · show 2 * (((512 : Nat) : ℚ) * (1 * 1) + ((512 : Nat) : ℚ) * 0) ≤ 1000000
    norm_num

-- C85_agree: the results of `single` and `combined`
example (C C' : Array Int) : let _ := sixteen
    Recursive.single_matrix_multiply 8 matA matBt true 4 2 1 (.ok C) →
    Combined.matrix_multiply Combined.blocking 8 matA matB 1 (.ok C') →
    ∀ i j, i < 8 → j < 8 → ∃ x y, C[i * 8 + j]? = some x ∧ C'[i * 8 + j]? = some y :=
  fun h h' i j hi hj =>
    let ⟨x, y, h1, h2, _⟩ := @C85_agree ℚ _ _ _ Int sixteen sixteenRounding 8 _ _ _ _ _ _ _ _ ex_single
      ex_combined C C' h h' i j hi hj
    ⟨x, y, h1, h2⟩

end Examples
end Verif.Props
