import Verif.Proof.Reciprocal
import Verif.Props.Combined
/-
**C106.** Numbers of blocks when the compiler multiplies by a reciprocal.
-/
namespace Verif.Props
open IEEE Tiled

/-- **C106.** The number of blocks computed with a division or with a product with the reciprocal is the
smallest number of blocks that covers the range; only if the blocks fill the range exactly, it may be one
more. -/
theorem C106_count (recip : Bool) (n b : Nat) (hn : n < 2 ^ 52) (h0 : 0 < b) (hb : b < 2 ^ 53) :
    ∃ c, Reciprocal.count recip n b = .ok c ∧ n ≤ c * b ∧
      ((∀ c', n ≤ c' * b → c ≤ c') ∨ recip = true ∧ 0 < n ∧ n = (c - 1) * b) := by
  have key : n ≤ ceilDiv n b * b ∧ ∀ c', n ≤ c' * b → ceilDiv n b ≤ c' := by
    unfold ceilDiv
    refine ⟨?_, fun c' h => ?_⟩
    · have := Nat.lt_div_mul_add (a := n + b - 1) h0
      omega
    · rw [← Nat.lt_succ_iff, Nat.div_lt_iff_lt_mul h0, Nat.succ_mul]
      omega
  cases recip with
  | false => exact ⟨_, Reciprocal.count_false (by omega) (by omega) h0, key.1, .inl key.2⟩
  | true =>
    rcases Reciprocal.count_general hn h0 hb with h | ⟨h1, ⟨q, rfl⟩, h⟩
    · exact ⟨_, h, key.1, .inl key.2⟩
    · have e : ceilDiv (b * q) b = q := by rw [Nat.mul_comm]; exact ceilDiv_mul _ _ h0
      refine ⟨_, h, ?_, .inr ⟨rfl, h1, ?_⟩⟩
      · rw [e, Nat.succ_mul, Nat.mul_comm]; omega
      · rw [e, Nat.add_sub_cancel, Nat.mul_comm]

/-- **C106.** Blocks whose size is a power of two are counted exactly. -/
theorem C106_block_pow2 (recip : Bool) (n k : Nat) (hn : n < 2 ^ 53) (hk : k < 53) :
    Reciprocal.count recip n (2 ^ k) = .ok (ceilDiv n (2 ^ k)) := by
  cases recip with
  | false =>
    exact Reciprocal.count_false hn ((Nat.pow_lt_pow_right (by norm_num) hk).trans (by norm_num))
      (Nat.two_pow_pos k)
  | true => exact Reciprocal.count_pow2 hn hk

/-- **C106.** Numbers of blocks that are powers of two are computed exactly, for all block sizes. -/
theorem C106_count_pow2 (recip : Bool) (j b : Nat) (h0 : 0 < b) (h : 2 ^ j * b < 2 ^ 52) :
    Reciprocal.count recip (2 ^ j * b) b = .ok (2 ^ j) := by
  cases recip with
  | false =>
    have h1 : b < 2 ^ 52 := (Nat.le_mul_of_pos_left b (Nat.two_pow_pos j)).trans_lt h
    have := Reciprocal.count_false (a := 2 ^ j * b) (by omega) (by omega) h0
    rwa [ceilDiv_mul _ _ h0] at this
  | true => exact Reciprocal.count_quot_pow2 h h0

/-- **C106.** The block size 420 of combined.cpp: for three blocks the reciprocal gives a fourth one. -/
theorem C106_count_420 : Reciprocal.count true (3 * 420) 420 = .ok 4 := by decide +kernel

theorem exact_pow2 {n k : Nat} (hn : n < 2 ^ 53) (hk : k < 53) : Reciprocal.Exact n (2 ^ k) :=
  fun r => C106_block_pow2 r n k hn hk

theorem exact_420_70 : Reciprocal.Exact 420 70 := by
  intro r
  cases r <;> decide +kernel

theorem exact_YK {N : Nat} (hN : N < 2 ^ 51) : Reciprocal.Exact (ceilDiv N 256 * 256) 256 := by
  refine exact_pow2 (k := 8) ?_ (by norm_num)
  unfold ceilDiv
  have := Nat.div_mul_le_self (N + 256 - 1) 256
  omega

theorem X_lt {N : Nat} (hN : N < 2 ^ 51) : ceilDiv N 420 * 420 < 2 ^ 52 := by
  unfold ceilDiv
  have := Nat.div_mul_le_self (N + 420 - 1) 420
  omega

/-- **C106.** The algorithm `combined`, any arithmetic: if the reciprocal gives the right number of blocks
of 420 rows, the result does not depend on how the divisions are compiled. -/
theorem C106_combined {α : Type} [Arith α] (recip : List Nat → List Nat → List Nat → Nat → Bool) (N : Nat)
    (hN : N < 2 ^ 51) (h : Reciprocal.count true (ceilDiv N 420 * 420) 420 = .ok (ceilDiv N 420))
    (A B : Array α) (f g : Nat → Nat → α) (hA : Holds A N N f) (hB : Holds B N N g) (r : Nat) :
    Reciprocal.matrix_multiply recip Combined.blocking N A B r = ND.pure (rowMajor N fun i j =>
      repeatDot r 64 (ceilDiv N 256 * 256 / 64) (fun k => pad N f i k) (fun k => pad N g k j)) := by
  rw [Reciprocal.mm_right Combined.valid exact_420_70 (exact_pow2 (k := 6) (n := 256) (by norm_num)
    (by norm_num)) (exact_pow2 (k := 7) (n := 256) (by norm_num) (by norm_num)) (exact_YK hN) (exact_YK hN)
    ?_ hA hB]
  · exact C35_combined Combined.blocking Combined.valid N A B f g hA hB r
  · show Reciprocal.count _ (usub (ceilDiv N 420 * 420) 0) 420 = .ok (ceilDiv (ceilDiv N 420 * 420) 420)
    rw [usub, if_pos (Nat.zero_le _), Nat.sub_zero, ceilDiv_mul _ _ (by norm_num)]
    cases recip _ _ _ _ with
    | true => exact h
    | false =>
      have := Reciprocal.count_false (a := ceilDiv N 420 * 420) (b := 420) (by have := X_lt hN; omega)
        (by norm_num) (by norm_num)
      rwa [ceilDiv_mul _ _ (by norm_num)] at this

/-- **C106.** In particular if the number of blocks of 420 rows is a power of two; so for all sizes up to
840. -/
theorem C106_combined_pow2 {α : Type} [Arith α] (recip : List Nat → List Nat → List Nat → Nat → Bool)
    (N j : Nat) (hN : N < 2 ^ 51) (h : ceilDiv N 420 = 2 ^ j)
    (A B : Array α) (f g : Nat → Nat → α) (hA : Holds A N N f) (hB : Holds B N N g) (r : Nat) :
    Reciprocal.matrix_multiply recip Combined.blocking N A B r = ND.pure (rowMajor N fun i j =>
      repeatDot r 64 (ceilDiv N 256 * 256 / 64) (fun k => pad N f i k) (fun k => pad N g k j)) := by
  refine C106_combined recip N hN ?_ A B f g hA hB r
  rw [h]
  refine C106_count_pow2 true j 420 (by norm_num) ?_
  have := X_lt hN
  rwa [h] at this

/-- A wrong number of blocks of 420 rows is one too large. -/
theorem one_more {recip : List Nat → List Nat → List Nat → Nat → Bool}
    (hrecip : ∀ mx, recip [0, 0, 0] mx [420, 256, 256] 0 = true) {N : Nat} (hN : N < 2 ^ 51)
    (h : Reciprocal.count true (ceilDiv N 420 * 420) 420 ≠ .ok (ceilDiv N 420)) :
    Reciprocal.blockCount recip [0, 0, 0] [X Combined.blocking N, Y Combined.blocking N,
      K Combined.blocking N] [Combined.blocking.L3_X, Combined.blocking.L3_Y, Combined.blocking.L3_K_STEP] 0 =
        .ok (ceilDiv (X Combined.blocking N) Combined.blocking.L3_X + 1) := by
  have e : Reciprocal.count true (ceilDiv N 420 * 420) 420 = .ok (ceilDiv N 420 + 1) := by
    rcases Reciprocal.count_general (a := ceilDiv N 420 * 420) (b := 420) (X_lt hN) (by norm_num)
      (by norm_num) with h1 | ⟨-, -, h1⟩
    · rw [ceilDiv_mul _ _ (by norm_num)] at h1
      exact absurd h1 h
    · rwa [ceilDiv_mul _ _ (by norm_num)] at h1
  show Reciprocal.count (recip _ _ _ _) (usub (ceilDiv N 420 * 420) 0) 420 =
    .ok (ceilDiv (ceilDiv N 420 * 420) 420 + 1)
  rw [usub, if_pos (Nat.zero_le _), Nat.sub_zero, ceilDiv_mul _ _ (by norm_num)]
  have := hrecip [X Combined.blocking N, Y Combined.blocking N, K Combined.blocking N]
  rw [show [Combined.blocking.L3_X, Combined.blocking.L3_Y, Combined.blocking.L3_K_STEP] =
    [420, 256, 256] from rfl, this]
  exact e

/-- How often a repetition adds the product to an entry if there is one block of 420 rows too many: the last
block is computed once more for each block of 256 columns. -/
def extraRuns (N i j : Nat) : Nat :=
  if (ceilDiv N 420 - 1) * 420 ≤ i ∧ (ceilDiv N 256 - 1) * 256 ≤ j then 1 + ceilDiv N 256 else 1

/-- **C106.** The algorithm `combined`, any arithmetic: if the reciprocal gives a wrong number of blocks of
420 rows and the compiler uses it, then there is an outcome with a wrong last block. -/
theorem C106_combined_wrong {α : Type} [Arith α] (recip : List Nat → List Nat → List Nat → Nat → Bool)
    (hrecip : ∀ mx, recip [0, 0, 0] mx [420, 256, 256] 0 = true) (N : Nat) (h0 : 0 < N)
    (hN : N < 2 ^ 51) (h : Reciprocal.count true (ceilDiv N 420 * 420) 420 ≠ .ok (ceilDiv N 420))
    (A B : Array α) (f g : Nat → Nat → α) (hA : Holds A N N f) (hB : Holds B N N g) (r : Nat) :
    Reciprocal.matrix_multiply recip Combined.blocking N A B r (.ok (rowMajor N fun i j =>
      repeatDot (r * extraRuns N i j) 64 (ceilDiv N 256 * 256 / 64) (fun k => pad N f i k)
        (fun k => pad N g k j))) := by
  have := Reciprocal.mm_wrong (recip := recip) Combined.valid exact_420_70 (exact_pow2 (k := 6) (n := 256)
    (by norm_num) (by norm_num)) (exact_pow2 (k := 7) (n := 256) (by norm_num) (by norm_num)) h0 (exact_YK hN)
    (exact_YK hN) (one_more hrecip hN h) hA hB r
  have e2 : ∀ i j, Reciprocal.times Combined.blocking (X Combined.blocking N) (Y Combined.blocking N) i j =
      extraRuns N i j := by
    intro i j
    unfold Reciprocal.times extraRuns
    show (if ceilDiv N 420 * 420 - 420 ≤ i ∧ ceilDiv N 256 * 256 - 256 ≤ j then
      1 + ceilDiv (ceilDiv N 256 * 256) 256 else 1) = _
    rw [ceilDiv_mul _ _ (by norm_num), Nat.sub_mul, Nat.sub_mul]
  simp only [e2] at this
  exact this

/-- **C106**, exact arithmetic: the entries of the last block are multiplied by one more than the number of
blocks of 256 columns. -/
theorem C106_combined_wrong_exact {R : Type} [Semiring R]
    (recip : List Nat → List Nat → List Nat → Nat → Bool)
    (hrecip : ∀ mx, recip [0, 0, 0] mx [420, 256, 256] 0 = true) (N : Nat) (h0 : 0 < N)
    (hN : N < 2 ^ 51) (h : Reciprocal.count true (ceilDiv N 420 * 420) 420 ≠ .ok (ceilDiv N 420))
    (A B : Array R) (f g : Nat → Nat → R) (hA : Holds A N N f) (hB : Holds B N N g) (r : Nat) :
    @Reciprocal.matrix_multiply R (exact R) recip Combined.blocking N A B r (.ok (rowMajor N fun i j =>
      (r * extraRuns N i j) • matProd N f g i j)) := by
  have := @C106_combined_wrong R (exact R) recip hrecip N h0 hN h A B f g hA hB r
  refine Eq.mp (congrArg _ (congrArg Except.ok (rect_congr fun i hi j hj => ?_))) this
  rw [repeatDot_exact]
  have e : ceilDiv N 256 * 256 / 64 * 64 = ceilDiv N 256 * 256 := blocks_mul Combined.valid N
  have e3 : N ≤ ceilDiv N 256 * 256 := le_padded (L := 256) (by norm_num)
  rw [e, sum_pad e3 f g hi hj]
  rfl

/-- **C106.** Sizes from 841 to 1260: with the reciprocal, the result of `combined` can be wrong; the last
entry of `A · B` gets a multiple of its value. -/
theorem C106_combined_1260 (N : Nat) (h1 : 840 < N) (h2 : N ≤ 1260) (A B : Array Int) (f g : Nat → Nat → Int)
    (hA : Holds A N N f) (hB : Holds B N N g) (hne : matProd N f g (N - 1) (N - 1) ≠ 0) :
    ∃ recip C, @Reciprocal.matrix_multiply Int (exact Int) recip Combined.blocking N A B 1 (.ok C) ∧
      C[(N - 1) * N + (N - 1)]? = some ((1 + ceilDiv N 256) * matProd N f g (N - 1) (N - 1)) ∧
      C ≠ rowMajor N (matProd N f g) := by
  have hcx : (ceilDiv N 420 - 1) * 420 ≤ N - 1 := by clear hne; unfold ceilDiv; omega
  have hcy' : (ceilDiv N 256 - 1) * 256 ≤ N - 1 := by clear hne hcx; unfold ceilDiv; omega
  have hcy : 1 ≤ ceilDiv N 256 := by clear hne hcx hcy'; unfold ceilDiv; omega
  have hc : ceilDiv N 420 = 3 := by clear hne hcx hcy' hcy; unfold ceilDiv; omega
  have hne' : Reciprocal.count true (ceilDiv N 420 * 420) 420 ≠ .ok (ceilDiv N 420) := by
    rw [hc, C106_count_420]
    intro h
    cases h
  have hw := C106_combined_wrong_exact (fun _ _ _ _ => true) (fun _ => rfl) N (by omega) (by omega) hne' A B f g
    hA hB 1
  have hN : N - 1 < N := by omega
  have e : (rowMajor N fun i j => (1 * extraRuns N i j) • matProd N f g i j)[(N - 1) * N + (N - 1)]? =
      some ((1 + ceilDiv N 256) * matProd N f g (N - 1) (N - 1)) := by
    rw [holds_rect N N _ (N - 1) hN (N - 1) hN]
    unfold extraRuns
    rw [if_pos ⟨hcx, hcy'⟩, one_mul, nsmul_eq_mul]
    push_cast
    rfl
  refine ⟨_, _, hw, e, fun hC => ?_⟩
  rw [hC, holds_rect N N _ (N - 1) hN (N - 1) hN] at e
  have e := Option.some.inj e
  have h3 : (ceilDiv N 256 : Int) * matProd N f g (N - 1) (N - 1) = 0 := by linarith
  rcases mul_eq_zero.1 h3 with h4 | h4
  · omega
  · exact hne h4

/-- **C106.** In this case every repetition (whatever `C_padded` contains at its start) has an interleaving
in which two tasks are about to write the same element of `C_padded`, unless the product is zero in the
last block. -/
theorem C106_race (recip : List Nat → List Nat → List Nat → Nat → Bool)
    (hrecip : ∀ mx, recip [0, 0, 0] mx [420, 256, 256] 0 = true) (N : Nat) (hN : N < 2 ^ 51)
    (h : Reciprocal.count true (ceilDiv N 420 * 420) 420 ≠ .ok (ceilDiv N 420))
    (A B : Array Int) (f g : Nat → Nat → Int) (hA : Holds A N N f) (hB : Holds B N N g) (C : Array Int)
    (i j : Nat) (hi : i < N) (hj : j < N) (hi' : (ceilDiv N 420 - 1) * 420 ≤ i)
    (hj' : (ceilDiv N 256 - 1) * 256 ≤ j) (hne : matProd N f g i j ≠ 0) :
    letI := exact Int
    ∃ p At Bp pl, setup Combined.blocking N A B = .ok p ∧ tileA Combined.blocking p = .ok At ∧
      tileB Combined.blocking p = .ok Bp ∧ Combined.policy Combined.blocking = .ok pl ∧
      ∃ m t c, PSteps (Mem.ofArray C) (Reciprocal.tree recip Combined.blocking pl p.X_size p.Y_size p.K_size At
        Bp) m t ∧ RaceOn (.cell c) t := by
  let _ := exact Int
  have hb := Combined.valid
  obtain ⟨QX, hX⟩ := X_eq hb N
  obtain ⟨QY, hY⟩ := Y_eq hb N
  obtain ⟨QK, hK⟩ := K_eq hb N
  have dX : Combined.blocking.L3_X ∣ QX * Combined.blocking.L1_X := hX ▸ Dvd.intro_left _ rfl
  have dY : Combined.blocking.L3_Y ∣ QY * Combined.blocking.L1_Y := hY ▸ Dvd.intro_left _ rfl
  have dK : Combined.blocking.L3_K_STEP ∣ QK * Combined.blocking.L1_K_STEP := hK ▸ Dvd.intro_left _ rfl
  obtain ⟨At, eA, _, hAt⟩ := tileA_ok (b := Combined.blocking) (p := ⟨X Combined.blocking N,
    Y Combined.blocking N, K Combined.blocking N, rect (X Combined.blocking N) (K Combined.blocking N) (pad N f),
    rect (K Combined.blocking N) (Y Combined.blocking N) (pad N g)⟩) hX hK hb.x1 hb.k1 (holds_rect _ _ _)
  obtain ⟨Bp, eB, _, hBp⟩ := tileB_ok (b := Combined.blocking) (p := ⟨X Combined.blocking N,
    Y Combined.blocking N, K Combined.blocking N, rect (X Combined.blocking N) (K Combined.blocking N) (pad N f),
    rect (K Combined.blocking N) (Y Combined.blocking N) (pad N g)⟩) hY hK hb.y1 hb.k1 (holds_rect _ _ _)
  refine ⟨_, At, Bp, _, setup_ok hb hA hB, eA, eB, Combined.policy_ok _, ?_⟩
  have hiX : i < QX * Combined.blocking.L1_X := hX ▸ hi.trans_le (le_padded hb.x3)
  have hjY : j < QY * Combined.blocking.L1_Y := hY ▸ hj.trans_le (le_padded hb.y3)
  have hbx : i / Combined.blocking.L1_X < QX := (Nat.div_lt_iff_lt_mul hb.x1).2 hiX
  have hby : j / Combined.blocking.L1_Y < QY := (Nat.div_lt_iff_lt_mul hb.y1).2 hjY
  have ei : i / Combined.blocking.L1_X * Combined.blocking.L1_X + i % Combined.blocking.L1_X = i := by
    rw [Nat.mul_comm]; exact Nat.div_add_mod _ _
  have ej : j / Combined.blocking.L1_Y * Combined.blocking.L1_Y + j % Combined.blocking.L1_Y = j := by
    rw [Nat.mul_comm]; exact Nat.div_add_mod _ _
  have hXe := one_more hrecip hN h
  have hYe : Reciprocal.Exact (Y Combined.blocking N) Combined.blocking.L3_Y := exact_YK hN
  have hKe : Reciprocal.Exact (K Combined.blocking N) Combined.blocking.L3_K_STEP := exact_YK hN
  have hi2 : X Combined.blocking N - Combined.blocking.L3_X ≤ i := by
    rw [Nat.sub_mul, Nat.one_mul] at hi'
    exact hi'
  have hj2 : Y Combined.blocking N - Combined.blocking.L3_Y ≤ j := by
    rw [Nat.sub_mul, Nat.one_mul] at hj'
    exact hj'
  have hKN : N ≤ QK * Combined.blocking.L1_K_STEP := hK ▸ le_padded hb.k3
  rw [hX, hY, hK] at hXe
  rw [hX] at hi2
  rw [hY] at hYe hj2
  rw [hK] at hKe
  simp only [hX, hY, hK]
  obtain ⟨m, t, h1, h2⟩ := Reciprocal.race_wrong hb exact_420_70 (exact_pow2 (k := 6) (n := 256) (by norm_num)
    (by norm_num)) (exact_pow2 (k := 7) (n := 256) (by norm_num) (by norm_num)) hYe hKe hXe (Nat.zero_lt_of_lt hbx)
    (Nat.zero_lt_of_lt hby) dX dY dK hAt hBp hbx hby (Nat.mod_lt i hb.x1) (Nat.mod_lt j hb.y1) (by rw [ei]; exact hi2)
    (by rw [ej]; exact hj2) (fun v => by
      rw [ei, ej, bdotFrom_exact, sum_pad hKN f g hi hj]
      intro e
      exact hne (by have : (v : Int) + ∑ k ∈ Finset.range N, f i k * g k j = v := e
                    show ∑ k ∈ Finset.range N, f i k * g k j = 0
                    linarith)) (Mem.ofArray C)
  exact ⟨m, t, _, h1, h2⟩

section Examples

/-- sizes whose number of blocks of 420 rows is a power of two -/
example : ∃ j, ceilDiv 840 420 = 2 ^ j := ⟨1, rfl⟩
example : ∃ j, ceilDiv 1500 420 = 2 ^ j := ⟨2, rfl⟩

/-- five blocks with a product with the reciprocal and with a division -/
example : Reciprocal.count true (5 * 420) 420 = .ok 6 := by decide +kernel
example : Reciprocal.count false (5 * 420) 420 = .ok 5 := by decide +kernel

/-- one block of 49 is counted as one, as the number of blocks is a power of two, though `49 * (1 / 49)`
is below one -/
example : Reciprocal.count true (1 * 49) 49 = .ok 1 := C106_count_pow2 true 0 49 (by norm_num) (by norm_num)

/-- 1000 × 1000 matrices of ones -/
example : ∃ recip C, @Reciprocal.matrix_multiply Int (exact Int) recip Combined.blocking 1000
      (rowMajor 1000 fun _ _ => 1) (rowMajor 1000 fun _ _ => 1) 1 (.ok C) ∧
      C[999 * 1000 + 999]? = some ((1 + 4) * 1000) ∧
      C ≠ rowMajor 1000 (matProd 1000 (fun _ _ => 1) (fun _ _ => 1)) := by
  have e : matProd 1000 (fun _ _ => (1 : Int)) (fun _ _ => 1) 999 999 = 1000 := by simp [matProd]
  obtain ⟨recip, C, h1, h2, h3⟩ := C106_combined_1260 1000 (by norm_num) (by norm_num) _ _ (fun _ _ => 1)
    (fun _ _ => 1) (holds_rect _ _ _) (holds_rect _ _ _) (by rw [e]; norm_num)
  rw [e] at h2
  exact ⟨recip, C, h1, h2, h3⟩

/-- the same for 1024 × 1024 matrices: the hypotheses of the theorems on wrong counts -/
example : Reciprocal.count true (ceilDiv 1024 420 * 420) 420 ≠ .ok (ceilDiv 1024 420) := by decide +kernel

/-- the product of 840 × 840 matrices, divisions or not -/
example (recip : List Nat → List Nat → List Nat → Nat → Bool) :
    @Reciprocal.matrix_multiply Int (exact Int) recip Combined.blocking 840
      (rowMajor 840 fun i j => i + j) (rowMajor 840 fun i j => i * j) 1 =
      @Combined.matrix_multiply Int (exact Int) Combined.blocking 840
      (rowMajor 840 fun i j => i + j) (rowMajor 840 fun i j => i * j) 1 := by
  rw [@C106_combined_pow2 Int (exact Int) recip 840 1 (by norm_num) rfl _ _ _ _ (holds_rect _ _ _)
    (holds_rect _ _ _), @C35_combined Int (exact Int) Combined.blocking Combined.valid 840 _ _ _ _
    (holds_rect _ _ _) (holds_rect _ _ _)]
  rfl

/-- a race for 1000 × 1000 matrices of ones -/
example : letI := exact Int
    ∃ p At Bp pl, setup Combined.blocking 1000 (rowMajor 1000 fun _ _ => (1 : Int))
        (rowMajor 1000 fun _ _ => 1) = .ok p ∧ tileA Combined.blocking p = .ok At ∧
      tileB Combined.blocking p = .ok Bp ∧ Combined.policy Combined.blocking = .ok pl ∧
      ∃ m t c, PSteps (Mem.ofArray (#[] : Array Int)) (Reciprocal.tree (fun _ _ _ _ => true) Combined.blocking pl p.X_size
        p.Y_size p.K_size At Bp) m t ∧ RaceOn (.cell c) t :=
  C106_race (fun _ _ _ _ => true) (fun _ => rfl) 1000 (by norm_num) (by decide +kernel) _ _ (fun _ _ => 1)
    (fun _ _ => 1) (holds_rect _ _ _) (holds_rect _ _ _) _ 900 800 (by norm_num) (by norm_num) (by decide)
    (by decide) (by simp [matProd])

end Examples

end Verif.Props
