import Verif.Proof.Integers
import Verif.Props.Agree
/-
C87: products of matrices of integers are exact in floating-point arithmetic.
-/
namespace Verif.Props
open Kernel
variable {α : Type} [Arith α] {ιA ιB ι : Int → α} {lim : Int} {N : Nat} {a b : Nat → Nat → Int}

/-- The matrix of floating-point numbers that means the matrix `a` of integers. -/
def asFloat (ι : Int → α) (a : Nat → Nat → Int) : Nat → Nat → α := fun i j => ι (a i j)

/-- Entries up to the limit of exact integers (`2^53`). -/
def Entries (lim : Int) (N : Nat) (a b : Nat → Nat → Int) : Prop :=
  ∀ i, i < N → ∀ j, j < N → |a i j| ≤ lim ∧ |b i j| ≤ lim

/-- The sums of absolute values do not exceed the limit of exact integers (`2^53`), nor do the entries. -/
def Small (lim : Int) (N : Nat) (a b : Nat → Nat → Int) : Prop :=
  Entries lim N a b ∧ ∀ i, i < N → ∀ j, j < N → ∑ k ∈ Finset.range N, |a i k * b k j| ≤ lim

/-- The exact product as matrix of floating-point numbers. -/
def exactProduct (ι : Int → α) (N : Nat) (a b : Nat → Nat → Int) : ND (Array α) :=
  ND.pure (rowMajor N (asFloat ι fun i j => ∑ k ∈ Finset.range N, a i k * b k j))

private theorem bdot_int (h : ExactOnIntegers ιA ιB ι lim) (hs : Small lim N a b) {bs : Nat}
    (hd : bs ∣ N) {i j : Nat} (hi : i < N) (hj : j < N) :
    bdot bs (N / bs) (asFloat ιA a i) (fun k => asFloat ιB b k j) =
      ι (∑ k ∈ Finset.range N, a i k * b k j) := by
  have hN : N / bs * bs = N := Nat.div_mul_cancel hd
  have := h.bdot_shift (a i) (fun k => b k j) bs (N / bs)
    (fun k hk => ⟨(hs.1 i hi k (by omega)).1, (hs.1 k (by omega) j hj).2⟩)
    (by rw [hN]; exact hs.2 i hi j hj)
  rw [hN] at this
  exact this

private theorem dot_int (h : ExactOnIntegers ιA ιB ι lim) (hs : Small lim N a b)
    {i j : Nat} (hi : i < N) (hj : j < N) :
    dot N (asFloat ιA a i) (fun k => asFloat ιB b k j) = ι (∑ k ∈ Finset.range N, a i k * b k j) :=
  h.dot_shift (a i) (fun k => b k j) N
    (fun k hk => ⟨(hs.1 i hi k hk).1, (hs.1 k hk j hj).2⟩) (hs.2 i hi j hj)

private theorem entry_int (h : ExactOnIntegers ιA ιB ι lim) (hs : Small lim N a b)
    {i j : Nat} (hi : i < N) (hj : j < N) (t : Bool) (bi s : Nat)
    (hd : t = true → bi ≠ 0 → 4 ≤ s → bi ∣ N) :
    submatrixEntry N (asFloat ιA a) (asFloat ιB (if t then tr b else b)) t bi s i j =
      ι (∑ k ∈ Finset.range N, a i k * b k j) := by
  unfold submatrixEntry
  cases t with
  | false => exact dot_int h hs hi hj
  | true =>
    rw [if_neg (by decide)]
    split
    · exact dot_int h hs hi hj
    · exact bdot_int h hs (hd rfl (by omega) (by omega)) hi hj

/-- An integer matrix padded with zeros. -/
private def padInt (N : Nat) (f : Nat → Nat → Int) (i j : Nat) : Int := if i < N ∧ j < N then f i j else 0

private theorem pad_float {ι : Int → α} (h0 : ι 0 = Arith.zero) (f : Nat → Nat → Int) (i j : Nat) :
    Tiled.pad N (asFloat ι f) i j = ι (padInt N f i j) := by
  unfold Tiled.pad padInt asFloat
  split
  · rfl
  · exact h0.symm

private theorem pad_sum {M : Nat} (hM : N ≤ M) {i j : Nat} (hi : i < N) (hj : j < N) (F : Int → Int)
    (hF : F 0 = 0) :
    ∑ k ∈ Finset.range M, F (padInt N a i k * padInt N b k j) =
      ∑ k ∈ Finset.range N, F (a i k * b k j) := by
  obtain ⟨d, rfl⟩ := Nat.exists_eq_add_of_le hM
  rw [Finset.sum_range_add]
  have h1 : ∑ x ∈ Finset.range d, F (padInt N a i (N + x) * padInt N b (N + x) j) = 0 := by
    refine Finset.sum_eq_zero fun x _ => ?_
    rw [show padInt N a i (N + x) = 0 from if_neg (by omega), zero_mul, hF]
  rw [h1, add_zero]
  refine Finset.sum_congr rfl fun k hk => ?_
  rw [Finset.mem_range] at hk
  rw [show padInt N a i k = a i k from if_pos ⟨hi, hk⟩, show padInt N b k j = b k j from if_pos ⟨hk, hj⟩]

private theorem pad_repeat (h : ExactOnIntegers ιA ιB ι lim) {r bs nb : Nat} (hM : N ≤ nb * bs)
    {i j : Nat} (hi : i < N) (hj : j < N) (he : Entries lim N a b)
    (hs : r * ∑ k ∈ Finset.range N, |a i k * b k j| ≤ lim) :
    Tiled.repeatDot r bs nb (fun k => Tiled.pad N (asFloat ιA a) i k)
      (fun k => Tiled.pad N (asFloat ιB b) k j) = ι (r * ∑ k ∈ Finset.range N, a i k * b k j) := by
  have e1 := pad_sum (a := a) (b := b) hM hi hj id rfl
  have e2 := pad_sum (a := a) (b := b) hM hi hj abs abs_zero
  simp only [id] at e1
  rw [← e2] at hs
  have h0 : 0 ≤ lim := (abs_nonneg _).trans (he i hi j hj).1
  have := h.repeat_shift (fun k => padInt N a i k) (fun k => padInt N b k j) r bs nb (fun k _ => by
    unfold padInt
    by_cases hk : k < N
    · rw [if_pos ⟨hi, hk⟩, if_pos ⟨hk, hj⟩]
      exact ⟨(he i hi k hk).1, (he k hk j hj).2⟩
    · rw [if_neg (by omega), if_neg (by omega), abs_zero]
      exact ⟨h0, h0⟩) hs
  rw [e1] at this
  rw [← this]
  congr 1 <;> funext k
  · exact pad_float h.zeroA a i k
  · exact pad_float h.zeroB b k j

private theorem pad_bdot (h : ExactOnIntegers ιA ιB ι lim) (hs : Small lim N a b) {bs nb : Nat}
    (hM : N ≤ nb * bs) {i j : Nat} (hi : i < N) (hj : j < N) :
    bdot bs nb (fun k => Tiled.pad N (asFloat ιA a) i k) (fun k => Tiled.pad N (asFloat ιB b) k j) =
      ι (∑ k ∈ Finset.range N, a i k * b k j) := by
  have := pad_repeat h (r := 1) hM hi hj hs.1
    (by rw [Nat.cast_one, one_mul]; exact hs.2 i hi j hj)
  rw [Nat.cast_one, one_mul] at this
  exact this

/-- **C87.** The naive multiplication. -/
theorem C87_naive (h : ExactOnIntegers ιA ιB ι lim) (hs : Small lim N a b) (A B : Array α)
    (hA : Holds A N N (asFloat ιA a)) (hB : Holds B N N (asFloat ιB b)) :
    (Naive.naive_matrix_multiply N A B : ND _) = exactProduct ι N a b := by
  rw [C01_naive N A B _ _ hA hB]
  exact congrArg ND.pure (rect_congr fun i hi j hj => dot_int h hs hi hj)

/-- **C87.** The naive multiplication with `B` transposed. -/
theorem C87_naive_transposed (h : ExactOnIntegers ιA ιB ι lim) (hs : Small lim N a b)
    (A Bt : Array α) (hA : Holds A N N (asFloat ιA a)) (hB : Holds Bt N N (asFloat ιB (tr b))) :
    (Naive.naive_matrix_multiply_transposed N A Bt : ND _) = exactProduct ι N a b := by
  rw [C02_naive_transposed N A Bt _ _ hA hB]
  exact congrArg ND.pure (rect_congr fun i hi j hj => dot_int h hs hi hj)

/-- **C87.** `single`. -/
theorem C87_single (h : ExactOnIntegers ιA ιB ι lim) (hs : Small lim N a b) (e s : Nat)
    (A B : Array α) (transposed : Bool) (br bi reps : Nat) (hA : Holds A N N (asFloat ιA a))
    (hB : Holds B N N (asFloat ιB (if transposed then tr b else b))) (hN : N = 2 ^ e * s)
    (hbr : s ≤ br) (he : ∀ d, d < e → br < 2 ^ (d + 1) * s)
    (hdiv : transposed = true → bi ≠ 0 → 4 ≤ s → 4 ∣ s ∧ bi ∣ N) (hr : 0 < reps) :
    Recursive.single_matrix_multiply N A B transposed br bi reps = exactProduct ι N a b := by
  rw [C10_single N e s A B _ _ transposed br bi reps hA hB hN hbr he hdiv hr]
  exact congrArg ND.pure (rect_congr fun i hi j hj =>
    entry_int h hs hi hj _ _ _ fun h1 h2 h3 => (hdiv h1 h2 h3).2)

/-- **C87.** `single` with a power of two as size. -/
theorem C87_single_pow2 (h : ExactOnIntegers ιA ιB ι lim) (e : Nat) (hs : Small lim (2 ^ e) a b)
    (A B : Array α) (transposed : Bool) (br bi reps : Nat)
    (hA : Holds A (2 ^ e) (2 ^ e) (asFloat ιA a))
    (hB : Holds B (2 ^ e) (2 ^ e) (asFloat ιB (if transposed then tr b else b))) (hbr : 1 ≤ br)
    (hbi : bi = 0 ∨ bi ∣ 2 ^ e) (hr : 1 ≤ reps) :
    Recursive.single_matrix_multiply (2 ^ e) A B transposed br bi reps =
      exactProduct ι (2 ^ e) a b := by
  obtain ⟨d, hd, h1, h2⟩ := StaticImproved.halving_stops hbr e
  refine C87_single h hs (e - d) (2 ^ d * 1) A B transposed br bi reps hA hB ?_ h1 h2 ?_ hr
  · rw [Nat.mul_one, ← Nat.pow_add]; congr 1; omega
  · intro _ h3 h4
    rw [Nat.mul_one] at h4 ⊢
    refine ⟨?_, hbi.resolve_left h3⟩
    have : 2 ≤ d := by
      rcases Nat.lt_or_ge d 2 with h | h
      · have : d = 0 ∨ d = 1 := by omega
        rcases this with rfl | rfl <;> simp at h4
      · exact h
    exact Nat.pow_dvd_pow 2 this

/-- **C87.** `pseudodynamic`, for every number of localities. -/
theorem C87_pseudodynamic (h : ExactOnIntegers ιA ιB ι lim) (hs : Small lim N a b)
    (p : StaticImproved.Params) (e q : Nat) (A B : Array α) (transposed : Bool) (br bi reps L : Nat)
    (hA : Holds A N N (asFloat ιA a))
    (hB : Holds B N N (asFloat ιB (if transposed then tr b else b))) (hN : N = 2 ^ e * q)
    (hq : q ≤ p.min_work_size) (hbr : q ≤ br) (hL : 0 < L) (hr : 0 < reps)
    (hdiv : transposed = true → bi ≠ 0 → bi ∣ N ∧ ∀ d, d ≤ e → 4 ≤ 2 ^ d * q → 4 ∣ 2 ^ d * q) :
    StaticImproved.pseudodynamic_matrix_multiply p N A B transposed br bi reps L =
      exactProduct ι N a b := by
  obtain ⟨G, hG, hE⟩ := C22_pseudodynamic_entries p N e q A B _ _ transposed br bi reps L hA hB hN hq
    hbr hL hr hdiv
  rw [hG]
  refine congrArg ND.pure (rect_congr fun i hi j hj => ?_)
  obtain ⟨d, _, he⟩ := hE i hi j hj
  rw [he]
  exact entry_int h hs hi hj _ _ _ fun h1 h2 _ => (hdiv h1 h2).1

/-- **C87.** `algorithms`. -/
theorem C87_algorithms (h : ExactOnIntegers ιA ιB ι lim) (hs : Small lim N a b) (A Bt : Array α)
    (hA : Holds A N N (asFloat ιA a)) (hB : Holds Bt N N (asFloat ιB (tr b))) (bi br : Nat)
    (hbi : 0 < bi) (hbr : 0 < br) (hdi : bi ∣ N) (hdr : br ∣ N) :
    Algorithms.matrix_multiply N A Bt bi br = exactProduct ι N a b := by
  rw [C24_algorithms N A Bt _ _ hA hB bi br hbi hbr hdi hdr]
  exact congrArg ND.pure (rect_congr fun i hi j hj => bdot_int h hs hdi hi hj)

/-- **C87.** `looped`. -/
theorem C87_looped (h : ExactOnIntegers ιA ιB ι lim) (hs : Small lim N a b) (A Bt : Array α)
    (hA : Holds A N N (asFloat ιA a)) (hB : Holds Bt N N (asFloat ιB (tr b))) (br bi : Nat)
    (hbr : 0 < br) (hbi : 0 < bi) (hdr : br ∣ N) (hdi : bi ∣ N) :
    ND.ofM (Looped.matrix_multiply N A Bt br bi) = exactProduct ι N a b := by
  rw [(C26_looped N A Bt _ _ hA hB br bi hbr hbi hdr hdi).1]
  exact congrArg ND.pure (rect_congr fun i hi j hj => dot_int h hs hi hj)

/-- **C87.** `semi`. -/
theorem C87_semi (h : ExactOnIntegers ιA ιB ι lim) (hs : Small lim N a b) (A Bt : Array α)
    (hA : Holds A N N (asFloat ιA a)) (hB : Holds Bt N N (asFloat ιB (tr b))) (bi : Nat)
    (h4 : 4 ∣ N) (hbi : 0 < bi) (hd : bi ∣ N) :
    Semi.matrix_multiply N A Bt bi = exactProduct ι N a b := by
  rw [C32_semi N A Bt _ _ hA hB bi h4 hbi hd]
  exact congrArg ND.pure (rect_congr fun i hi j hj => bdot_int h hs hd hi hj)

/-- **C87.** `combined`: `r` repetitions give exactly `r` times the product. -/
theorem C87_combined (h : ExactOnIntegers ιA ιB ι lim) (r : Nat) (A B : Array α)
    (he : Entries lim N a b)
    (hs : ∀ i, i < N → ∀ j, j < N → r * ∑ k ∈ Finset.range N, |a i k * b k j| ≤ lim)
    (hA : Holds A N N (asFloat ιA a)) (hB : Holds B N N (asFloat ιB b)) :
    Combined.matrix_multiply Combined.blocking N A B r = ND.pure (rowMajor N
      (asFloat ι fun i j => r * ∑ k ∈ Finset.range N, a i k * b k j)) := by
  rw [C35_combined _ Combined.valid N A B _ _ hA hB r]
  refine congrArg ND.pure (rect_congr fun i hi j hj => pad_repeat h ?_ hi hj he (hs i hi j hj))
  rw [blocks_mul Combined.valid]
  exact Tiled.le_padded Combined.valid.k3

/-- **C87.** `kernel_tiled`. -/
theorem C87_kernel_tiled (h : ExactOnIntegers ιA ιB ι lim) (hs : Small lim N a b) (A B : Array α)
    (hA : Holds A N N (asFloat ιA a)) (hB : Holds B N N (asFloat ιB b)) (t : Bool) (reps : Nat)
    (hr : 1 ≤ reps) :
    KernelTiled.matrix_multiply KernelTiled.blocking N A B t reps = exactProduct ι N a b := by
  rw [C37_kernel_tiled _ KernelTiled.valid N A B _ _ hA hB t reps]
  refine congrArg ND.pure (rect_congr fun i hi j hj => ?_)
  rw [if_neg (by omega)]
  refine pad_bdot h hs ?_ hi hj
  rw [blocks_mul KernelTiled.valid]
  exact Tiled.le_padded KernelTiled.valid.k3

/-- **C87.** `kernel_test`, for its safe sizes. -/
theorem C87_kernel_test (h : ExactOnIntegers ιA ιB ι lim) (hs : Small lim N a b) (hN : SafeSize N)
    (A B : Array α) (hA : Holds A N N (asFloat ιA a)) (hB : Holds B N N (asFloat ιB b)) (t : Bool)
    (reps : Nat) (hr : 1 ≤ reps) :
    KernelTest.matrix_multiply N A B t reps = exactProduct ι N a b := by
  rw [C39_kernel_test N hN A B _ _ hA hB t reps hr]
  refine congrArg ND.pure (rect_congr fun i hi j hj => pad_bdot h hs ?_ hi hj)
  unfold ceilDiv
  omega

section Examples

/-- Integers with 8 significant bits, truncated: exact up to 255. -/
private def trunc (x : Int) : Int := x - x % (2 ^ (Nat.log2 x.natAbs - 7) : Nat)

@[reducible] private def eight : Arith Int where
  zero := 0
  add x y := trunc (x + y)
  mac acc x y := trunc (acc + trunc (x * y))

private theorem trunc_small {x : Int} (h : |x| ≤ 255) : trunc x = x := by
  rw [Int.abs_eq_natAbs] at h
  have hl : Nat.log2 x.natAbs - 7 = 0 := by
    rcases Nat.eq_zero_or_pos x.natAbs with h0 | h0
    · rw [h0]; decide
    · have := (Nat.log2_lt (n := x.natAbs) (k := 8) (by omega)).2 (by omega)
      omega
  unfold trunc
  rw [hl]
  simp

private theorem eight_exact : @ExactOnIntegers Int eight id id id 255 :=
  @ExactOnIntegers.mk Int eight id id id 255 rfl rfl rfl (fun _ _ _ _ h => trunc_small h) fun c x y _ _ _ h1 h2 => by
    show trunc (c + trunc (x * y)) = c + x * y
    rw [trunc_small h1, trunc_small h2]

-- beyond the limit sums are not exact
example : eight.mac 256 1 1 ≠ 257 := by decide

private def fA : Nat → Nat → Int := fun i k => (i : Int) - k
private def fB : Nat → Nat → Int := fun k j => if k ≤ j then 1 else -2

private theorem small : Small 255 8 fA fB := by unfold Small Entries; decide

private theorem hA : Holds (rowMajor 8 fA) 8 8 (asFloat id fA) := holds_rect 8 8 fA
private theorem hB : Holds (rowMajor 8 fB) 8 8 (asFloat id fB) := holds_rect 8 8 fB
private theorem hBt : Holds (rowMajor 8 (tr fB)) 8 8 (asFloat id (tr fB)) := holds_rect 8 8 (tr fB)

example : @Recursive.single_matrix_multiply Int eight 8 (rowMajor 8 fA) (rowMajor 8 (tr fB)) true 4 2 1 =
    exactProduct id 8 fA fB :=
  @C87_single_pow2 Int eight id id id 255 fA fB eight_exact 3 small _ _ true 4 2 1 hA hBt (by decide)
    (.inr ⟨4, rfl⟩) (by decide)

example : @StaticImproved.pseudodynamic_matrix_multiply Int eight ⟨2, 0, fun _ _ => false⟩ 8
    (rowMajor 8 fA) (rowMajor 8 fB) false 2 0 1 5 = exactProduct id 8 fA fB :=
  @C87_pseudodynamic Int eight id id id 255 8 fA fB eight_exact small _ 3 1 _ _ false 2 0 1 5 hA hB rfl
    (by decide) (by decide) (by decide) (by decide) (by simp)

example : @Algorithms.matrix_multiply Int eight 8 (rowMajor 8 fA) (rowMajor 8 (tr fB)) 2 4 =
    exactProduct id 8 fA fB :=
  @C87_algorithms Int eight id id id 255 8 fA fB eight_exact small _ _ hA hBt 2 4 (by decide) (by decide)
    ⟨4, rfl⟩ ⟨2, rfl⟩

example : @Semi.matrix_multiply Int eight 8 (rowMajor 8 fA) (rowMajor 8 (tr fB)) 2 =
    exactProduct id 8 fA fB :=
  @C87_semi Int eight id id id 255 8 fA fB eight_exact small _ _ hA hBt 2 ⟨2, rfl⟩ (by decide) ⟨4, rfl⟩

example : @Combined.matrix_multiply Int eight Combined.blocking 8 (rowMajor 8 fA) (rowMajor 8 fB) 3 =
    ND.pure (rowMajor 8 (asFloat id fun i j => 3 * ∑ k ∈ Finset.range 8, fA i k * fB k j)) :=
  @C87_combined Int eight id id id 255 8 fA fB eight_exact 3 _ _ small.1 (by decide) hA hB

example : @KernelTiled.matrix_multiply Int eight KernelTiled.blocking 8 (rowMajor 8 fA) (rowMajor 8 fB)
    true 3 = exactProduct id 8 fA fB :=
  @C87_kernel_tiled Int eight id id id 255 8 fA fB eight_exact small _ _ hA hB true 3 (by decide)

-- fractions: halves times quarters are eighths
example : @ExactOnIntegers Int eight (fun x => 2 * x) (fun y => 4 * y) (fun z => 8 * z) 31 := by
  refine @ExactOnIntegers.mk Int eight _ _ _ 31 rfl rfl rfl (fun x y _ _ h => ?_) fun c x y _ _ _ h1 h2 => ?_
  · show trunc (8 * x + 8 * y) = 8 * (x + y)
    rw [← mul_add, trunc_small]
    rw [abs_le] at *
    omega
  · show trunc (8 * c + trunc (2 * x * (4 * y))) = 8 * (c + x * y)
    have e : 2 * x * (4 * y) = 8 * (x * y) := by ring
    rw [e, trunc_small (x := 8 * (x * y)), ← mul_add, trunc_small]
    · rw [abs_le] at *
      omega
    · rw [abs_le] at *
      omega

end Examples
end Verif.Props
