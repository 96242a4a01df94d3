import Verif.Proof.Summation
import Verif.Props.Rounding
import Verif.Props.Integers
import Verif.Props.Experiments
import Verif.Props.ExperimentsBlocked
import Verif.Props.Double
/-
C99: rounding errors and integers in the kernels of otherExperiments, and in every other order of
summation.
-/
namespace Verif.Props
open Kernel Experiments
variable {K : Type} [Field K] [LinearOrder K] [IsStrictOrderedRing K]

/-! ### every order of summation -/

/-- **C99.** A sum without additions of empty sums passes every product through at most one rounding
more than there are products. -/
theorem C99_rounds (n : Nat) (e : Summation) (h : e.Complete n) (hc : e.Compact) : e.rounds ≤ n + 1 := by
  have := hc.rounds
  rwa [h.length_eq, List.length_range] at this

/-- **C99.** Whatever order is chosen for each entry: the rounding errors are bounded. -/
theorem C99_bound {α : Type} [Arith α] (r : Rounding K α) (n m : Nat) (a b : Nat → Nat → α)
    (e : Nat → Nat → Summation) (he : ∀ i, i < n → ∀ j, j < n → (e i j).Complete n ∧ (e i j).rounds ≤ m)
    (h : NoOverflow r n m n a b) :
    ApproxProduct r n m n a b
      (ND.pure (rowMajor n fun i j => (e i j).eval (a i) fun k => b k j)) := by
  refine ⟨_, rfl, fun i hi j hj => ?_⟩
  obtain ⟨hc, hm⟩ := he i hi j hj
  have hl : (e i j).products.length = n := by rw [hc.length_eq, List.length_range]
  have e1 := hc.sum fun k => r.value (a i k) * r.value (b k j)
  have e2 := hc.sum fun k => |r.value (a i k) * r.value (b k j)|
  have h0 := Rounding.sum_abs_nonneg n fun k => r.value (a i k) * r.value (b k j)
  have := (e i j).eval_approx (r := r) (f := a i) (g := fun k => b k j) (fun k hk => by
      have hk := List.mem_range.1 (hc.mem_iff.1 hk)
      exact ⟨(h.finite i hi k hk).1, (h.finite k hk j hj).2⟩)
    (by rw [hl, e2]; exact (h.fits i hi j hj).mono hm (Nat.le_refl _) h0 (le_refl _))
  rw [hl, e1, e2] at this
  exact this.mono hm (Nat.le_refl _) h0 (le_refl _)

/-- **C99.** Whatever order is chosen for each entry: products of matrices of small integers are
exact. -/
theorem C99_integers {α : Type} [Arith α] {ιA ιB ι : Int → α} {lim : Int}
    (h : ExactOnIntegers ιA ιB ι lim) (n : Nat) (a b : Nat → Nat → Int) (hs : Small lim n a b)
    (e : Nat → Nat → Summation) (he : ∀ i, i < n → ∀ j, j < n → (e i j).Complete n) :
    ND.pure (rowMajor n fun i j => (e i j).eval (asFloat ιA a i) fun k => asFloat ιB b k j) =
      exactProduct ι n a b := by
  refine congrArg ND.pure (rect_congr fun i hi j hj => ?_)
  have hc := he i hi j hj
  refine ((e i j).eval_int h (a i) (fun k => b k j) (fun k hk => ?_) ?_).trans
    (congrArg ι (hc.sum fun k => a i k * b k j))
  · have hk := List.mem_range.1 (hc.mem_iff.1 hk)
    exact ⟨(hs.1 i hi k hk).1, (hs.1 k hk j hj).2⟩
  · rw [hc.sum fun k => |a i k * b k j|]
    exact hs.2 i hi j hj

/-- **C99.** Whatever order is chosen for each entry: in exact arithmetic this is the product. -/
theorem C99_exact {R : Type} [Semiring R] (n : Nat) (a b : Nat → Nat → R) (e : Summation)
    (he : e.Complete n) (i j : Nat) :
    @Summation.eval R (exact R) (a i) (fun k => b k j) e = ∑ k ∈ Finset.range n, a i k * b k j := by
  rw [Summation.eval_exact, he.sum]

/-- **C99.** Doubles up to `2^500` and less than `2^20` rows: whatever order is chosen for each entry,
and whichever products are fused, the error is at most that of `n + 1` roundings. -/
theorem C99_doubles (fuse : IEEE.Double → IEEE.Double → IEEE.Double → Bool) (n : Nat) (hn : n ≤ 2 ^ 20)
    (a b : Nat → Nat → IEEE.Double)
    (ha : ∀ i, i < n → ∀ j, j < n → (a i j).finite ∧ |(a i j).value| ≤ 2 ^ (500 : ℤ))
    (hb : ∀ i, i < n → ∀ j, j < n → (b i j).finite ∧ |(b i j).value| ≤ 2 ^ (500 : ℤ))
    (e : Nat → Nat → Summation)
    (he : ∀ i, i < n → ∀ j, j < n → (e i j).Complete n ∧ (e i j).Compact) :
    letI := IEEE.Double.arith fuse
    ApproxProduct (IEEE.Double.rounding fuse) n (n + 1) n a b
      (ND.pure (rowMajor n fun i j => (e i j).eval (a i) fun k => b k j)) :=
  @C99_bound ℚ _ _ _ IEEE.Double (IEEE.Double.arith fuse) _ n (n + 1) a b e
    (fun i hi j hj => ⟨(he i hi j hj).1, C99_rounds n _ (he i hi j hj).1 (he i hi j hj).2⟩)
    (C97_no_overflow fuse hn (by omega) (by omega) ha hb)

/-! ### the orders of the kernels -/

private theorem ascending_order (n : Nat) :
    (Summation.ascending n).Complete n ∧ (Summation.ascending n).rounds ≤ n + 1 :=
  ⟨by rw [Summation.Complete, Summation.ascending_products], by rw [Summation.ascending_rounds]⟩

private theorem quarterBlocks_order {n kc : Nat} (hk : 4 ∣ kc) (hn : kc ∣ n) :
    (Summation.quarterBlocks kc (n / kc)).Complete n ∧
      (Summation.quarterBlocks kc (n / kc)).rounds ≤ kc / 4 + 1 + 4 * (n / kc) :=
  ⟨by
    have := Summation.quarterBlocks_products hk (n / kc)
    rwa [Nat.div_mul_cancel hn] at this, Summation.quarterBlocks_rounds _ _⟩

private theorem quarters_order {n : Nat} (hn : 4 ∣ n) :
    (Summation.quarters n (fun k => k) .zero).Complete n ∧
      (Summation.quarters n (fun k => k) .zero).rounds ≤ n / 4 + 5 :=
  ⟨by
    have := Summation.quarters_products hn (fun k => k) .zero
    rwa [Summation.products, List.nil_append, List.map_id'] at this, by
    rw [Summation.quarters_rounds, Summation.rounds]; omega⟩

/-- **C99.** `multNaive` on a zero matrix sums up in the same order for every entry, every arithmetic and all
matrices; every product is added once. -/
theorem C99_naive_order (n : Nat) :
    ∃ e : Summation, e.Complete n ∧ e.rounds ≤ n + 1 ∧
      ∀ {α : Type} [Arith α] (A B : Array α) (a b : Nat → Nat → α),
        Holds A n n a → Holds B n n b →
        multNaive A B (zeros (n * n)) n = ND.pure (rowMajor n fun i j => e.eval (a i) fun k => b k j) :=
  ⟨_, (ascending_order n).1, (ascending_order n).2, fun A B a b hA hB =>
    (C54_naive n A B _ a b _ hA hB (zeros_holds n n) (by simp)).trans
      (congrArg ND.pure (rect_congr fun _ _ _ _ => (Summation.ascending_eval _ _ _).symm))⟩

/-- **C99.** `multNaive` on a zero matrix: rounding errors. -/
theorem C99_naive (n : Nat)
    {α : Type} [Arith α] (r : Rounding K α) (A B : Array α)
    (a b : Nat → Nat → α) (hA : Holds A n n a) (hB : Holds B n n b)
    (h : NoOverflow r n (n + 1) n a b) :
    ApproxProduct r n (n + 1) n a b (multNaive A B (zeros (n * n)) n) := by
  obtain ⟨e, he, hm, hr⟩ := C99_naive_order n 
  rw [hr A B a b hA hB]
  exact C99_bound r n _ a b (fun _ _ => e) (fun _ _ _ _ => ⟨he, hm⟩) h

/-- **C99.** `multNaive` on a zero matrix: small integers. -/
theorem C99_naive_integers (n : Nat)
    {α : Type} [Arith α] {ιA ιB ι : Int → α} {lim : Int} (h : ExactOnIntegers ιA ιB ι lim)
    (A B : Array α) (a b : Nat → Nat → Int) (hA : Holds A n n (asFloat ιA a))
    (hB : Holds B n n (asFloat ιB b)) (hs : Small lim n a b) :
    multNaive A B (zeros (n * n)) n = exactProduct ι n a b := by
  obtain ⟨e, he, _, hr⟩ := C99_naive_order n 
  rw [hr A B (asFloat ιA a) (asFloat ιB b) hA hB]
  exact C99_integers h n a b hs (fun _ _ => e) fun _ _ _ _ => he

/-- **C99.** `multTransposed` on a zero matrix sums up in the same order for every entry, every arithmetic and all
matrices; every product is added once. -/
theorem C99_transposed_order (n : Nat) :
    ∃ e : Summation, e.Complete n ∧ e.rounds ≤ n + 1 ∧
      ∀ {α : Type} [Arith α] (A B : Array α) (a b : Nat → Nat → α),
        Holds A n n a → Holds B n n (tr b) →
        ND.ofM (multTransposed A B (zeros (n * n)) n) = ND.pure (rowMajor n fun i j => e.eval (a i) fun k => b k j) :=
  ⟨_, (ascending_order n).1, (ascending_order n).2, fun A B a b hA hB =>
    (congrArg ND.ofM (C54_transposed n A B _ a (tr b) _ hA hB (zeros_holds n n) (by simp))).trans
      (congrArg ND.pure (rect_congr fun _ _ _ _ => (Summation.ascending_eval _ _ _).symm))⟩

/-- **C99.** `multTransposed` on a zero matrix: rounding errors. -/
theorem C99_transposed (n : Nat)
    {α : Type} [Arith α] (r : Rounding K α) (A B : Array α)
    (a b : Nat → Nat → α) (hA : Holds A n n a) (hB : Holds B n n (tr b))
    (h : NoOverflow r n (n + 1) n a b) :
    ApproxProduct r n (n + 1) n a b (ND.ofM (multTransposed A B (zeros (n * n)) n)) := by
  obtain ⟨e, he, hm, hr⟩ := C99_transposed_order n 
  rw [hr A B a b hA hB]
  exact C99_bound r n _ a b (fun _ _ => e) (fun _ _ _ _ => ⟨he, hm⟩) h

/-- **C99.** `multTransposed` on a zero matrix: small integers. -/
theorem C99_transposed_integers (n : Nat)
    {α : Type} [Arith α] {ιA ιB ι : Int → α} {lim : Int} (h : ExactOnIntegers ιA ιB ι lim)
    (A B : Array α) (a b : Nat → Nat → Int) (hA : Holds A n n (asFloat ιA a))
    (hB : Holds B n n (tr (asFloat ιB b))) (hs : Small lim n a b) :
    ND.ofM (multTransposed A B (zeros (n * n)) n) = exactProduct ι n a b := by
  obtain ⟨e, he, _, hr⟩ := C99_transposed_order n 
  rw [hr A B (asFloat ιA a) (asFloat ιB b) hA hB]
  exact C99_integers h n a b hs (fun _ _ => e) fun _ _ _ _ => he

/-- **C99.** `multCounter` sums up in the same order for every entry, every arithmetic and all
matrices; every product is added once. -/
theorem C99_counter_order (n : Nat) :
    ∃ e : Summation, e.Complete n ∧ e.rounds ≤ n + 1 ∧
      ∀ {α : Type} [Arith α] (A B C : Array α) (a b : Nat → Nat → α),
        Holds A n n a → Holds B n n (tr b) → C.size = n * n →
        multCounter A B C n = ND.pure (rowMajor n fun i j => e.eval (a i) fun k => b k j) :=
  ⟨_, (ascending_order n).1, (ascending_order n).2, fun A B C a b hA hB hC =>
    (C54_counter n A B C a (tr b) hA hB hC).trans
      (congrArg ND.pure (rect_congr fun _ _ _ _ => (Summation.ascending_eval _ _ _).symm))⟩

/-- **C99.** `multCounter`: rounding errors. -/
theorem C99_counter (n : Nat)
    {α : Type} [Arith α] (r : Rounding K α) (A B C : Array α)
    (a b : Nat → Nat → α) (hA : Holds A n n a) (hB : Holds B n n (tr b)) (hC : C.size = n * n)
    (h : NoOverflow r n (n + 1) n a b) :
    ApproxProduct r n (n + 1) n a b (multCounter A B C n) := by
  obtain ⟨e, he, hm, hr⟩ := C99_counter_order n 
  rw [hr A B C a b hA hB hC]
  exact C99_bound r n _ a b (fun _ _ => e) (fun _ _ _ _ => ⟨he, hm⟩) h

/-- **C99.** `multCounter`: small integers. -/
theorem C99_counter_integers (n : Nat)
    {α : Type} [Arith α] {ιA ιB ι : Int → α} {lim : Int} (h : ExactOnIntegers ιA ιB ι lim)
    (A B C : Array α) (a b : Nat → Nat → Int) (hA : Holds A n n (asFloat ιA a))
    (hB : Holds B n n (tr (asFloat ιB b))) (hC : C.size = n * n) (hs : Small lim n a b) :
    multCounter A B C n = exactProduct ι n a b := by
  obtain ⟨e, he, _, hr⟩ := C99_counter_order n 
  rw [hr A B C (asFloat ιA a) (asFloat ιB b) hA hB hC]
  exact C99_integers h n a b hs (fun _ _ => e) fun _ _ _ _ => he

/-- **C99.** The 2 × 2 blocked kernel sums up in the same order for every entry, every arithmetic and all
matrices; every product is added once. -/
theorem C99_blocked2_order (n : Nat) (hn : 2 ∣ n) :
    ∃ e : Summation, e.Complete n ∧ e.rounds ≤ n + 1 ∧
      ∀ {α : Type} [Arith α] (A B C : Array α) (a b : Nat → Nat → α),
        Holds A n n a → Holds B n n (tr b) → C.size = n * n →
        multBlocked2 A B C n = ND.pure (rowMajor n fun i j => e.eval (a i) fun k => b k j) :=
  ⟨_, (ascending_order n).1, (ascending_order n).2, fun A B C a b hA hB hC =>
    (C55_even n hn A B C a (tr b) hA hB hC).trans
      (congrArg ND.pure (rect_congr fun _ _ _ _ => (Summation.ascending_eval _ _ _).symm))⟩

/-- **C99.** The 2 × 2 blocked kernel: rounding errors. -/
theorem C99_blocked2 (n : Nat) (hn : 2 ∣ n)
    {α : Type} [Arith α] (r : Rounding K α) (A B C : Array α)
    (a b : Nat → Nat → α) (hA : Holds A n n a) (hB : Holds B n n (tr b)) (hC : C.size = n * n)
    (h : NoOverflow r n (n + 1) n a b) :
    ApproxProduct r n (n + 1) n a b (multBlocked2 A B C n) := by
  obtain ⟨e, he, hm, hr⟩ := C99_blocked2_order n hn 
  rw [hr A B C a b hA hB hC]
  exact C99_bound r n _ a b (fun _ _ => e) (fun _ _ _ _ => ⟨he, hm⟩) h

/-- **C99.** The 2 × 2 blocked kernel: small integers. -/
theorem C99_blocked2_integers (n : Nat) (hn : 2 ∣ n)
    {α : Type} [Arith α] {ιA ιB ι : Int → α} {lim : Int} (h : ExactOnIntegers ιA ιB ι lim)
    (A B C : Array α) (a b : Nat → Nat → Int) (hA : Holds A n n (asFloat ιA a))
    (hB : Holds B n n (tr (asFloat ιB b))) (hC : C.size = n * n) (hs : Small lim n a b) :
    multBlocked2 A B C n = exactProduct ι n a b := by
  obtain ⟨e, he, _, hr⟩ := C99_blocked2_order n hn 
  rw [hr A B C (asFloat ιA a) (asFloat ιB b) hA hB hC]
  exact C99_integers h n a b hs (fun _ _ => e) fun _ _ _ _ => he

/-- **C99.** `multExchanged` sums up in the same order for every entry, every arithmetic and all
matrices; every product is added once. -/
theorem C99_exchanged_order (n : Nat) (hn : 128 ∣ n) :
    ∃ e : Summation, e.Complete n ∧ e.rounds ≤ n + 1 ∧
      ∀ {α : Type} [Arith α] (st : Stack α) (_ : st.Sized 128 128) (A B C : Array α) (a b : Nat → Nat → α),
        Holds A n n a → Holds B n n b → C.size = n * n →
        multExchanged st A B C n = ND.pure (rowMajor n fun i j => e.eval (a i) fun k => b k j) :=
  ⟨_, (ascending_order n).1, (ascending_order n).2, fun st hst A B C a b hA hB hC =>
    (C65_exchanged n hn st hst A B C a b hA hB hC).trans
      (congrArg ND.pure (rect_congr fun _ _ _ _ => (Summation.ascending_eval _ _ _).symm))⟩

/-- **C99.** `multExchanged`: rounding errors. -/
theorem C99_exchanged (n : Nat) (hn : 128 ∣ n)
    {α : Type} [Arith α] (r : Rounding K α) (st : Stack α) (hst : st.Sized 128 128) (A B C : Array α)
    (a b : Nat → Nat → α) (hA : Holds A n n a) (hB : Holds B n n b) (hC : C.size = n * n)
    (h : NoOverflow r n (n + 1) n a b) :
    ApproxProduct r n (n + 1) n a b (multExchanged st A B C n) := by
  obtain ⟨e, he, hm, hr⟩ := C99_exchanged_order n hn 
  rw [hr st hst A B C a b hA hB hC]
  exact C99_bound r n _ a b (fun _ _ => e) (fun _ _ _ _ => ⟨he, hm⟩) h

/-- **C99.** `multExchanged`: small integers. -/
theorem C99_exchanged_integers (n : Nat) (hn : 128 ∣ n)
    {α : Type} [Arith α] {ιA ιB ι : Int → α} {lim : Int} (h : ExactOnIntegers ιA ιB ι lim)
    (st : Stack α) (hst : st.Sized 128 128) (A B C : Array α) (a b : Nat → Nat → Int) (hA : Holds A n n (asFloat ιA a))
    (hB : Holds B n n (asFloat ιB b)) (hC : C.size = n * n) (hs : Small lim n a b) :
    multExchanged st A B C n = exactProduct ι n a b := by
  obtain ⟨e, he, _, hr⟩ := C99_exchanged_order n hn 
  rw [hr st hst A B C (asFloat ιA a) (asFloat ιB b) hA hB hC]
  exact C99_integers h n a b hs (fun _ _ => e) fun _ _ _ _ => he

/-- **C99.** `multGPU` sums up in the same order for every entry, every arithmetic and all
matrices; every product is added once. -/
theorem C99_gpu_order (n : Nat) (hn : 128 ∣ n) :
    ∃ e : Summation, e.Complete n ∧ e.rounds ≤ 33 + 4 * (n / 128) ∧
      ∀ {α : Type} [Arith α] (st : Stack α) (_ : st.Sized 128 128) (A B C : Array α) (a b : Nat → Nat → α),
        Holds A n n a → Holds B n n (tr b) → C.size = n * n →
        multGPU st A B C n = ND.pure (rowMajor n fun i j => e.eval (a i) fun k => b k j) :=
  ⟨_, (quarterBlocks_order (by decide) hn).1, (quarterBlocks_order (by decide) hn).2, fun st hst A B C a b hA hB hC =>
    (C66_gpu n hn st hst A B C a (tr b) hA hB hC).trans
      (congrArg ND.pure (rect_congr fun _ _ _ _ => (Summation.quarterBlocks_eval _ _ _ _).symm))⟩

/-- **C99.** `multGPU`: rounding errors. -/
theorem C99_gpu (n : Nat) (hn : 128 ∣ n)
    {α : Type} [Arith α] (r : Rounding K α) (st : Stack α) (hst : st.Sized 128 128) (A B C : Array α)
    (a b : Nat → Nat → α) (hA : Holds A n n a) (hB : Holds B n n (tr b)) (hC : C.size = n * n)
    (h : NoOverflow r n (33 + 4 * (n / 128)) n a b) :
    ApproxProduct r n (33 + 4 * (n / 128)) n a b (multGPU st A B C n) := by
  obtain ⟨e, he, hm, hr⟩ := C99_gpu_order n hn 
  rw [hr st hst A B C a b hA hB hC]
  exact C99_bound r n _ a b (fun _ _ => e) (fun _ _ _ _ => ⟨he, hm⟩) h

/-- **C99.** `multGPU`: small integers. -/
theorem C99_gpu_integers (n : Nat) (hn : 128 ∣ n)
    {α : Type} [Arith α] {ιA ιB ι : Int → α} {lim : Int} (h : ExactOnIntegers ιA ιB ι lim)
    (st : Stack α) (hst : st.Sized 128 128) (A B C : Array α) (a b : Nat → Nat → Int) (hA : Holds A n n (asFloat ιA a))
    (hB : Holds B n n (tr (asFloat ιB b))) (hC : C.size = n * n) (hs : Small lim n a b) :
    multGPU st A B C n = exactProduct ι n a b := by
  obtain ⟨e, he, _, hr⟩ := C99_gpu_order n hn 
  rw [hr st hst A B C (asFloat ιA a) (asFloat ιB b) hA hB hC]
  exact C99_integers h n a b hs (fun _ _ => e) fun _ _ _ _ => he

/-- **C99.** `multGPUASM` with fused multiplications sums up in the same order for every entry, every arithmetic and all
matrices; every product is added once. -/
theorem C99_gpuasm_order (oA oB : Nat) (hoA : oA % 4 = 0) (hoB : oB % 4 = 0) (n : Nat) (hn : 256 ∣ n) :
    ∃ e : Summation, e.Complete n ∧ e.rounds ≤ 65 + 4 * (n / 256) ∧
      ∀ {α : Type} [Arith α] (st : Stack α) (_ : st.Sized 256 256) (A B C : Array α) (a b : Nat → Nat → α),
        Holds A n n a → Holds B n n (tr b) → C.size = n * n →
        multGPUASM true oA oB st A B C n = ND.pure (rowMajor n fun i j => e.eval (a i) fun k => b k j) :=
  ⟨_, (quarterBlocks_order (by decide) hn).1, (quarterBlocks_order (by decide) hn).2, fun st hst A B C a b hA hB hC =>
    (C67_gpuasm oA oB hoA hoB n hn st hst A B C a (tr b) hA hB hC).trans
      (congrArg ND.pure (rect_congr fun _ _ _ _ => (Summation.quarterBlocks_eval _ _ _ _).symm))⟩

/-- **C99.** `multGPUASM` with fused multiplications: rounding errors. -/
theorem C99_gpuasm (oA oB : Nat) (hoA : oA % 4 = 0) (hoB : oB % 4 = 0) (n : Nat) (hn : 256 ∣ n)
    {α : Type} [Arith α] (r : Rounding K α) (st : Stack α) (hst : st.Sized 256 256) (A B C : Array α)
    (a b : Nat → Nat → α) (hA : Holds A n n a) (hB : Holds B n n (tr b)) (hC : C.size = n * n)
    (h : NoOverflow r n (65 + 4 * (n / 256)) n a b) :
    ApproxProduct r n (65 + 4 * (n / 256)) n a b (multGPUASM true oA oB st A B C n) := by
  obtain ⟨e, he, hm, hr⟩ := C99_gpuasm_order oA oB hoA hoB n hn 
  rw [hr st hst A B C a b hA hB hC]
  exact C99_bound r n _ a b (fun _ _ => e) (fun _ _ _ _ => ⟨he, hm⟩) h

/-- **C99.** `multGPUASM` with fused multiplications: small integers. -/
theorem C99_gpuasm_integers (oA oB : Nat) (hoA : oA % 4 = 0) (hoB : oB % 4 = 0) (n : Nat) (hn : 256 ∣ n)
    {α : Type} [Arith α] {ιA ιB ι : Int → α} {lim : Int} (h : ExactOnIntegers ιA ιB ι lim)
    (st : Stack α) (hst : st.Sized 256 256) (A B C : Array α) (a b : Nat → Nat → Int) (hA : Holds A n n (asFloat ιA a))
    (hB : Holds B n n (tr (asFloat ιB b))) (hC : C.size = n * n) (hs : Small lim n a b) :
    multGPUASM true oA oB st A B C n = exactProduct ι n a b := by
  obtain ⟨e, he, _, hr⟩ := C99_gpuasm_order oA oB hoA hoB n hn 
  rw [hr st hst A B C (asFloat ιA a) (asFloat ιB b) hA hB hC]
  exact C99_integers h n a b hs (fun _ _ => e) fun _ _ _ _ => he

/-- **C99.** `multRegister` with fused multiplications sums up in the same order for every entry, every arithmetic and all
matrices; every product is added once. -/
theorem C99_register_order (oR oB : Nat) (hoR : oR % 4 = 0) (hoB : oB % 4 = 0) (n : Nat) (hn : 256 ∣ n) :
    ∃ e : Summation, e.Complete n ∧ e.rounds ≤ n + 1 ∧
      ∀ {α : Type} [Arith α] (st : Stack α) (_ : st.Sized 256 64) (A B C : Array α) (a b : Nat → Nat → α),
        Holds A n n a → Holds B n n b → C.size = n * n →
        multRegister true oR oB st A B C n = ND.pure (rowMajor n fun i j => e.eval (a i) fun k => b k j) :=
  ⟨_, (ascending_order n).1, (ascending_order n).2, fun st hst A B C a b hA hB hC =>
    (C68_register oR oB hoR hoB n hn st hst A B C a b hA hB hC).trans
      (congrArg ND.pure (rect_congr fun _ _ _ _ => (Summation.ascending_eval _ _ _).symm))⟩

/-- **C99.** `multRegister` with fused multiplications: rounding errors. -/
theorem C99_register (oR oB : Nat) (hoR : oR % 4 = 0) (hoB : oB % 4 = 0) (n : Nat) (hn : 256 ∣ n)
    {α : Type} [Arith α] (r : Rounding K α) (st : Stack α) (hst : st.Sized 256 64) (A B C : Array α)
    (a b : Nat → Nat → α) (hA : Holds A n n a) (hB : Holds B n n b) (hC : C.size = n * n)
    (h : NoOverflow r n (n + 1) n a b) :
    ApproxProduct r n (n + 1) n a b (multRegister true oR oB st A B C n) := by
  obtain ⟨e, he, hm, hr⟩ := C99_register_order oR oB hoR hoB n hn 
  rw [hr st hst A B C a b hA hB hC]
  exact C99_bound r n _ a b (fun _ _ => e) (fun _ _ _ _ => ⟨he, hm⟩) h

/-- **C99.** `multRegister` with fused multiplications: small integers. -/
theorem C99_register_integers (oR oB : Nat) (hoR : oR % 4 = 0) (hoB : oB % 4 = 0) (n : Nat) (hn : 256 ∣ n)
    {α : Type} [Arith α] {ιA ιB ι : Int → α} {lim : Int} (h : ExactOnIntegers ιA ιB ι lim)
    (st : Stack α) (hst : st.Sized 256 64) (A B C : Array α) (a b : Nat → Nat → Int) (hA : Holds A n n (asFloat ιA a))
    (hB : Holds B n n (asFloat ιB b)) (hC : C.size = n * n) (hs : Small lim n a b) :
    multRegister true oR oB st A B C n = exactProduct ι n a b := by
  obtain ⟨e, he, _, hr⟩ := C99_register_order oR oB hoR hoB n hn 
  rw [hr st hst A B C (asFloat ιA a) (asFloat ιB b) hA hB hC]
  exact C99_integers h n a b hs (fun _ _ => e) fun _ _ _ _ => he

/-- **C99.** `multIntrinLoop` sums up in the same order for every entry, every arithmetic and all
matrices; every product is added once. -/
theorem C99_intrinLoop_order (oA oB oC : Nat) (hoA : oA % 4 = 0) (hoB : oB % 4 = 0) (hoC : oC % 4 = 0) (n : Nat)
    (hn : 128 ∣ n) :
    ∃ e : Summation, e.Complete n ∧ e.rounds ≤ n + 1 ∧
      ∀ {α : Type} [Arith α] (st : Stack α) (_ : st.Sized 128 128) (A B C : Array α) (a b : Nat → Nat → α),
        Holds A n n a → Holds B n n b → C.size = n * n →
        multIntrinLoop oA oB oC st A B C n = ND.pure (rowMajor n fun i j => e.eval (a i) fun k => b k j) :=
  ⟨_, (ascending_order n).1, (ascending_order n).2, fun st hst A B C a b hA hB hC =>
    (C69_intrinLoop oA oB oC hoA hoB hoC n hn st hst A B C a b hA hB hC).trans
      (congrArg ND.pure (rect_congr fun _ _ _ _ => (Summation.ascending_eval _ _ _).symm))⟩

/-- **C99.** `multIntrinLoop`: rounding errors. -/
theorem C99_intrinLoop (oA oB oC : Nat) (hoA : oA % 4 = 0) (hoB : oB % 4 = 0) (hoC : oC % 4 = 0) (n : Nat)
    (hn : 128 ∣ n)
    {α : Type} [Arith α] (r : Rounding K α) (st : Stack α) (hst : st.Sized 128 128) (A B C : Array α)
    (a b : Nat → Nat → α) (hA : Holds A n n a) (hB : Holds B n n b) (hC : C.size = n * n)
    (h : NoOverflow r n (n + 1) n a b) :
    ApproxProduct r n (n + 1) n a b (multIntrinLoop oA oB oC st A B C n) := by
  obtain ⟨e, he, hm, hr⟩ := C99_intrinLoop_order oA oB oC hoA hoB hoC n hn 
  rw [hr st hst A B C a b hA hB hC]
  exact C99_bound r n _ a b (fun _ _ => e) (fun _ _ _ _ => ⟨he, hm⟩) h

/-- **C99.** `multIntrinLoop`: small integers. -/
theorem C99_intrinLoop_integers (oA oB oC : Nat) (hoA : oA % 4 = 0) (hoB : oB % 4 = 0) (hoC : oC % 4 = 0) (n : Nat)
    (hn : 128 ∣ n)
    {α : Type} [Arith α] {ιA ιB ι : Int → α} {lim : Int} (h : ExactOnIntegers ιA ιB ι lim)
    (st : Stack α) (hst : st.Sized 128 128) (A B C : Array α) (a b : Nat → Nat → Int) (hA : Holds A n n (asFloat ιA a))
    (hB : Holds B n n (asFloat ιB b)) (hC : C.size = n * n) (hs : Small lim n a b) :
    multIntrinLoop oA oB oC st A B C n = exactProduct ι n a b := by
  obtain ⟨e, he, _, hr⟩ := C99_intrinLoop_order oA oB oC hoA hoB hoC n hn 
  rw [hr st hst A B C (asFloat ιA a) (asFloat ιB b) hA hB hC]
  exact C99_integers h n a b hs (fun _ _ => e) fun _ _ _ _ => he

/-- **C99.** `multASM`, compiled with its assembler code, sums up in the same order for every entry, every arithmetic and all
matrices; every product is added once. -/
theorem C99_asm_order (gnuc oA oB : Nat) (hg : 4 < gnuc) (hoA : oA % 4 = 0) (hoB : oB % 4 = 0) (n : Nat)
    (hn : 4 ∣ n) (hn' : n < 2 ^ 31) :
    ∃ e : Summation, e.Complete n ∧ e.rounds ≤ n / 4 + 5 ∧
      ∀ {α : Type} [Arith α] (A B C : Array α) (a b : Nat → Nat → α),
        Holds A n n a → Holds B n n (tr b) → C.size = n * n →
        multASM gnuc oA oB A B C n = ND.pure (rowMajor n fun i j => e.eval (a i) fun k => b k j) :=
  ⟨_, (quarters_order hn).1, (quarters_order hn).2, fun A B C a b hA hB hC =>
    (C70_asm gnuc oA oB hg hoA hoB n hn hn' A B C a (tr b) hA hB hC).trans
      (congrArg ND.pure (rect_congr fun _ _ _ _ => (Summation.quarters_eval _ _ _ _ .zero).symm))⟩

/-- **C99.** `multASM`, compiled with its assembler code,: rounding errors. -/
theorem C99_asm (gnuc oA oB : Nat) (hg : 4 < gnuc) (hoA : oA % 4 = 0) (hoB : oB % 4 = 0) (n : Nat)
    (hn : 4 ∣ n) (hn' : n < 2 ^ 31)
    {α : Type} [Arith α] (r : Rounding K α) (A B C : Array α)
    (a b : Nat → Nat → α) (hA : Holds A n n a) (hB : Holds B n n (tr b)) (hC : C.size = n * n)
    (h : NoOverflow r n (n / 4 + 5) n a b) :
    ApproxProduct r n (n / 4 + 5) n a b (multASM gnuc oA oB A B C n) := by
  obtain ⟨e, he, hm, hr⟩ := C99_asm_order gnuc oA oB hg hoA hoB n hn hn' 
  rw [hr A B C a b hA hB hC]
  exact C99_bound r n _ a b (fun _ _ => e) (fun _ _ _ _ => ⟨he, hm⟩) h

/-- **C99.** `multASM`, compiled with its assembler code,: small integers. -/
theorem C99_asm_integers (gnuc oA oB : Nat) (hg : 4 < gnuc) (hoA : oA % 4 = 0) (hoB : oB % 4 = 0) (n : Nat)
    (hn : 4 ∣ n) (hn' : n < 2 ^ 31)
    {α : Type} [Arith α] {ιA ιB ι : Int → α} {lim : Int} (h : ExactOnIntegers ιA ιB ι lim)
    (A B C : Array α) (a b : Nat → Nat → Int) (hA : Holds A n n (asFloat ιA a))
    (hB : Holds B n n (tr (asFloat ιB b))) (hC : C.size = n * n) (hs : Small lim n a b) :
    multASM gnuc oA oB A B C n = exactProduct ι n a b := by
  obtain ⟨e, he, _, hr⟩ := C99_asm_order gnuc oA oB hg hoA hoB n hn hn' 
  rw [hr A B C (asFloat ιA a) (asFloat ιB b) hA hB hC]
  exact C99_integers h n a b hs (fun _ _ => e) fun _ _ _ _ => he

section Examples

/-- The even products, then the odd ones, with two partial sums (what a vectoriser makes of a sum). -/
private def twoLanes : Summation :=
  .add (.mac (.mac .zero 0) 2) (.mac (.mac .zero 1) 3)

private theorem twoLanes_complete : twoLanes.Complete 4 := by
  unfold Summation.Complete; decide
private theorem twoLanes_compact : twoLanes.Compact := by
  simp [twoLanes, Summation.Compact, Summation.products]

example : twoLanes.rounds ≤ 5 := C99_rounds 4 twoLanes twoLanes_complete twoLanes_compact
example : twoLanes.rounds = 4 := rfl

-- a product that is left out or added twice is not allowed
example : ¬ (Summation.mac (.mac .zero 0) 0).Complete 2 := by unfold Summation.Complete; decide
example : ¬ (Summation.mac .zero 0).Complete 2 := by unfold Summation.Complete; decide

-- the orders differ in floating-point arithmetic
example : IEEE.roundNum (IEEE.roundNum (1 + 2 ^ (-53 : ℤ)) + 2 ^ (-53 : ℤ)) ≠
    IEEE.roundNum (1 + IEEE.roundNum (2 ^ (-53 : ℤ) + 2 ^ (-53 : ℤ))) := by decide +kernel

@[reducible] private def unfused : Arith IEEE.Double := IEEE.Double.arith fun _ _ _ => false

/-- Tenths: 0.0 to 0.6. -/
private def tenths (i j : Nat) : IEEE.Double := IEEE.Double.ofRat (((i + 2 * j) % 7 : Nat) / 10)

private theorem tenths_ok (i j : Nat) : (tenths i j).finite ∧ |(tenths i j).value| ≤ 2 ^ (500 : ℤ) := by
  have h : (i + 2 * j) % 7 < 7 := Nat.mod_lt _ (by decide)
  have h0 : (((i + 2 * j) % 7 : Nat) : ℚ) ≤ 6 := by exact_mod_cast (by omega : (i + 2 * j) % 7 ≤ 6)
  have h1 : (0 : ℚ) ≤ ((i + 2 * j) % 7 : Nat) := Nat.cast_nonneg _
  unfold tenths
  generalize (((i + 2 * j) % 7 : Nat) : ℚ) = x at *
  have h2 : |x / 10| ≤ 6 / 10 := by
    rw [abs_of_nonneg (by positivity)]
    linarith
  obtain ⟨h3, h4⟩ := ofRat_err (q := x / 10) (h2.trans (by norm_num))
  refine ⟨h3, ?_⟩
  have h5 := abs_sub_abs_le_abs_sub (IEEE.Double.ofRat (x / 10)).value (x / 10)
  have h6 : (2 : ℚ) ^ (-53 : ℤ) * |x / 10| ≤ 1 / 100 * (6 / 10) :=
    mul_le_mul (by norm_num) h2 (abs_nonneg _) (by norm_num)
  have h7 : (2 : ℚ) ^ (-1075 : ℤ) ≤ 1 / 100 := (η_le (k := -52) (by norm_num)).trans (by norm_num)
  have h8 := (h5.trans h4).trans (add_le_add h6 h7)
  refine le_trans ?_ (one_le_zpow₀ (by norm_num) (by norm_num) : (1 : ℚ) ≤ 2 ^ (500 : ℤ))
  linarith

private theorem tenths_fit {n m : Nat} (hn : n ≤ 2 ^ 20) (hm : m ≤ 2 ^ 52) :
    @NoOverflow ℚ _ _ _ IEEE.Double unfused (IEEE.Double.rounding _) n m n tenths (tr tenths) :=
  C97_no_overflow _ hn hm (by omega) (fun i _ j _ => tenths_ok i j) (fun i _ j _ => tenths_ok j i)

private def matD (n : Nat) : Array IEEE.Double := rowMajor n tenths
private def matDt (n : Nat) : Array IEEE.Double := rowMajor n (tr tenths)
private theorem holdsD (n : Nat) : Holds (matD n) n n tenths := holds_rect n n tenths
private theorem holdsDt (n : Nat) : Holds (matDt n) n n (tr tenths) := holds_rect n n (tr tenths)

private def junkD (bs kc : Nat) : Stack IEEE.Double where
  result _ _ := Array.replicate (bs * bs) (tenths 0 1)
  AA _ _ _ := Array.replicate (bs * kc) (tenths 0 1)
  BB _ _ _ := Array.replicate (kc * bs) (tenths 0 1)
  resultReg := Array.replicate 16 ⟨tenths 0 1, tenths 0 2, tenths 1 1, tenths 1 2⟩

private theorem junkD_sized (bs kc : Nat) : (junkD bs kc).Sized bs kc where
  result _ _ := Array.size_replicate
  AA _ _ _ := Array.size_replicate
  BB _ _ _ := Array.size_replicate
  resultReg := Array.size_replicate

private theorem sizeD (n : Nat) : (matD n).size = n * n := by simp [matD]

-- an order of its own for every entry
example : let _ := unfused
    ApproxProduct (IEEE.Double.rounding _) 4 5 4 tenths (tr tenths)
      (ND.pure (rowMajor 4 fun i j =>
        (if i < j then twoLanes else Summation.ascending 4).eval (tenths i) fun k => tr tenths k j)) :=
  C99_doubles _ 4 (by decide) tenths (tr tenths) (fun i _ j _ => tenths_ok i j)
    (fun i _ j _ => tenths_ok j i) (fun i j => if i < j then twoLanes else Summation.ascending 4)
    fun i _ j _ => by
      split
      · exact ⟨twoLanes_complete, twoLanes_compact⟩
      · exact ⟨(ascending_order 4).1, trivial⟩

example : let _ := unfused
    ApproxProduct (IEEE.Double.rounding _) 7 8 7 tenths (tr tenths)
      (Experiments.multNaive (matD 7) (matDt 7) (zeros (7 * 7)) 7) :=
  @C99_naive ℚ _ _ _ 7 IEEE.Double unfused _ _ _ _ _ (holdsD 7) (holdsDt 7) (tenths_fit (by decide) (by decide))

example : let _ := unfused
    ApproxProduct (IEEE.Double.rounding _) 7 8 7 tenths (tr tenths)
      (ND.ofM (multTransposed (matD 7) (matD 7) (zeros (7 * 7)) 7)) :=
  @C99_transposed ℚ _ _ _ 7 IEEE.Double unfused _ _ _ _ _ (holdsD 7) (holdsD 7) (tenths_fit (by decide) (by decide))

example : let _ := unfused
    ApproxProduct (IEEE.Double.rounding _) 7 8 7 tenths (tr tenths)
      (multCounter (matD 7) (matD 7) (matD 7) 7) :=
  @C99_counter ℚ _ _ _ 7 IEEE.Double unfused _ _ _ _ _ _ (holdsD 7) (holdsD 7) (sizeD 7) (tenths_fit (by decide) (by decide))

example : let _ := unfused
    ApproxProduct (IEEE.Double.rounding _) 6 7 6 tenths (tr tenths)
      (multBlocked2 (matD 6) (matD 6) (matD 6) 6) :=
  @C99_blocked2 ℚ _ _ _ 6 (by decide) IEEE.Double unfused _ _ _ _ _ _ (holdsD 6) (holdsD 6) (sizeD 6) (tenths_fit (by decide) (by decide))

example : let _ := unfused
    ApproxProduct (IEEE.Double.rounding _) 256 257 256 tenths (tr tenths)
      (multExchanged (junkD 128 128) (matD 256) (matDt 256) (matD 256) 256) :=
  @C99_exchanged ℚ _ _ _ 256 (by decide) IEEE.Double unfused _ _ (junkD_sized 128 128) _ _ _ _ _ (holdsD 256) (holdsDt 256) (sizeD 256)
    (tenths_fit (by decide) (by decide))

example : let _ := unfused
    ApproxProduct (IEEE.Double.rounding _) 256 41 256 tenths (tr tenths)
      (multGPU (junkD 128 128) (matD 256) (matD 256) (matD 256) 256) :=
  @C99_gpu ℚ _ _ _ 256 (by decide) IEEE.Double unfused _ _ (junkD_sized 128 128) _ _ _ _ _ (holdsD 256) (holdsD 256) (sizeD 256)
    (tenths_fit (by decide) (by decide))

example : let _ := unfused
    ApproxProduct (IEEE.Double.rounding _) 512 73 512 tenths (tr tenths)
      (multGPUASM true 4 8 (junkD 256 256) (matD 512) (matD 512) (matD 512) 512) :=
  @C99_gpuasm ℚ _ _ _ 4 8 (by decide) (by decide) 512 (by decide) IEEE.Double unfused _ _ (junkD_sized 256 256) _ _ _ _ _
    (holdsD 512) (holdsD 512) (sizeD 512) (tenths_fit (by decide) (by decide))

example : let _ := unfused
    ApproxProduct (IEEE.Double.rounding _) 256 257 256 tenths (tr tenths)
      (multRegister true 4 8 (junkD 256 64) (matD 256) (matDt 256) (matD 256) 256) :=
  @C99_register ℚ _ _ _ 4 8 (by decide) (by decide) 256 (by decide) IEEE.Double unfused _ _ (junkD_sized 256 64) _ _ _ _ _
    (holdsD 256) (holdsDt 256) (sizeD 256) (tenths_fit (by decide) (by decide))

example : let _ := unfused
    ApproxProduct (IEEE.Double.rounding _) 256 257 256 tenths (tr tenths)
      (multIntrinLoop 0 4 8 (junkD 128 128) (matD 256) (matDt 256) (matD 256) 256) :=
  @C99_intrinLoop ℚ _ _ _ 0 4 8 (by decide) (by decide) (by decide) 256 (by decide) IEEE.Double unfused _ _ (junkD_sized 128 128) _ _ _ _ _
    (holdsD 256) (holdsDt 256) (sizeD 256) (tenths_fit (by decide) (by decide))

example : let _ := unfused
    ApproxProduct (IEEE.Double.rounding _) 20 10 20 tenths (tr tenths)
      (multASM 13 4 8 (matD 20) (matD 20) (matD 20) 20) :=
  @C99_asm ℚ _ _ _ 13 4 8 (by decide) (by decide) (by decide) 20 (by decide) (by decide) IEEE.Double unfused _ _ _ _ _ _
    (holdsD 20) (holdsD 20) (sizeD 20) (tenths_fit (by decide) (by decide))

/-- Integers from -4 to 4. -/
private def ints (i j : Nat) : Int := ((i * 5 + j) % 9 : Nat) - 4

private theorem ints_le (i j : Nat) : |ints i j| ≤ 4 := by
  unfold ints
  have := Nat.mod_lt (i * 5 + j) (show 0 < 9 by decide)
  rw [abs_le]
  omega

private theorem ints_small (n : Nat) (hn : n ≤ 1024) : Small (2 ^ 53) n ints (tr ints) := by
  refine ⟨fun i _ j _ => ⟨(ints_le i j).trans (by norm_num), (ints_le j i).trans (by norm_num)⟩,
    fun i _ j _ => ?_⟩
  have : ∀ k ∈ Finset.range n, |ints i k * tr ints k j| ≤ 16 := fun k _ => by
    rw [abs_mul]
    exact (mul_le_mul (ints_le i k) (ints_le j k) (abs_nonneg _) (by norm_num)).trans (by norm_num)
  refine (Finset.sum_le_card_nsmul _ _ _ this).trans ?_
  rw [Finset.card_range, nsmul_eq_mul]
  have : (n : Int) ≤ 1024 := by exact_mod_cast hn
  omega

private def matI (n : Nat) : Array IEEE.Double := rowMajor n (asFloat (IEEE.Double.ofInt 0) ints)
private def matIt (n : Nat) : Array IEEE.Double := rowMajor n (asFloat (IEEE.Double.ofInt 0) (tr ints))
private theorem holdsI (n : Nat) : Holds (matI n) n n (asFloat (IEEE.Double.ofInt 0) ints) :=
  holds_rect n n (asFloat (IEEE.Double.ofInt 0) ints)
private theorem holdsIt (n : Nat) : Holds (matIt n) n n (asFloat (IEEE.Double.ofInt 0) (tr ints)) :=
  holds_rect n n (asFloat (IEEE.Double.ofInt 0) (tr ints))

private theorem exactInt : @ExactOnIntegers IEEE.Double unfused (IEEE.Double.ofInt 0)
    (IEEE.Double.ofInt 0) (IEEE.Double.ofInt 0) (2 ^ 53) :=
  C97_integers _ 0 0 (by decide) (by decide) (by decide)

example : let _ := unfused
    multNaive (matI 7) (matIt 7) (zeros (7 * 7)) 7 = exactProduct (IEEE.Double.ofInt 0) 7 ints (tr ints) :=
  @C99_naive_integers 7 IEEE.Double unfused _ _ _ _ exactInt _ _ _ _ (holdsI 7) (holdsIt 7)
    (ints_small 7 (by decide))

example : let _ := unfused
    ND.ofM (multTransposed (matI 7) (matI 7) (zeros (7 * 7)) 7) = exactProduct (IEEE.Double.ofInt 0) 7 ints (tr ints) :=
  @C99_transposed_integers 7 IEEE.Double unfused _ _ _ _ exactInt _ _ _ _ (holdsI 7) (holdsI 7)
    (ints_small 7 (by decide))

example : let _ := unfused
    multCounter (matI 7) (matI 7) (matD 7) 7 = exactProduct (IEEE.Double.ofInt 0) 7 ints (tr ints) :=
  @C99_counter_integers 7 IEEE.Double unfused _ _ _ _ exactInt _ _ _ _ _ (holdsI 7) (holdsI 7) (sizeD 7)
    (ints_small 7 (by decide))

example : let _ := unfused
    multBlocked2 (matI 6) (matI 6) (matD 6) 6 = exactProduct (IEEE.Double.ofInt 0) 6 ints (tr ints) :=
  @C99_blocked2_integers 6 (by decide) IEEE.Double unfused _ _ _ _ exactInt _ _ _ _ _ (holdsI 6) (holdsI 6) (sizeD 6)
    (ints_small 6 (by decide))

example : let _ := unfused
    multExchanged (junkD 128 128) (matI 256) (matIt 256) (matD 256) 256 = exactProduct (IEEE.Double.ofInt 0) 256 ints (tr ints) :=
  @C99_exchanged_integers 256 (by decide) IEEE.Double unfused _ _ _ _ exactInt _ (junkD_sized 128 128) _ _ _ _ _ (holdsI 256) (holdsIt 256) (sizeD 256)
    (ints_small 256 (by decide))

example : let _ := unfused
    multGPU (junkD 128 128) (matI 256) (matI 256) (matD 256) 256 = exactProduct (IEEE.Double.ofInt 0) 256 ints (tr ints) :=
  @C99_gpu_integers 256 (by decide) IEEE.Double unfused _ _ _ _ exactInt _ (junkD_sized 128 128) _ _ _ _ _ (holdsI 256) (holdsI 256) (sizeD 256)
    (ints_small 256 (by decide))

example : let _ := unfused
    multGPUASM true 4 8 (junkD 256 256) (matI 512) (matI 512) (matD 512) 512 = exactProduct (IEEE.Double.ofInt 0) 512 ints (tr ints) :=
  @C99_gpuasm_integers 4 8 (by decide) (by decide) 512 (by decide) IEEE.Double unfused _ _ _ _ exactInt _ (junkD_sized 256 256) _ _ _ _ _
    (holdsI 512) (holdsI 512) (sizeD 512)
    (ints_small 512 (by decide))

example : let _ := unfused
    multRegister true 4 8 (junkD 256 64) (matI 256) (matIt 256) (matD 256) 256 = exactProduct (IEEE.Double.ofInt 0) 256 ints (tr ints) :=
  @C99_register_integers 4 8 (by decide) (by decide) 256 (by decide) IEEE.Double unfused _ _ _ _ exactInt _ (junkD_sized 256 64) _ _ _ _ _
    (holdsI 256) (holdsIt 256) (sizeD 256)
    (ints_small 256 (by decide))

example : let _ := unfused
    multIntrinLoop 0 4 8 (junkD 128 128) (matI 256) (matIt 256) (matD 256) 256 = exactProduct (IEEE.Double.ofInt 0) 256 ints (tr ints) :=
  @C99_intrinLoop_integers 0 4 8 (by decide) (by decide) (by decide) 256 (by decide) IEEE.Double unfused _ _ _ _ exactInt _ (junkD_sized 128 128)
    _ _ _ _ _ (holdsI 256) (holdsIt 256) (sizeD 256)
    (ints_small 256 (by decide))

example : let _ := unfused
    multASM 13 4 8 (matI 20) (matI 20) (matD 20) 20 = exactProduct (IEEE.Double.ofInt 0) 20 ints (tr ints) :=
  @C99_asm_integers 13 4 8 (by decide) (by decide) (by decide) 20 (by decide) (by decide) IEEE.Double unfused _ _ _ _ exactInt _ _ _ _ _
    (holdsI 20) (holdsI 20) (sizeD 20)
    (ints_small 20 (by decide))

end Examples
end Verif.Props
