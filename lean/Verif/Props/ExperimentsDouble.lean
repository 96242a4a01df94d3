import Verif.Props.CertifiedFast
import Verif.Props.Order
import Verif.Props.Summation
import Verif.Props.Symmetry
/-
C135: the kernels of otherExperiments with doubles.
-/
namespace Verif.Props
open Kernel Experiments IEEE

/-- What holds for a multiplication of matrices of doubles whose entries may be computed by different
formulas.  `f fuse`: the multiplication if `fuse` says which multiply-adds are fused. -/
structure EntryRules (n m : Nat) (t : Bool)
    (f : (Double → Double → Double → Bool) → Array Double → Array Double → ND (Array Double)) : Prop where
  /-- An entry is right within the bound, or visibly not finite (C134). -/
  failures : ∀ fuse, ShowsFailure 1 n m n t (f fuse)
  /-- No NaN is lost (C127). -/
  nan : ∀ fuse, KeepsNaN n t (f fuse)
  /-- Rules for signs (C129). -/
  signs : ∀ fused, SignRules n t (f fun _ _ _ => fused)
  /-- Order (C130). -/
  monotonic : ∀ fused, Monotonic n t (f fun _ _ _ => fused)
  /-- Powers of two (C130). -/
  scales : ∀ fused, Scales n t (f fun _ _ _ => fused)

/-- What holds in addition if all entries are computed by the same formula (C129). -/
structure DoubleRules (n m : Nat) (t : Bool)
    (f : (Double → Double → Double → Bool) → Array Double → Array Double → ND (Array Double)) : Prop
    extends EntryRules n m t f where
  /-- Transposition, selection of rows and columns. -/
  symmetries : ∀ fuse, (∀ c x y, fuse c x y = fuse c y x) → Symmetries n t (f fuse)

/-! ### orders of summation as formulas -/

/-- The formula that sums up in the order `e`. -/
private def toPlan : Summation → Plan
  | .zero => .zero
  | .mac e k => .mac (toPlan e) k
  | .add e e' => .add (toPlan e) (toPlan e')

private theorem toPlan_eval {α : Type} [Arith α] (f g : Nat → α) (e : Summation) :
    (toPlan e).eval f g = e.eval f g := by
  induction e with
  | zero => rfl
  | mac e k ih => simp only [toPlan, Plan.eval, Summation.eval, ih]
  | add e e' ih ih' => simp only [toPlan, Plan.eval, Summation.eval, ih, ih']

private theorem toPlan_terms (e : Summation) : (toPlan e).terms = e.products := by
  induction e with
  | zero => rfl
  | mac e k ih => simp only [toPlan, Plan.terms, Summation.products, ih]
  | add e e' ih ih' => simp only [toPlan, Plan.terms, Summation.products, ih, ih']

private theorem toPlan_takes {n : Nat} {e : Summation} (h : e.Complete n) : Takes n (toPlan e) := by
  refine ⟨1, Nat.le_refl _, fun k => ?_⟩
  rw [toPlan_terms, List.Perm.count_eq h, List.count_range]

/-- The sums over the elements of stored matrices. -/
private def sums (n : Nat) (t : Bool) (e : Nat → Nat → Summation) (α : Type) [Arith α]
    (A B : Array α) : ND (Array α) :=
  ND.pure (rowMajor n fun i j => (toPlan (e i j)).eval (fun k => A[i * n + k]?.getD Arith.zero)
    fun k => B[if t then j * n + k else k * n + j]?.getD Arith.zero)

private theorem sums_eq {n : Nat} {t : Bool} {e : Nat → Nat → Summation}
    (he : ∀ i, i < n → ∀ j, j < n → (e i j).Complete n) {α : Type} [Arith α] {A B : Array α}
    {a b : Nat → Nat → α} (hA : Holds A n n a) (hB : Holds B n n (if t then tr b else b)) :
    sums n t e α A B = ND.pure (rowMajor n fun i j => (toPlan (e i j)).eval (a i) fun k => b k j) := by
  refine congrArg ND.pure (rect_congr fun i hi j hj => Plan.eval_congr _ fun k hk => ?_)
  have hk : k < n := by
    obtain ⟨r, -, h⟩ := toPlan_takes (he i hi j hj)
    exact h.mem hk
  refine ⟨by rw [hA i hi k hk]; rfl, ?_⟩
  cases t
  · have := hB k hk j hj
    simp only [Bool.false_eq_true, if_false] at this ⊢
    rw [this]; rfl
  · have := hB j hj k hk
    simp only [if_true] at this ⊢
    rw [this]; rfl

private theorem sums_by {n : Nat} {t : Bool} {e : Nat → Nat → Summation}
    (he : ∀ i, i < n → ∀ j, j < n → (e i j).Complete n) :
    ComputesBy n t (fun q => ∃ e : Summation, e.Complete n ∧ q = toPlan e) (sums n t e) :=
  ⟨fun i j => toPlan (e i j), fun i hi j hj => ⟨_, he i hi j hj, rfl⟩,
    fun _ _ _ _ _ _ hA hB => sums_eq he hA hB⟩

/-- Two multiplications that agree on matrices. -/
private def Agree (n : Nat) (f g : Array Double → Array Double → ND (Array Double)) : Prop :=
  ∀ (A B : Array Double) (a b : Nat → Nat → Double), Holds A n n a → Holds B n n b → f A B = g A B

section Transfer
variable {n m : Nat} {t : Bool} {f g : Array Double → Array Double → ND (Array Double)}
  (h : Agree n f g)
include h

private theorem Agree.failures (hg : ShowsFailure 1 n m n t g) : ShowsFailure 1 n m n t f :=
  fun A B a b hA hB => by rw [h A B _ _ hA hB]; exact hg A B a b hA hB

private theorem Agree.nan (hg : KeepsNaN n t g) : KeepsNaN n t f :=
  fun A B a b hA hB => by rw [h A B _ _ hA hB]; exact hg A B a b hA hB

private theorem Agree.symmetries (hg : Symmetries n t g) : Symmetries n t f where
  select A B A' B' a b ρ σ hρ hσ hA hB hA' hB' := by
    rw [h A B _ _ hA hB, h A' B' _ _ hA' hB']
    exact hg.select A B A' B' a b ρ σ hρ hσ hA hB hA' hB'
  transpose A B A' B' a b hA hB hA' hB' := by
    rw [h A B _ _ hA hB, h A' B' _ _ hA' hB']
    exact hg.transpose A B A' B' a b hA hB hA' hB'
  gram A B a hA hB := by
    rw [h A B _ _ hA hB]
    exact hg.gram A B a hA hB

private theorem Agree.signs (hg : SignRules n t g) : SignRules n t f where
  both A B A' B' a b hA hB hA' hB' := by
    rw [h A B _ _ hA hB, h A' B' _ _ hA' hB']
    exact hg.both A B A' B' a b hA hB hA' hB'
  left A B A' a b hA hB hA' := by
    rw [h A B _ _ hA hB, h A' B _ _ hA' hB]
    exact hg.left A B A' a b hA hB hA'

private theorem Agree.monotonic (hg : Monotonic n t g) : Monotonic n t f :=
  fun A B A' B' a b a' b' hA hB hA' hB' => by
    rw [h A B _ _ hA hB, h A' B' _ _ hA' hB']
    exact hg A B A' B' a b a' b' hA hB hA' hB'

private theorem Agree.scales (hg : Scales n t g) : Scales n t f :=
  fun p q s u hp hs A B A' B' a b a' b' hA hB hA' hB' => by
    rw [h A B _ _ hA hB, h A' B' _ _ hA' hB']
    exact hg p q s u hp hs A B A' B' a b a' b' hA hB hA' hB'

end Transfer

variable {n m : Nat} {t : Bool}
  {f : (Double → Double → Double → Bool) → Array Double → Array Double → ND (Array Double)}

private theorem agree {e : Nat → Nat → Summation}
    (he : ∀ i, i < n → ∀ j, j < n → (e i j).Complete n)
    (h : ∀ fuse (A B : Array Double) (a b : Nat → Nat → Double), Holds A n n a →
      Holds B n n (if t then tr b else b) → f fuse A B = ND.pure (rowMajor n fun i j =>
        @Summation.eval Double (Double.arith fuse) (a i) (fun k => b k j) (e i j)))
    (fuse : Double → Double → Double → Bool) :
    Agree n (f fuse) (@sums n t e Double (Double.arith fuse)) := by
  intro A B a b hA hB
  let _ := Double.arith fuse
  have hB' : Holds B n n (if t then tr (if t then tr b else b) else if t then tr b else b) := by
    cases t <;> exact hB
  rw [sums_eq he hA hB', h fuse A B a _ hA hB']
  refine congrArg ND.pure (rect_congr fun i _ j _ => ?_)
  rw [toPlan_eval]

/-- **C135.** A multiplication of doubles that adds up every product of an entry once, in an order
chosen for the entry, follows the rules that apply to single entries. -/
theorem C135_reordered (e : Nat → Nat → Summation)
    (he : ∀ i, i < n → ∀ j, j < n → (e i j).Complete n ∧ (e i j).rounds ≤ m)
    (h : ∀ fuse (A B : Array Double) (a b : Nat → Nat → Double), Holds A n n a →
      Holds B n n (if t then tr b else b) → f fuse A B = ND.pure (rowMajor n fun i j =>
        @Summation.eval Double (Double.arith fuse) (a i) (fun k => b k j) (e i j))) :
    EntryRules n m t f := by
  have hc : ∀ i, i < n → ∀ j, j < n → (e i j).Complete n := fun i hi j hj => (he i hi j hj).1
  have hby := sums_by (t := t) hc
  have hP : ∀ q, (∃ e : Summation, e.Complete n ∧ q = toPlan e) → Takes n q := by
    rintro _ ⟨e, he, rfl⟩
    exact toPlan_takes he
  have hag := agree hc h
  refine ⟨fun fuse => (hag fuse).failures (C134_of hby hP ?_ fuse),
    fun fuse => (hag fuse).nan (keeps_nan hby hP fuse),
    fun fused => (hag _).signs (C129_signs hby fused),
    fun fused => (hag _).monotonic (C130_monotonic hby fused),
    fun fused => (hag _).scales (C130_scales hby fused)⟩
  intro α _ r A B a b hA hB hfin hfits
  simp only [Nat.cast_one, one_mul] at hfits ⊢
  rw [sums_eq hc hA hB]
  obtain ⟨G, h1, h2⟩ := C99_bound r n m a b e he ⟨hfin, hfits⟩
  refine ⟨G, ?_, h2⟩
  rw [← h1]
  refine congrArg ND.pure (rect_congr fun i _ j _ => ?_)
  rw [toPlan_eval]

/-- **C135.** If the order is the same for all entries, it follows all rules. -/
theorem C135_same_order (e : Summation) (he : e.Complete n) (hm : e.rounds ≤ m)
    (h : ∀ fuse (A B : Array Double) (a b : Nat → Nat → Double), Holds A n n a →
      Holds B n n (if t then tr b else b) → f fuse A B = ND.pure (rowMajor n fun i j =>
        @Summation.eval Double (Double.arith fuse) (a i) (fun k => b k j) e)) :
    DoubleRules n m t f :=
  ⟨C135_reordered (fun _ _ => e) (fun _ _ _ _ => ⟨he, hm⟩) h, fun fuse hf =>
    (agree (e := fun _ _ => e) (fun _ _ _ _ => he) h fuse).symmetries
      (C129_symmetries ⟨toPlan e, trivial, fun _ _ => toPlan e, fun _ _ _ _ => rfl,
        fun _ _ _ _ _ _ hA hB => sums_eq (fun _ _ _ _ => he) hA hB⟩ (P := fun _ => True) fuse hf)⟩

/-! ### the kernels -/

/-- **C135.** `multNaive` on a zero matrix. -/
theorem C135_naive (n : Nat) :
    DoubleRules n (n + 1) false fun fuse A B =>
      letI := Double.arith fuse
      multNaive A B (zeros (n * n)) n := by
  obtain ⟨e, he, hm, hr⟩ := C99_naive_order n
  refine C135_same_order e he hm fun fuse A B a b hA hB => ?_
  let _ := Double.arith fuse
  exact hr A B a b hA hB

/-- **C135.** `multTransposed` on a zero matrix. -/
theorem C135_transposed (n : Nat) :
    DoubleRules n (n + 1) true fun fuse A B =>
      letI := Double.arith fuse
      ND.ofM (multTransposed A B (zeros (n * n)) n) := by
  obtain ⟨e, he, hm, hr⟩ := C99_transposed_order n
  refine C135_same_order e he hm fun fuse A B a b hA hB => ?_
  let _ := Double.arith fuse
  exact hr A B a b hA hB

/-- **C135.** `multCounter`. -/
theorem C135_counter (n : Nat)
    (C : Array Double) (hC : C.size = n * n) :
    DoubleRules n (n + 1) true fun fuse A B =>
      letI := Double.arith fuse
      multCounter A B C n := by
  obtain ⟨e, he, hm, hr⟩ := C99_counter_order n
  refine C135_same_order e he hm fun fuse A B a b hA hB => ?_
  let _ := Double.arith fuse
  exact hr A B C a b hA hB hC

/-- **C135.** `multBlocked2`, for even sizes. -/
theorem C135_blocked2 (n : Nat) (hn : 2 ∣ n)
    (C : Array Double) (hC : C.size = n * n) :
    DoubleRules n (n + 1) true fun fuse A B =>
      letI := Double.arith fuse
      multBlocked2 A B C n := by
  obtain ⟨e, he, hm, hr⟩ := C99_blocked2_order n hn
  refine C135_same_order e he hm fun fuse A B a b hA hB => ?_
  let _ := Double.arith fuse
  exact hr A B C a b hA hB hC

/-- **C135.** `multExchanged`, for multiples of 128. -/
theorem C135_exchanged (n : Nat) (hn : 128 ∣ n)
    (st : Stack Double) (hst : st.Sized 128 128)
    (C : Array Double) (hC : C.size = n * n) :
    DoubleRules n (n + 1) false fun fuse A B =>
      letI := Double.arith fuse
      multExchanged st A B C n := by
  obtain ⟨e, he, hm, hr⟩ := C99_exchanged_order n hn
  refine C135_same_order e he hm fun fuse A B a b hA hB => ?_
  let _ := Double.arith fuse
  exact hr st hst A B C a b hA hB hC

/-- **C135.** `multGPU`, for multiples of 128. -/
theorem C135_gpu (n : Nat) (hn : 128 ∣ n)
    (st : Stack Double) (hst : st.Sized 128 128)
    (C : Array Double) (hC : C.size = n * n) :
    DoubleRules n (33 + 4 * (n / 128)) true fun fuse A B =>
      letI := Double.arith fuse
      multGPU st A B C n := by
  obtain ⟨e, he, hm, hr⟩ := C99_gpu_order n hn
  refine C135_same_order e he hm fun fuse A B a b hA hB => ?_
  let _ := Double.arith fuse
  exact hr st hst A B C a b hA hB hC

/-- **C135.** `multGPUASM` with `__FMA__` and aligned arrays on the stack, for multiples of 256. -/
theorem C135_gpuasm (oA oB : Nat) (hoA : oA % 4 = 0) (hoB : oB % 4 = 0) (n : Nat)
    (hn : 256 ∣ n)
    (st : Stack Double) (hst : st.Sized 256 256)
    (C : Array Double) (hC : C.size = n * n) :
    DoubleRules n (65 + 4 * (n / 256)) true fun fuse A B =>
      letI := Double.arith fuse
      multGPUASM true oA oB st A B C n := by
  obtain ⟨e, he, hm, hr⟩ := C99_gpuasm_order oA oB hoA hoB n hn
  refine C135_same_order e he hm fun fuse A B a b hA hB => ?_
  let _ := Double.arith fuse
  exact hr st hst A B C a b hA hB hC

/-- **C135.** `multRegister` with `__FMA__` and aligned arrays on the stack, for multiples of 256. -/
theorem C135_register (oR oB : Nat) (hoR : oR % 4 = 0) (hoB : oB % 4 = 0) (n : Nat)
    (hn : 256 ∣ n)
    (st : Stack Double) (hst : st.Sized 256 64)
    (C : Array Double) (hC : C.size = n * n) :
    DoubleRules n (n + 1) false fun fuse A B =>
      letI := Double.arith fuse
      multRegister true oR oB st A B C n := by
  obtain ⟨e, he, hm, hr⟩ := C99_register_order oR oB hoR hoB n hn
  refine C135_same_order e he hm fun fuse A B a b hA hB => ?_
  let _ := Double.arith fuse
  exact hr st hst A B C a b hA hB hC

/-- **C135.** `multIntrinLoop` with aligned matrices, for multiples of 128. -/
theorem C135_intrinLoop (oA oB oC : Nat) (hoA : oA % 4 = 0) (hoB : oB % 4 = 0) (hoC : oC % 4 = 0)
    (n : Nat) (hn : 128 ∣ n)
    (st : Stack Double) (hst : st.Sized 128 128)
    (C : Array Double) (hC : C.size = n * n) :
    DoubleRules n (n + 1) false fun fuse A B =>
      letI := Double.arith fuse
      multIntrinLoop oA oB oC st A B C n := by
  obtain ⟨e, he, hm, hr⟩ := C99_intrinLoop_order oA oB oC hoA hoB hoC n hn
  refine C135_same_order e he hm fun fuse A B a b hA hB => ?_
  let _ := Double.arith fuse
  exact hr st hst A B C a b hA hB hC

/-- **C135.** `multASM` with its assembler code and aligned matrices, for multiples of 4. -/
theorem C135_asm (gnuc oA oB : Nat) (hg : 4 < gnuc) (hoA : oA % 4 = 0) (hoB : oB % 4 = 0)
    (n : Nat) (hn : 4 ∣ n) (hn' : n < 2 ^ 31)
    (C : Array Double) (hC : C.size = n * n) :
    DoubleRules n (n / 4 + 5) true fun fuse A B =>
      letI := Double.arith fuse
      multASM gnuc oA oB A B C n := by
  obtain ⟨e, he, hm, hr⟩ := C99_asm_order gnuc oA oB hg hoA hoB n hn hn'
  refine C135_same_order e he hm fun fuse A B a b hA hB => ?_
  let _ := Double.arith fuse
  exact hr A B C a b hA hB hC

/-! ### -ffast-math -/

private theorem term_eval {f g : Nat → Term} (hf : ∀ k, (f k).Atom) (hg : ∀ k, (g k).Atom) (e : Summation) :
    (e.eval f g).Flat ∧
      (e.eval f g).products = ((e.products.map fun k => (f k, g k) : List _) : Multiset _) := by
  induction e with
  | zero => exact ⟨trivial, rfl⟩
  | mac e k ih =>
    refine ⟨⟨ih.1, hf k, hg k⟩, ?_⟩
    show (f k, g k) ::ₘ (e.eval f g).products = _
    rw [ih.2, Multiset.cons_coe, Multiset.coe_eq_coe, Summation.products, List.map_append]
    exact (List.perm_append_singleton _ _).symm
  | add e e' ih ih' =>
    refine ⟨⟨ih.1, ih'.1⟩, ?_⟩
    show (e.eval f g).products + (e'.eval f g).products = _
    rw [ih.2, ih'.2, Multiset.coe_add, Summation.products, List.map_append]

private theorem sums_of {f g : Nat → Nat → Term} (hf : ∀ i j, (f i j).Atom) (hg : ∀ i j, (g i j).Atom)
    {e : Summation} (he : e.Complete n) {Q : ND (Array Term)}
    (h : Q = ND.pure (rowMajor n fun i j => e.eval (f i) fun k => g k j)) : Sums Q n 1 f g := by
  refine ⟨_, h, fun i _ j _ => ?_⟩
  obtain ⟨h1, h2⟩ := term_eval (f := f i) (g := fun k => g k j) (hf i) (fun k => hg k j) e
  refine ⟨h1, 0, ?_⟩
  rw [h2, one_nsmul, zero_nsmul, add_zero, Multiset.coe_eq_coe.2 (List.Perm.map _ he)]
  rfl

variable {f g : Nat → Nat → Term}

/-- **C135.** `multNaive` on a zero matrix: the formulas of the source, from which `-ffast-math` starts (C105, C134). -/
theorem C135_naive_sums (n : Nat)
    (hf : ∀ i j, (f i j).Atom) (hg : ∀ i j, (g i j).Atom) (A B : Array Term) (hA : Holds A n n f)
    (hB : Holds B n n g) : Sums (multNaive A B (zeros (n * n)) n) n 1 f g := by
  obtain ⟨e, he, -, hr⟩ := C99_naive_order n
  exact sums_of hf hg he (hr A B f g hA hB)

/-- **C135.** `multTransposed` on a zero matrix: the formulas of the source, from which `-ffast-math` starts (C105, C134). -/
theorem C135_transposed_sums (n : Nat)
    (hf : ∀ i j, (f i j).Atom) (hg : ∀ i j, (g i j).Atom) (A B : Array Term) (hA : Holds A n n f)
    (hB : Holds B n n (tr g)) : Sums (ND.ofM (multTransposed A B (zeros (n * n)) n)) n 1 f g := by
  obtain ⟨e, he, -, hr⟩ := C99_transposed_order n
  exact sums_of hf hg he (hr A B f g hA hB)

/-- **C135.** `multCounter`: the formulas of the source, from which `-ffast-math` starts (C105, C134). -/
theorem C135_counter_sums (n : Nat)
    (hf : ∀ i j, (f i j).Atom) (hg : ∀ i j, (g i j).Atom) (A B C : Array Term) (hA : Holds A n n f)
    (hB : Holds B n n (tr g)) (hC : C.size = n * n) : Sums (multCounter A B C n) n 1 f g := by
  obtain ⟨e, he, -, hr⟩ := C99_counter_order n
  exact sums_of hf hg he (hr A B C f g hA hB hC)

/-- **C135.** `multBlocked2`, for even sizes: the formulas of the source, from which `-ffast-math` starts (C105, C134). -/
theorem C135_blocked2_sums (n : Nat) (hn : 2 ∣ n)
    (hf : ∀ i j, (f i j).Atom) (hg : ∀ i j, (g i j).Atom) (A B C : Array Term) (hA : Holds A n n f)
    (hB : Holds B n n (tr g)) (hC : C.size = n * n) : Sums (multBlocked2 A B C n) n 1 f g := by
  obtain ⟨e, he, -, hr⟩ := C99_blocked2_order n hn
  exact sums_of hf hg he (hr A B C f g hA hB hC)

/-- **C135.** `multExchanged`, for multiples of 128: the formulas of the source, from which `-ffast-math` starts (C105, C134). -/
theorem C135_exchanged_sums (n : Nat) (hn : 128 ∣ n)
    (st : Stack Term) (hst : st.Sized 128 128)
    (hf : ∀ i j, (f i j).Atom) (hg : ∀ i j, (g i j).Atom) (A B C : Array Term) (hA : Holds A n n f)
    (hB : Holds B n n g) (hC : C.size = n * n) : Sums (multExchanged st A B C n) n 1 f g := by
  obtain ⟨e, he, -, hr⟩ := C99_exchanged_order n hn
  exact sums_of hf hg he (hr st hst A B C f g hA hB hC)

/-- **C135.** `multGPU`, for multiples of 128: the formulas of the source, from which `-ffast-math` starts (C105, C134). -/
theorem C135_gpu_sums (n : Nat) (hn : 128 ∣ n)
    (st : Stack Term) (hst : st.Sized 128 128)
    (hf : ∀ i j, (f i j).Atom) (hg : ∀ i j, (g i j).Atom) (A B C : Array Term) (hA : Holds A n n f)
    (hB : Holds B n n (tr g)) (hC : C.size = n * n) : Sums (multGPU st A B C n) n 1 f g := by
  obtain ⟨e, he, -, hr⟩ := C99_gpu_order n hn
  exact sums_of hf hg he (hr st hst A B C f g hA hB hC)

/-- **C135.** `multGPUASM` with `__FMA__` and aligned arrays on the stack: the formulas of the source, from which `-ffast-math` starts (C105, C134). -/
theorem C135_gpuasm_sums (oA oB : Nat) (hoA : oA % 4 = 0) (hoB : oB % 4 = 0) (n : Nat)
    (hn : 256 ∣ n)
    (st : Stack Term) (hst : st.Sized 256 256)
    (hf : ∀ i j, (f i j).Atom) (hg : ∀ i j, (g i j).Atom) (A B C : Array Term) (hA : Holds A n n f)
    (hB : Holds B n n (tr g)) (hC : C.size = n * n) : Sums (multGPUASM true oA oB st A B C n) n 1 f g := by
  obtain ⟨e, he, -, hr⟩ := C99_gpuasm_order oA oB hoA hoB n hn
  exact sums_of hf hg he (hr st hst A B C f g hA hB hC)

/-- **C135.** `multRegister` with `__FMA__` and aligned arrays on the stack: the formulas of the source, from which `-ffast-math` starts (C105, C134). -/
theorem C135_register_sums (oR oB : Nat) (hoR : oR % 4 = 0) (hoB : oB % 4 = 0) (n : Nat)
    (hn : 256 ∣ n)
    (st : Stack Term) (hst : st.Sized 256 64)
    (hf : ∀ i j, (f i j).Atom) (hg : ∀ i j, (g i j).Atom) (A B C : Array Term) (hA : Holds A n n f)
    (hB : Holds B n n g) (hC : C.size = n * n) : Sums (multRegister true oR oB st A B C n) n 1 f g := by
  obtain ⟨e, he, -, hr⟩ := C99_register_order oR oB hoR hoB n hn
  exact sums_of hf hg he (hr st hst A B C f g hA hB hC)

/-- **C135.** `multIntrinLoop` with aligned matrices: the formulas of the source, from which `-ffast-math` starts (C105, C134). -/
theorem C135_intrinLoop_sums (oA oB oC : Nat) (hoA : oA % 4 = 0) (hoB : oB % 4 = 0)
    (hoC : oC % 4 = 0) (n : Nat) (hn : 128 ∣ n)
    (st : Stack Term) (hst : st.Sized 128 128)
    (hf : ∀ i j, (f i j).Atom) (hg : ∀ i j, (g i j).Atom) (A B C : Array Term) (hA : Holds A n n f)
    (hB : Holds B n n g) (hC : C.size = n * n) : Sums (multIntrinLoop oA oB oC st A B C n) n 1 f g := by
  obtain ⟨e, he, -, hr⟩ := C99_intrinLoop_order oA oB oC hoA hoB hoC n hn
  exact sums_of hf hg he (hr st hst A B C f g hA hB hC)

/-- **C135.** `multASM` with its assembler code and aligned matrices: the formulas of the source, from which `-ffast-math` starts (C105, C134). -/
theorem C135_asm_sums (gnuc oA oB : Nat) (h4 : 4 < gnuc) (hoA : oA % 4 = 0) (hoB : oB % 4 = 0)
    (n : Nat) (hn : 4 ∣ n) (hn' : n < 2 ^ 31)
    (hf : ∀ i j, (f i j).Atom) (hg : ∀ i j, (g i j).Atom) (A B C : Array Term) (hA : Holds A n n f)
    (hB : Holds B n n (tr g)) (hC : C.size = n * n) : Sums (multASM gnuc oA oB A B C n) n 1 f g := by
  obtain ⟨e, he, -, hr⟩ := C99_asm_order gnuc oA oB h4 hoA hoB n hn hn'
  exact sums_of hf hg he (hr A B C f g hA hB hC)

section Examples

/-- A sum with two lanes, as a vectoriser makes it: it adds every product once. -/
example : EntryRules 4 5 false fun fuse A B =>
    letI := Double.arith fuse
    ND.pure (rowMajor 4 fun i j => Summation.eval (fun k => A[i * 4 + k]?.getD Double.zero)
      (fun k => B[k * 4 + j]?.getD Double.zero)
      (.add (.mac (.mac .zero 0) 2) (.mac (.mac .zero 1) 3))) := by
  refine C135_reordered (fun _ _ => .add (.mac (.mac .zero 0) 2) (.mac (.mac .zero 1) 3))
    (fun _ _ _ _ => ⟨by unfold Summation.Complete; decide, by decide⟩) fun fuse A B a b hA hB => ?_
  refine congrArg ND.pure (rect_congr fun i hi j hj => ?_)
  have h : ∀ k, k < 4 → A[i * 4 + k]?.getD Double.zero = a i k ∧
      B[k * 4 + j]?.getD Double.zero = b k j := fun k hk => by
    have h2 := hB k hk j hj
    simp only [Bool.false_eq_true, if_false] at h2
    rw [hA i hi k hk, h2]
    exact ⟨rfl, rfl⟩
  simp only [Summation.eval, h 0 (by decide), h 1 (by decide), h 2 (by decide), h 3 (by decide)]

/-- The hypotheses of the kernels. -/
example (st : Stack Double) (hst : st.Sized 256 256) (C : Array Double) (hC : C.size = 512 * 512) :
    DoubleRules 512 73 true fun fuse A B => @multGPUASM Double (Double.arith fuse) true 4 8 st A B C 512 :=
  C135_gpuasm 4 8 (by decide) (by decide) 512 (by decide) st hst C hC

example (C : Array Double) (hC : C.size = 12 * 12) :
    DoubleRules 12 8 true fun fuse A B => @multASM Double (Double.arith fuse) 9 4 8 A B C 12 :=
  C135_asm 9 4 8 (by decide) (by decide) (by decide) 12 (by decide) (by decide) C hC

/-- `∞ * 0` in an entry: it becomes NaN, whatever the result matrix held before. -/
example (C : Array Double) (hC : C.size = 3 * 3) (fuse : Double → Double → Double → Bool)
    (A B : Array Double) (a b : Nat → Nat → Double) (hA : Holds A 3 3 a) (hB : Holds B 3 3 (tr b))
    (h : (a 1 2).1 = .inf false) (h' : (b 2 0).1 = .zero true) :
    ∃ D, @multCounter Double (Double.arith fuse) A B C 3 = ND.pure D ∧ D[3]? = some notANumber := by
  obtain ⟨D, h1, h2⟩ := (C135_counter 3 C hC).nan fuse A B a b hA hB
  exact ⟨D, h1, h2 1 0 2 (by decide) (by decide) (by decide) (.inr (.inr (.inr ⟨_, _, h, h'⟩)))⟩

/-- Any result of `multCounter` compiled with `-ffast-math`. -/
example (p q : Nat → Nat → Double) (C : Array Term) (hC : C.size = 3 * 3) (D : Array Double)
    (h : FastResult p q (multCounter (rowMajor 3 Term.a) (rowMajor 3 (tr Term.b)) C 3) D) :
    ∃ c : Nat → Nat → Double, D = rowMajor 3 c ∧
      ∀ i, i < 3 → ∀ j, j < 3 → (c i j).finite → ∀ k, k < 3 → (p i k).finite ∧ (q k j).finite := by
  obtain ⟨c, h1, h2⟩ := C134_fast (C135_counter_sums 3 (f := Term.a) (g := Term.b) (fun _ _ => trivial)
    (fun _ _ => trivial) _ _ C (holds_rect _ _ _) (holds_rect _ _ _) hC) (Nat.le_refl 1) h
  exact ⟨c, h1, fun i hi j hj hf => ((h2 i hi j hj).1 hf).1⟩

end Examples
end Verif.Props
