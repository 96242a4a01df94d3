import Verif.Proof.Symmetry
import Verif.Props.Plan
/-
C129: symmetries of the multiplication that survive rounding.
-/
namespace Verif.Props
open Kernel IEEE

variable {N : Nat} {t : Bool} {P : Plan → Prop}
  {run : (α : Type) → [Arith α] → Array α → Array α → ND (Array α)}

/-! ### any arithmetic -/

/-- **C129**, any arithmetic: rows of the first and columns of the second matrix may be permuted,
repeated or left out; the entries of the result move with them, to the last bit. -/
theorem C129_select (h : ComputesSame N t P run) {α : Type} [Arith α] (A B A' B' : Array α)
    (a b : Nat → Nat → α) (ρ σ : Nat → Nat) (hρ : ∀ i, i < N → ρ i < N) (hσ : ∀ j, j < N → σ j < N)
    (hA : Holds A N N a) (hB : Holds B N N (if t then tr b else b))
    (hA' : Holds A' N N fun i k => a (ρ i) k)
    (hB' : Holds B' N N (if t then tr fun k j => b k (σ j) else fun k j => b k (σ j))) :
    ∃ C C', run α A B = ND.pure C ∧ run α A' B' = ND.pure C' ∧
      ∀ i j, i < N → j < N → C'[i * N + j]? = C[ρ i * N + σ j]? := by
  obtain ⟨q, -, plan, hp, hrun⟩ := h
  refine ⟨_, _, hrun α A B a b hA hB, hrun α A' B' _ _ hA' hB', fun i j hi hj => ?_⟩
  rw [holds_rect N N _ i hi j hj, holds_rect N N _ (ρ i) (hρ i hi) (σ j) (hσ j hj), hp i hi j hj,
    hp _ (hρ i hi) _ (hσ j hj)]

private theorem eval_swap {α : Type} [Arith α] (hc : ∀ c x y : α, Arith.mac c x y = Arith.mac c y x)
    (f g : Nat → α) (q : Plan) : q.eval f g = q.eval g f := by
  induction q with
  | zero => rfl
  | mac s k ih => simp only [Plan.eval]; rw [ih, hc]
  | pad s ih => simp only [Plan.eval]; rw [ih]
  | add s u ih ih' => simp only [Plan.eval]; rw [ih, ih']

/-- **C129**, any arithmetic with commutative products: the product of the transposed matrices in
the other order is the transposed product, to the last bit. -/
theorem C129_transpose (h : ComputesSame N t P run) {α : Type} [Arith α]
    (hc : ∀ c x y : α, Arith.mac c x y = Arith.mac c y x) (A B A' B' : Array α)
    (a b : Nat → Nat → α) (hA : Holds A N N a) (hB : Holds B N N (if t then tr b else b))
    (hA' : Holds A' N N (tr b)) (hB' : Holds B' N N (if t then a else tr a)) :
    ∃ C C', run α A B = ND.pure C ∧ run α A' B' = ND.pure C' ∧
      ∀ i j, i < N → j < N → C'[i * N + j]? = C[j * N + i]? := by
  obtain ⟨q, -, plan, hp, hrun⟩ := h
  have hB'' : Holds B' N N (if t then tr (tr a) else tr a) := by cases t <;> exact hB'
  refine ⟨_, _, hrun α A B a b hA hB, hrun α A' B' (tr b) (tr a) hA' hB'', fun i j hi hj => ?_⟩
  rw [holds_rect N N _ i hi j hj, holds_rect N N _ j hj i hi, hp i hi j hj, hp j hj i hi,
    eval_swap hc]
  rfl

/-! ### doubles -/

/-- What remains of the laws of matrix multiplication for doubles; `t`: the second matrix is stored
transposed. -/
structure Symmetries (N : Nat) (t : Bool) (f : Array Double → Array Double → ND (Array Double)) :
    Prop where
  /-- Rows and columns can be selected before or after the multiplication. -/
  select : ∀ (A B A' B' : Array Double) (a b : Nat → Nat → Double) (ρ σ : Nat → Nat),
    (∀ i, i < N → ρ i < N) → (∀ j, j < N → σ j < N) → Holds A N N a →
    Holds B N N (if t then tr b else b) → Holds A' N N (fun i k => a (ρ i) k) →
    Holds B' N N (if t then tr fun k j => b k (σ j) else fun k j => b k (σ j)) →
    ∃ C C', f A B = ND.pure C ∧ f A' B' = ND.pure C' ∧
      ∀ i j, i < N → j < N → C'[i * N + j]? = C[ρ i * N + σ j]?
  /-- `Bᵀ Aᵀ = (A B)ᵀ` -/
  transpose : ∀ (A B A' B' : Array Double) (a b : Nat → Nat → Double), Holds A N N a →
    Holds B N N (if t then tr b else b) → Holds A' N N (tr b) →
    Holds B' N N (if t then a else tr a) →
    ∃ C C', f A B = ND.pure C ∧ f A' B' = ND.pure C' ∧
      ∀ i j, i < N → j < N → C'[i * N + j]? = C[j * N + i]?
  /-- `A Aᵀ` is symmetric. -/
  gram : ∀ (A B : Array Double) (a : Nat → Nat → Double), Holds A N N a →
    Holds B N N (if t then a else tr a) →
    ∃ C, f A B = ND.pure C ∧ ∀ i j, i < N → j < N → C[i * N + j]? = C[j * N + i]?

/-- What remains of the rules for signs. -/
structure SignRules (N : Nat) (t : Bool) (f : Array Double → Array Double → ND (Array Double)) :
    Prop where
  /-- `(-A) (-B) = A B` -/
  both : ∀ (A B A' B' : Array Double) (a b : Nat → Nat → Double), Holds A N N a →
    Holds B N N (if t then tr b else b) → Holds A' N N (fun i k => (a i k).neg) →
    Holds B' N N (if t then tr fun k j => (b k j).neg else fun k j => (b k j).neg) →
    f A' B' = f A B
  /-- `(-A) B = -(A B)`, except for the signs of zeros -/
  left : ∀ (A B A' : Array Double) (a b : Nat → Nat → Double), Holds A N N a →
    Holds B N N (if t then tr b else b) → Holds A' N N (fun i k => (a i k).neg) →
    ∃ C C', f A B = ND.pure C ∧ f A' B = ND.pure C' ∧
      ∀ i j, i < N → j < N → ∃ x y, C[i * N + j]? = some x ∧ C'[i * N + j]? = some y ∧
        (y = x.neg ∨ ∃ s u, x.1 = .zero s ∧ y.1 = .zero u)

/-- **C129.** Doubles, if the decision whether to fuse does not depend on the order of the factors. -/
theorem C129_symmetries (h : ComputesSame N t P run) (fuse : Double → Double → Double → Bool)
    (hf : ∀ c x y, fuse c x y = fuse c y x) :
    Symmetries N t (@run Double (Double.arith fuse)) := by
  let _ := Double.arith fuse
  have hc : ∀ c x y : Double, Arith.mac c x y = Arith.mac c y x := by
    intro c x y
    show (if fuse c x y then Double.fma c x y else Double.add c (Double.mul x y)) =
      if fuse c y x then Double.fma c y x else Double.add c (Double.mul y x)
    rw [hf, Double.fma_comm, Double.mul_comm']
  refine ⟨fun A B A' B' a b ρ σ => C129_select h A B A' B' a b ρ σ,
    fun A B A' B' a b => C129_transpose h hc A B A' B' a b, fun A B a hA hB => ?_⟩
  have hB' : Holds B N N (if t then tr (tr a) else tr a) := by cases t <;> exact hB
  obtain ⟨C, C', h1, h2, h3⟩ := C129_transpose h hc A B A B a (tr a) hA hB' hA hB
  refine ⟨C, h1, fun i j hi hj => ?_⟩
  rw [h1] at h2
  rw [← h3 i j hi hj, pure_inj h2]

private theorem eval_both (fused : Bool) (f g : Nat → Double) (q : Plan) :
    @Plan.eval Double (Double.arith fun _ _ _ => fused) (fun k => (f k).neg) (fun k => (g k).neg) q =
      @Plan.eval Double (Double.arith fun _ _ _ => fused) f g q := by
  let _ := Double.arith fun _ _ _ => fused
  induction q with
  | zero => rfl
  | mac s k ih =>
    simp only [Plan.eval]
    rw [ih]
    show (if fused then Double.fma _ _ _ else Double.add _ (Double.mul _ _)) =
      if fused then Double.fma _ _ _ else Double.add _ (Double.mul _ _)
    rw [Double.fma_neg_neg, Double.mul_neg_neg]
  | pad s ih => simp only [Plan.eval]; rw [ih]
  | add s u ih ih' => simp only [Plan.eval]; rw [ih, ih']

private theorem eval_left (fused : Bool) (f g : Nat → Double) (q : Plan) :
    Double.Same (@Plan.eval Double (Double.arith fun _ _ _ => fused) (fun k => (f k).neg) g q)
      (@Plan.eval Double (Double.arith fun _ _ _ => fused) f g q).neg := by
  let _ := Double.arith fun _ _ _ => fused
  have hz : Double.Same (Double.mul Double.zero Double.zero)
      (Double.mul Double.zero Double.zero).neg := Ext.Same.zero _ _
  induction q with
  | zero => exact Ext.Same.zero _ _
  | mac s k ih =>
    simp only [Plan.eval]
    show Double.Same (if fused then Double.fma _ _ _ else Double.add _ (Double.mul _ _))
      (if fused then Double.fma _ _ _ else Double.add _ (Double.mul _ _) : Double).neg
    cases fused
    · exact Double.add_same ih (Double.mul_same _ _)
    · exact Double.fma_same ih _ _
  | pad s ih =>
    simp only [Plan.eval]
    show Double.Same (if fused then Double.fma _ _ _ else Double.add _ (Double.mul _ _))
      (if fused then Double.fma _ _ _ else Double.add _ (Double.mul _ _) : Double).neg
    cases fused
    · exact Double.add_same ih hz
    · exact Double.add_same (x := Double.zero) (y := Double.zero) ih (Ext.Same.zero _ _)
  | add s u ih ih' =>
    simp only [Plan.eval]
    exact Double.add_same ih ih'

/-- **C129.** Doubles, if all multiply-adds are fused or none is. -/
theorem C129_signs (h : ComputesBy N t P run) (fused : Bool) :
    SignRules N t (@run Double (Double.arith fun _ _ _ => fused)) := by
  let _ := Double.arith fun _ _ _ => fused
  obtain ⟨plan, -, hrun⟩ := h
  constructor
  · intro A B A' B' a b hA hB hA' hB'
    rw [hrun Double A B a b hA hB, hrun Double A' B' _ _ hA' hB']
    exact congrArg _ (rect_congr fun i hi j hj => eval_both fused _ _ _)
  · intro A B A' a b hA hB hA'
    refine ⟨_, _, hrun Double A B a b hA hB, hrun Double A' B _ b hA' hB,
      fun i j hi hj => ⟨_, _, holds_rect N N _ i hi j hj, holds_rect N N _ i hi j hj, ?_⟩⟩
    rcases eval_left fused (a i) (fun k => b k j) (plan i j) with h | ⟨s, u, h1, h2⟩
    · exact .inl (Subtype.ext h)
    · refine .inr ⟨!u, s, ?_, h1⟩
      have h2 : (((plan i j).eval (a i) fun k => b k j) : Double).1.neg = .zero u := h2
      rw [← Ext.neg_neg' (((plan i j).eval (a i) fun k => b k j) : Double).1, h2]
      rfl

/-- **C129.** The naive multiplication. -/
theorem C129_naive (N : Nat) (fused : Bool) :
    Symmetries N false (fun A B =>
      @Naive.naive_matrix_multiply Double (Double.arith fun _ _ _ => fused) N A B) ∧
    SignRules N false fun A B =>
      @Naive.naive_matrix_multiply Double (Double.arith fun _ _ _ => fused) N A B :=
  ⟨C129_symmetries (C126_naive N) _ fun _ _ _ => rfl,
    C129_signs (C126_naive N).by fused⟩

/-- **C129.** The naive multiplication with `B` transposed. -/
theorem C129_naive_transposed (N : Nat) (fused : Bool) :
    Symmetries N true (fun A B =>
      @Naive.naive_matrix_multiply_transposed Double (Double.arith fun _ _ _ => fused) N A B) ∧
    SignRules N true fun A B =>
      @Naive.naive_matrix_multiply_transposed Double (Double.arith fun _ _ _ => fused) N A B :=
  ⟨C129_symmetries (C126_naive_transposed N) _ fun _ _ _ => rfl,
    C129_signs (C126_naive_transposed N).by fused⟩

/-- **C129.** `single`. -/
theorem C129_single (N e s : Nat) (transposed : Bool) (br bi reps : Nat) (hN : N = 2 ^ e * s)
    (hs : s ≤ br) (he : ∀ d, d < e → br < 2 ^ (d + 1) * s)
    (hdiv : transposed = true → bi ≠ 0 → 4 ≤ s → 4 ∣ s ∧ bi ∣ N) (hr : 0 < reps) (fused : Bool) :
    Symmetries N transposed (fun A B =>
      @Recursive.single_matrix_multiply Double (Double.arith fun _ _ _ => fused) N A B transposed br bi reps) ∧
    SignRules N transposed fun A B =>
      @Recursive.single_matrix_multiply Double (Double.arith fun _ _ _ => fused) N A B transposed br bi reps :=
  ⟨C129_symmetries (C126_single N e s transposed br bi reps hN hs he hdiv hr) _ fun _ _ _ => rfl,
    C129_signs (C126_single N e s transposed br bi reps hN hs he hdiv hr).by fused⟩

open StaticImproved in
/-- **C129.** `pseudodynamic`, whenever it is correct: the rules for signs. -/
theorem C129_pseudodynamic_signs (p : Params) (N : Nat) (transposed : Bool) (br bi reps L : Nat)
    (aw : List (List Work)) (haw : create_schedule p N (if 1 < L then L - 1 else L) = .ok aw)
    (hc : ∀ r c, r < N → c < N → ∃ ws ∈ aw, ∃ w ∈ ws, Covers w r c)
    (hw : ∀ ws ∈ aw, ∀ w ∈ ws, HalvesTo br w.N ∧ InputFits N transposed bi (leafSize br w.N))
    (hr : 0 < reps) (fused : Bool) : SignRules N transposed fun A B =>
      @pseudodynamic_matrix_multiply Double (Double.arith fun _ _ _ => fused) p N A B transposed br bi
        reps L :=
  C129_signs (C126_pseudodynamic p N transposed br bi reps L aw haw hc hw hr) fused

open StaticImproved in
/-- **C129.** `pseudodynamic` without input blocks: all of the symmetries. -/
theorem C129_pseudodynamic (p : Params) (N : Nat) (transposed : Bool) (br bi reps L : Nat)
    (aw : List (List Work)) (haw : create_schedule p N (if 1 < L then L - 1 else L) = .ok aw)
    (hc : ∀ r c, r < N → c < N → ∃ ws ∈ aw, ∃ w ∈ ws, Covers w r c)
    (hw : ∀ ws ∈ aw, ∀ w ∈ ws, HalvesTo br w.N) (hb : transposed = false ∨ bi = 0) (hr : 0 < reps)
    (fused : Bool) : Symmetries N transposed fun A B =>
      @pseudodynamic_matrix_multiply Double (Double.arith fun _ _ _ => fused) p N A B transposed br bi
        reps L :=
  C129_symmetries (C126_pseudodynamic_same p N transposed br bi reps L aw haw hc hw hb hr) _
    fun _ _ _ => rfl

/-- **C129.** `algorithms`. -/
theorem C129_algorithms (N bi br : Nat) (hbi : 0 < bi) (hbr : 0 < br) (hdi : bi ∣ N) (hdr : br ∣ N)
    (fused : Bool) :
    Symmetries N true (fun A B =>
      @Algorithms.matrix_multiply Double (Double.arith fun _ _ _ => fused) N A B bi br) ∧
    SignRules N true fun A B =>
      @Algorithms.matrix_multiply Double (Double.arith fun _ _ _ => fused) N A B bi br :=
  ⟨C129_symmetries (C126_algorithms N bi br hbi hbr hdi hdr) _ fun _ _ _ => rfl,
    C129_signs (C126_algorithms N bi br hbi hbr hdi hdr).by fused⟩

/-- **C129.** `looped`. -/
theorem C129_looped (N br bi : Nat) (hbr : 0 < br) (hbi : 0 < bi) (hdr : br ∣ N) (hdi : bi ∣ N)
    (fused : Bool) :
    Symmetries N true (fun A B =>
      ND.ofM (@Looped.matrix_multiply Double (Double.arith fun _ _ _ => fused) N A B br bi)) ∧
    SignRules N true fun A B =>
      ND.ofM (@Looped.matrix_multiply Double (Double.arith fun _ _ _ => fused) N A B br bi) :=
  ⟨C129_symmetries (C126_looped N br bi hbr hbi hdr hdi) _ fun _ _ _ => rfl,
    C129_signs (C126_looped N br bi hbr hbi hdr hdi).by fused⟩

/-- **C129.** `semi`. -/
theorem C129_semi (N bi : Nat) (h4 : 4 ∣ N) (hbi : 0 < bi) (hd : bi ∣ N) (fused : Bool) :
    Symmetries N true (fun A B =>
      @Semi.matrix_multiply Double (Double.arith fun _ _ _ => fused) N A B bi) ∧
    SignRules N true fun A B =>
      @Semi.matrix_multiply Double (Double.arith fun _ _ _ => fused) N A B bi :=
  ⟨C129_symmetries (C126_semi N bi h4 hbi hd) _ fun _ _ _ => rfl,
    C129_signs (C126_semi N bi h4 hbi hd).by fused⟩

/-- **C129.** `combined`, for every size and number of repetitions. -/
theorem C129_combined (N reps : Nat) (fused : Bool) :
    Symmetries N false (fun A B =>
      @Combined.matrix_multiply Double (Double.arith fun _ _ _ => fused) Combined.blocking N A B reps) ∧
    SignRules N false fun A B =>
      @Combined.matrix_multiply Double (Double.arith fun _ _ _ => fused) Combined.blocking N A B reps :=
  ⟨C129_symmetries (C126_combined N reps) _ fun _ _ _ => rfl,
    C129_signs (C126_combined N reps).by fused⟩

/-- **C129.** `kernel_tiled`, for every size. -/
theorem C129_kernel_tiled (N : Nat) (t : Bool) (reps : Nat) (hr : 1 ≤ reps) (fused : Bool) :
    Symmetries N false (fun A B =>
      @KernelTiled.matrix_multiply Double (Double.arith fun _ _ _ => fused) KernelTiled.blocking N A B t reps) ∧
    SignRules N false fun A B =>
      @KernelTiled.matrix_multiply Double (Double.arith fun _ _ _ => fused) KernelTiled.blocking N A B t reps :=
  ⟨C129_symmetries (C126_kernel_tiled N t reps hr) _ fun _ _ _ => rfl,
    C129_signs (C126_kernel_tiled N t reps hr).by fused⟩

/-- **C129.** `kernel_test`, for its safe sizes. -/
theorem C129_kernel_test (N : Nat) (hN : SafeSize N) (t : Bool) (reps : Nat) (hr : 1 ≤ reps)
    (fused : Bool) :
    Symmetries N false (fun A B =>
      @KernelTest.matrix_multiply Double (Double.arith fun _ _ _ => fused) N A B t reps) ∧
    SignRules N false fun A B =>
      @KernelTest.matrix_multiply Double (Double.arith fun _ _ _ => fused) N A B t reps :=
  ⟨C129_symmetries (C126_kernel_test N hN t reps hr) _ fun _ _ _ => rfl,
    C129_signs (C126_kernel_test N hN t reps hr).by fused⟩

section Examples

/-- `combined` with size 257 (two tiles): `A Aᵀ` is symmetric to the last bit. -/
example (a : Nat → Nat → Double) :
    ∃ C, @Combined.matrix_multiply Double (Double.arith fun _ _ _ => true) Combined.blocking 257
        (rowMajor 257 a) (rowMajor 257 (tr a)) 1 = ND.pure C ∧
      ∀ i j, i < 257 → j < 257 → C[i * 257 + j]? = C[j * 257 + i]? :=
  (C129_combined 257 1 true).1.gram _ _ a (holds_rect _ _ _) (holds_rect _ _ _)

/-- `algorithms`: reversed rows. -/
example (a b : Nat → Nat → Double) :
    ∃ C C', @Algorithms.matrix_multiply Double (Double.arith fun _ _ _ => false) 8 (rowMajor 8 a)
        (rowMajor 8 (tr b)) 4 2 = ND.pure C ∧
      @Algorithms.matrix_multiply Double (Double.arith fun _ _ _ => false) 8
        (rowMajor 8 fun i k => a (7 - i) k) (rowMajor 8 (tr b)) 4 2 = ND.pure C' ∧
      ∀ i j, i < 8 → j < 8 → C'[i * 8 + j]? = C[(7 - i) * 8 + j]? :=
  (C129_algorithms 8 4 2 (by decide) (by decide) (by decide) (by decide) false).1.select _ _ _ _ a b
    (7 - ·) id (fun i _ => by omega) (fun j h => h) (holds_rect _ _ _) (holds_rect _ _ _)
    (holds_rect _ _ _) (holds_rect _ _ _)

/-- The sign of a zero is an exception: `1 * 1 + 1 * (-1)` and its opposite are both `+0`. -/
example : (@dot Double (Double.arith fun _ _ _ => false) 2 (fun k => Double.ofInt 0 (1 - 2 * k))
      fun _ => Double.ofInt 0 1).1 = .zero false ∧
    (@dot Double (Double.arith fun _ _ _ => false) 2 (fun k => (Double.ofInt 0 (1 - 2 * k)).neg)
      fun _ => Double.ofInt 0 1).1 = .zero false := by
  decide +kernel

open StaticImproved in
/-- The conditions for `pseudodynamic` can be met: one computing locality, one package. -/
example : ∃ aw, StaticImproved.create_schedule ⟨1, 1, fun _ _ => false⟩ 4 1 = .ok aw ∧
    (∀ r c, r < 4 → c < 4 → ∃ ws ∈ aw, ∃ w ∈ ws, Covers w r c) ∧
    ∀ ws ∈ aw, ∀ w ∈ ws, HalvesTo 4 w.N :=
  ⟨[[⟨0, 0, 4⟩]], by decide +kernel, fun r c hr hc => ⟨_, List.mem_singleton.2 rfl, _,
    List.mem_singleton.2 rfl, by unfold Covers; simp only; omega⟩, fun ws h w h' => by
    rw [List.mem_singleton] at h
    subst h
    rw [List.mem_singleton] at h'
    subst h'
    exact ⟨0, 4, by decide, by decide, fun d h => absurd h (Nat.not_lt_zero d)⟩⟩

end Examples

end Verif.Props
