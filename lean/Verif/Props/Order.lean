import Verif.Proof.Order
import Verif.Props.Plan
/-
C130: order and powers of two survive rounding.
-/
namespace Verif.Props
open Kernel IEEE

variable {N : Nat} {t : Bool} {P : Plan → Prop}
  {run : (α : Type) → [Arith α] → Array α → Array α → ND (Array α)}

/-- `0 ≤ x ≤ y`; both may be infinite, neither is NaN. -/
def AtMost (x y : Double) : Prop :=
  (y.1 = .inf false ∧ (x.1 = .inf false ∨ x.finite ∧ 0 ≤ x.value)) ∨
    (x.finite ∧ y.finite ∧ 0 ≤ x.value ∧ x.value ≤ y.value)

/-- `0 ≤ x ≤ y < ∞` -/
def Between (x y : Double) : Prop := x.finite ∧ y.finite ∧ 0 ≤ x.value ∧ x.value ≤ y.value

/-- Larger factors give a product that is at least as large, for matrices without negative elements. -/
def Monotonic (N : Nat) (t : Bool) (f : Array Double → Array Double → ND (Array Double)) : Prop :=
  ∀ (A B A' B' : Array Double) (a b a' b' : Nat → Nat → Double), Holds A N N a →
    Holds B N N (if t then tr b else b) → Holds A' N N a' → Holds B' N N (if t then tr b' else b') →
    (∀ i k, i < N → k < N → Between (a i k) (a' i k)) →
    (∀ k j, k < N → j < N → Between (b k j) (b' k j)) →
    ∃ C C', f A B = ND.pure C ∧ f A' B' = ND.pure C' ∧
      ∀ i j, i < N → j < N → ∃ x y, C[i * N + j]? = some x ∧ C'[i * N + j]? = some y ∧ AtMost x y

/-- `y = x * 2 ^ s`, with the same sign if they are zero. -/
def Shifted (s : ℤ) (x y : Double) : Prop :=
  y.finite ∧ y.value = x.value * 2 ^ s ∧ ∀ z, x.1 = .zero z → y.1 = .zero z

/-- A finite double that is a multiple of `2 ^ (-g)`. -/
def Coarse (g : ℤ) (x : Double) : Prop := x.finite ∧ ∃ n : ℤ, x.value = n * 2 ^ (-g)

/-- A power of two can be multiplied before or after the matrices are, if nothing underflows: the
elements are multiples of `2 ^ (-g)` and of `2 ^ (-h)`, and neither `2 ^ (-(g + h))` nor the smallest
number after scaling is subnormal.  An overflow is seen in the result. -/
def Scales (N : Nat) (t : Bool) (f : Array Double → Array Double → ND (Array Double)) : Prop :=
  ∀ (g h s u : ℤ), g + h ≤ 1022 → g + h - (s + u) ≤ 1022 →
    ∀ (A B A' B' : Array Double) (a b a' b' : Nat → Nat → Double), Holds A N N a →
    Holds B N N (if t then tr b else b) → Holds A' N N a' → Holds B' N N (if t then tr b' else b') →
    (∀ i k, i < N → k < N → Coarse g (a i k) ∧ Shifted s (a i k) (a' i k)) →
    (∀ k j, k < N → j < N → Coarse h (b k j) ∧ Shifted u (b k j) (b' k j)) →
    ∃ C C', f A B = ND.pure C ∧ f A' B' = ND.pure C' ∧
      ∀ i j, i < N → j < N → ∃ x y, C[i * N + j]? = some x ∧ C'[i * N + j]? = some y ∧
        (x.finite → y.finite → Shifted (s + u) x y)

private theorem atMost_iff (x y : Double) : AtMost x y ↔ x.1.UpTo y.1 := by
  unfold AtMost Ext.UpTo
  simp only [Double.finite_iff, Double.value_eq]

private theorem between_mul {x x' y y' : Double} (h : Between x x') (h' : Between y y') :
    (x.1.mul y.1).UpTo (x'.1.mul y'.1) := by
  obtain ⟨h1, h2, h3, h4⟩ := h
  obtain ⟨h5, h6, h7, h8⟩ := h'
  simp only [Double.finite_iff, Double.value_eq] at *
  exact Ext.mul_upTo h1 h2 h5 h6 h3 h4 h7 h8

private theorem between_zero : Between Double.zero Double.zero :=
  ⟨trivial, trivial, le_refl _, le_refl _⟩

private theorem mac_mono (fused : Bool) {c c' x x' y y' : Double} (hc : c.1.UpTo c'.1)
    (hx : Between x x') (hy : Between y y') :
    ((Double.arith fun _ _ _ => fused).mac c x y).1.UpTo
      ((Double.arith fun _ _ _ => fused).mac c' x' y').1 := by
  show (if fused then Double.fma c x y else Double.add c (Double.mul x y)).1.UpTo
    (if fused then Double.fma c' x' y' else Double.add c' (Double.mul x' y')).1
  cases fused
  · exact (hc.add (between_mul hx hy).round).round
  · exact (hc.add (between_mul hx hy)).round

private theorem eval_mono (fused : Bool) {f f' g g' : Nat → Double} (hf : ∀ k, Between (f k) (f' k))
    (hg : ∀ k, Between (g k) (g' k)) (q : Plan) :
    (@Plan.eval Double (Double.arith fun _ _ _ => fused) f g q).1.UpTo
      (@Plan.eval Double (Double.arith fun _ _ _ => fused) f' g' q).1 := by
  let _ := Double.arith fun _ _ _ => fused
  induction q with
  | zero => exact .inr ⟨trivial, trivial, le_refl _, le_refl _⟩
  | mac s k ih => exact mac_mono fused ih (hf k) (hg k)
  | pad s ih => exact mac_mono fused ih between_zero between_zero
  | add s u ih ih' => exact (ih.add ih').round

/-- The elements inside, zero elsewhere. -/
private def inside (N : Nat) (a : Nat → Nat → Double) (i k : Nat) : Double :=
  if i < N ∧ k < N then a i k else Double.zero

private theorem holds_inside {A : Array Double} {a : Nat → Nat → Double} (h : Holds A N N a) :
    Holds A N N (inside N a) := by
  intro i hi j hj
  rw [h i hi j hj]
  exact congrArg some (if_pos ⟨hi, hj⟩).symm

private theorem holds_inside_tr {B : Array Double} {b : Nat → Nat → Double}
    (h : Holds B N N (if t then tr b else b)) :
    Holds B N N (if t then tr (inside N b) else inside N b) := by
  cases t
  · exact holds_inside h
  · intro i hi j hj
    rw [h i hi j hj]
    exact congrArg some (if_pos ⟨hj, hi⟩).symm

private theorem inside_all {Q : Double → Double → Prop} {a a' : Nat → Nat → Double}
    (h : ∀ i k, i < N → k < N → Q (a i k) (a' i k)) (h0 : Q Double.zero Double.zero) (i k : Nat) :
    Q (inside N a i k) (inside N a' i k) := by
  unfold inside
  split
  · rename_i hh
    exact h i k hh.1 hh.2
  · exact h0

/-- **C130.** Order, if all multiply-adds are fused or none is. -/
theorem C130_monotonic (h : ComputesBy N t P run) (fused : Bool) :
    Monotonic N t (@run Double (Double.arith fun _ _ _ => fused)) := by
  let _ := Double.arith fun _ _ _ => fused
  obtain ⟨plan, -, hrun⟩ := h
  intro A B A' B' a b a' b' hA hB hA' hB' ha hb
  refine ⟨_, _, hrun Double A B _ _ (holds_inside hA) (holds_inside_tr hB),
    hrun Double A' B' _ _ (holds_inside hA') (holds_inside_tr hB'),
    fun i j hi hj => ⟨_, _, holds_rect N N _ i hi j hj, holds_rect N N _ i hi j hj, ?_⟩⟩
  rw [atMost_iff]
  exact eval_mono fused (fun k => inside_all ha between_zero i k)
    (fun k => inside_all hb between_zero k j) _

private theorem shifted_ext {s : ℤ} {x y : Double} (hx : x.finite) (h : Shifted s x y) :
    y.1 = x.1.scale s := by
  obtain ⟨h1, h2, h3⟩ := h
  rw [Double.finite_iff] at hx h1
  rw [Double.value_eq, Double.value_eq] at h2
  cases hx1 : x.1 with
  | nan => rw [hx1] at hx; exact absurd hx id
  | inf => rw [hx1] at hx; exact absurd hx id
  | zero z => exact h3 z hx1
  | num q =>
    have hq : q ≠ 0 := by
      have := x.2
      rw [hx1] at this
      exact this.1
    rw [hx1] at h2
    cases hy1 : y.1 with
    | nan => rw [hy1] at h1; exact absurd h1 id
    | inf => rw [hy1] at h1; exact absurd h1 id
    | zero z =>
      rw [hy1] at h2
      exact absurd h2.symm (mul_ne_zero hq (two_zpow_pos s).ne')
    | num p =>
      rw [hy1] at h2
      exact congrArg Ext.num h2

private theorem ext_shifted {s : ℤ} {x y : Double} (hy : y.finite) (h : y.1 = x.1.scale s) :
    Shifted s x y := by
  refine ⟨hy, ?_, fun z hz => by rw [h, hz]; rfl⟩
  rw [Double.value_eq, Double.value_eq, h, Ext.value_scale]

/-- Scaled, with values that are multiples of `2 ^ (-g)`, as long as both are finite. -/
private def Track (g s : ℤ) (x y : Ext) : Prop :=
  x.finite → y.finite → y = x.scale s ∧ x.Multiple g

private theorem track_round {g s : ℤ} (hg : g ≤ 1022) (hs : g - s ≤ 1022) {x y : Ext}
    (h : Track g s x y) : Track g s x.round y.round := by
  intro hx hy
  obtain ⟨h1, h2⟩ := h (Ext.finite_of_round hx) (Ext.finite_of_round hy)
  exact Ext.scale_step h2 hg hs h1 hx hy

private theorem track_add {g s : ℤ} {x y x' y' : Ext} (h : Track g s x y) (h' : Track g s x' y') :
    Track g s (x.add x') (y.add y') := by
  intro hx hy
  obtain ⟨h1, h2⟩ := Ext.finite_of_add hx
  obtain ⟨h3, h4⟩ := Ext.finite_of_add hy
  obtain ⟨e1, e2⟩ := h h1 h3
  obtain ⟨e3, e4⟩ := h' h2 h4
  exact ⟨by rw [e1, e3, Ext.scale_add], e2.add e4⟩

private theorem track_mul {g h s u : ℤ} {x x' y y' : Double} (hx : Coarse g x ∧ Shifted s x x')
    (hy : Coarse h y ∧ Shifted u y y') : Track (g + h) (s + u) (x.1.mul y.1) (x'.1.mul y'.1) := by
  intro _ _
  obtain ⟨⟨h1, m, hm⟩, h2⟩ := hx
  obtain ⟨⟨h3, n, hn⟩, h4⟩ := hy
  rw [shifted_ext h1 h2, shifted_ext h3 h4]
  rw [Double.finite_iff] at h1 h3
  rw [Double.value_eq] at hm hn
  refine ⟨?_, Ext.Multiple.mul ⟨h1, m, hm⟩ ⟨h3, n, hn⟩⟩
  rw [Ext.scale_mul, Ext.mul_comm', Ext.scale_mul, Ext.mul_comm']
  cases x.1.mul y.1 with
  | num q => exact congrArg Ext.num (by rw [two_zpow_add]; ring)
  | _ => rfl

private theorem zero_ok (g s : ℤ) : Coarse g Double.zero ∧ Shifted s Double.zero Double.zero :=
  ⟨⟨trivial, 0, by rw [Int.cast_zero, zero_mul]; rfl⟩, trivial, (zero_mul _).symm, fun _ h => h⟩

private theorem eval_scale (fused : Bool) {g h s u : ℤ} (hg : g + h ≤ 1022)
    (hs : g + h - (s + u) ≤ 1022) {a a' b b' : Nat → Double}
    (ha : ∀ k, Coarse g (a k) ∧ Shifted s (a k) (a' k))
    (hb : ∀ k, Coarse h (b k) ∧ Shifted u (b k) (b' k)) (q : Plan) :
    Track (g + h) (s + u) (@Plan.eval Double (Double.arith fun _ _ _ => fused) a b q).1
      (@Plan.eval Double (Double.arith fun _ _ _ => fused) a' b' q).1 := by
  let _ := Double.arith fun _ _ _ => fused
  have step : ∀ (c c' x x' y y' : Double), Track (g + h) (s + u) c.1 c'.1 →
      Track (g + h) (s + u) (x.1.mul y.1) (x'.1.mul y'.1) →
      Track (g + h) (s + u) (Arith.mac c x y).1 (Arith.mac c' x' y').1 := by
    intro c c' x x' y y' hc hm
    show Track _ _ (if fused then Double.fma c x y else Double.add c (Double.mul x y)).1
      (if fused then Double.fma c' x' y' else Double.add c' (Double.mul x' y')).1
    cases fused
    · exact track_round hg hs (track_add hc (track_round hg hs hm))
    · exact track_round hg hs (track_add hc hm)
  induction q with
  | zero => exact fun _ _ => ⟨rfl, trivial, 0, by rw [Int.cast_zero, zero_mul]; rfl⟩
  | mac p k ih => exact step _ _ _ _ _ _ ih (track_mul (ha k) (hb k))
  | pad p ih => exact step _ _ _ _ _ _ ih (track_mul (zero_ok g s) (zero_ok h u))
  | add p r ih ih' => exact track_round hg hs (track_add ih ih')

/-- **C130.** Powers of two, if all multiply-adds are fused or none is. -/
theorem C130_scales (h : ComputesBy N t P run) (fused : Bool) :
    Scales N t (@run Double (Double.arith fun _ _ _ => fused)) := by
  let _ := Double.arith fun _ _ _ => fused
  obtain ⟨plan, -, hrun⟩ := h
  intro g h s u hg hs A B A' B' a b a' b' hA hB hA' hB' ha hb
  refine ⟨_, _, hrun Double A B _ _ (holds_inside hA) (holds_inside_tr hB),
    hrun Double A' B' _ _ (holds_inside hA') (holds_inside_tr hB'),
    fun i j hi hj => ⟨_, _, holds_rect N N _ i hi j hj, holds_rect N N _ i hi j hj, fun hx hy => ?_⟩⟩
  refine ext_shifted hy (eval_scale fused hg hs
    (fun k => inside_all (Q := fun x y => Coarse g x ∧ Shifted s x y) ha (zero_ok g s) i k)
    (fun k => inside_all (Q := fun x y => Coarse h x ∧ Shifted u x y) hb (zero_ok h u) k j) _ ?_ ?_).1
  · exact (Double.finite_iff _).1 hx
  · exact (Double.finite_iff _).1 hy

/-- **C130.** The naive multiplication. -/
theorem C130_naive (N : Nat) (fused : Bool) :
    Monotonic N false (fun A B =>
      @Naive.naive_matrix_multiply Double (Double.arith fun _ _ _ => fused) N A B) ∧
    Scales N false fun A B =>
      @Naive.naive_matrix_multiply Double (Double.arith fun _ _ _ => fused) N A B :=
  ⟨C130_monotonic (C126_naive N).by fused,
    C130_scales (C126_naive N).by fused⟩

/-- **C130.** The naive multiplication with `B` transposed. -/
theorem C130_naive_transposed (N : Nat) (fused : Bool) :
    Monotonic N true (fun A B =>
      @Naive.naive_matrix_multiply_transposed Double (Double.arith fun _ _ _ => fused) N A B) ∧
    Scales N true fun A B =>
      @Naive.naive_matrix_multiply_transposed Double (Double.arith fun _ _ _ => fused) N A B :=
  ⟨C130_monotonic (C126_naive_transposed N).by fused,
    C130_scales (C126_naive_transposed N).by fused⟩

/-- **C130.** `single`. -/
theorem C130_single (N e s : Nat) (transposed : Bool) (br bi reps : Nat) (hN : N = 2 ^ e * s)
    (hs : s ≤ br) (he : ∀ d, d < e → br < 2 ^ (d + 1) * s)
    (hdiv : transposed = true → bi ≠ 0 → 4 ≤ s → 4 ∣ s ∧ bi ∣ N) (hr : 0 < reps) (fused : Bool) :
    Monotonic N transposed (fun A B =>
      @Recursive.single_matrix_multiply Double (Double.arith fun _ _ _ => fused)
        N A B transposed br bi reps) ∧
    Scales N transposed fun A B =>
      @Recursive.single_matrix_multiply Double (Double.arith fun _ _ _ => fused)
        N A B transposed br bi reps :=
  ⟨C130_monotonic (C126_single N e s transposed br bi reps hN hs he hdiv hr).by fused,
    C130_scales (C126_single N e s transposed br bi reps hN hs he hdiv hr).by fused⟩

open StaticImproved in
/-- **C130.** `pseudodynamic`, whenever it is correct. -/
theorem C130_pseudodynamic (p : Params) (N : Nat) (transposed : Bool) (br bi reps L : Nat)
    (aw : List (List Work)) (haw : create_schedule p N (if 1 < L then L - 1 else L) = .ok aw)
    (hc : ∀ r c, r < N → c < N → ∃ ws ∈ aw, ∃ w ∈ ws, Covers w r c)
    (hw : ∀ ws ∈ aw, ∀ w ∈ ws, HalvesTo br w.N ∧ InputFits N transposed bi (leafSize br w.N))
    (hr : 0 < reps) (fused : Bool) :
    Monotonic N transposed (fun A B =>
      @pseudodynamic_matrix_multiply Double (Double.arith fun _ _ _ => fused)
        p N A B transposed br bi reps L) ∧
    Scales N transposed fun A B =>
      @pseudodynamic_matrix_multiply Double (Double.arith fun _ _ _ => fused)
        p N A B transposed br bi reps L :=
  ⟨C130_monotonic (C126_pseudodynamic p N transposed br bi reps L aw haw hc hw hr) fused,
    C130_scales (C126_pseudodynamic p N transposed br bi reps L aw haw hc hw hr) fused⟩

/-- **C130.** `algorithms`. -/
theorem C130_algorithms (N bi br : Nat) (hbi : 0 < bi) (hbr : 0 < br) (hdi : bi ∣ N) (hdr : br ∣ N)
    (fused : Bool) :
    Monotonic N true (fun A B =>
      @Algorithms.matrix_multiply Double (Double.arith fun _ _ _ => fused) N A B bi br) ∧
    Scales N true fun A B =>
      @Algorithms.matrix_multiply Double (Double.arith fun _ _ _ => fused) N A B bi br :=
  ⟨C130_monotonic (C126_algorithms N bi br hbi hbr hdi hdr).by fused,
    C130_scales (C126_algorithms N bi br hbi hbr hdi hdr).by fused⟩

/-- **C130.** `looped`. -/
theorem C130_looped (N br bi : Nat) (hbr : 0 < br) (hbi : 0 < bi) (hdr : br ∣ N) (hdi : bi ∣ N)
    (fused : Bool) :
    Monotonic N true (fun A B =>
      ND.ofM (@Looped.matrix_multiply Double (Double.arith fun _ _ _ => fused) N A B br bi)) ∧
    Scales N true fun A B =>
      ND.ofM (@Looped.matrix_multiply Double (Double.arith fun _ _ _ => fused) N A B br bi) :=
  ⟨C130_monotonic (C126_looped N br bi hbr hbi hdr hdi).by fused,
    C130_scales (C126_looped N br bi hbr hbi hdr hdi).by fused⟩

/-- **C130.** `semi`. -/
theorem C130_semi (N bi : Nat) (h4 : 4 ∣ N) (hbi : 0 < bi) (hd : bi ∣ N) (fused : Bool) :
    Monotonic N true (fun A B =>
      @Semi.matrix_multiply Double (Double.arith fun _ _ _ => fused) N A B bi) ∧
    Scales N true fun A B =>
      @Semi.matrix_multiply Double (Double.arith fun _ _ _ => fused) N A B bi :=
  ⟨C130_monotonic (C126_semi N bi h4 hbi hd).by fused,
    C130_scales (C126_semi N bi h4 hbi hd).by fused⟩

/-- **C130.** `combined`, for every size and number of repetitions. -/
theorem C130_combined (N reps : Nat) (fused : Bool) :
    Monotonic N false (fun A B =>
      @Combined.matrix_multiply Double (Double.arith fun _ _ _ => fused)
        Combined.blocking N A B reps) ∧
    Scales N false fun A B =>
      @Combined.matrix_multiply Double (Double.arith fun _ _ _ => fused)
        Combined.blocking N A B reps :=
  ⟨C130_monotonic (C126_combined N reps).by fused,
    C130_scales (C126_combined N reps).by fused⟩

/-- **C130.** `kernel_tiled`, for every size. -/
theorem C130_kernel_tiled (N : Nat) (t : Bool) (reps : Nat) (hr : 1 ≤ reps) (fused : Bool) :
    Monotonic N false (fun A B =>
      @KernelTiled.matrix_multiply Double (Double.arith fun _ _ _ => fused)
        KernelTiled.blocking N A B t reps) ∧
    Scales N false fun A B =>
      @KernelTiled.matrix_multiply Double (Double.arith fun _ _ _ => fused)
        KernelTiled.blocking N A B t reps :=
  ⟨C130_monotonic (C126_kernel_tiled N t reps hr).by fused,
    C130_scales (C126_kernel_tiled N t reps hr).by fused⟩

/-- **C130.** `kernel_test`, for its safe sizes. -/
theorem C130_kernel_test (N : Nat) (hN : SafeSize N) (t : Bool) (reps : Nat) (hr : 1 ≤ reps)
    (fused : Bool) :
    Monotonic N false (fun A B =>
      @KernelTest.matrix_multiply Double (Double.arith fun _ _ _ => fused) N A B t reps) ∧
    Scales N false fun A B =>
      @KernelTest.matrix_multiply Double (Double.arith fun _ _ _ => fused) N A B t reps :=
  ⟨C130_monotonic (C126_kernel_test N hN t reps hr).by fused,
    C130_scales (C126_kernel_test N hN t reps hr).by fused⟩

section Examples

/-- Matrices of ones, and of ones and twos: `combined` with size 300. -/
example (fused : Bool) (a : Nat → Nat → Bool) :
    ∃ C C', @Combined.matrix_multiply Double (Double.arith fun _ _ _ => fused) Combined.blocking 300
        (rowMajor 300 fun _ _ => Double.ofInt 0 1) (rowMajor 300 fun _ _ => Double.ofInt 0 1) 1 =
          ND.pure C ∧
      @Combined.matrix_multiply Double (Double.arith fun _ _ _ => fused) Combined.blocking 300
        (rowMajor 300 fun i k => Double.ofInt 0 (if a i k then 1 else 2))
        (rowMajor 300 fun _ _ => Double.ofInt 0 1) 1 = ND.pure C' ∧
      ∀ i j, i < 300 → j < 300 → ∃ x y, C[i * 300 + j]? = some x ∧ C'[i * 300 + j]? = some y ∧
        AtMost x y := by
  have h1 : Between (Double.ofInt 0 1) (Double.ofInt 0 1) := by
    unfold Between
    decide +kernel
  refine (C130_combined 300 1 fused).1 _ _ _ _ _ _ _ _ (holds_rect _ _ _) (holds_rect _ _ _)
    (holds_rect _ _ _) (holds_rect _ _ _) (fun i k _ _ => ?_) (fun _ _ _ _ => h1)
  cases a i k
  · show Between (Double.ofInt 0 1) (Double.ofInt 0 2)
    unfold Between
    decide +kernel
  · exact h1

/-- Halves instead of whole numbers: `semi` with size 8, integers up to `2 ^ 53`. -/
example (fused : Bool) (a b : Nat → Nat → ℤ) (ha : ∀ i k, |a i k| ≤ 2 ^ 53)
    (hb : ∀ k j, |b k j| ≤ 2 ^ 53) :
    ∃ C C', @Semi.matrix_multiply Double (Double.arith fun _ _ _ => fused) 8
        (rowMajor 8 fun i k => Double.ofInt 0 (a i k)) (rowMajor 8 (tr fun k j => Double.ofInt 0 (b k j)))
        4 = ND.pure C ∧
      @Semi.matrix_multiply Double (Double.arith fun _ _ _ => fused) 8
        (rowMajor 8 fun i k => Double.ofInt (-1) (a i k))
        (rowMajor 8 (tr fun k j => Double.ofInt 0 (b k j))) 4 = ND.pure C' ∧
      ∀ i j, i < 8 → j < 8 → ∃ x y, C[i * 8 + j]? = some x ∧ C'[i * 8 + j]? = some y ∧
        (x.finite → y.finite → Shifted (-1 + 0) x y) := by
  have hm : ∀ (n s : ℤ), |n| ≤ 2 ^ 53 → -1074 ≤ s → s ≤ 970 →
      (Double.ofInt s n).finite ∧ (Double.ofInt s n).value = n * 2 ^ s ∧
        ∀ z, (Double.ofInt s n).1 = .zero z → z = false := by
    intro n s hn h1 h2
    by_cases h0 : n = 0
    · rw [h0, Double.ofInt_zero]
      exact ⟨trivial, by rw [Int.cast_zero, zero_mul]; rfl,
        fun z hz => by injection hz with h; exact h.symm⟩
    · have h := Double.ofInt_num hn h1 h2 h0
      exact ⟨by rw [Double.finite_iff, h]; trivial, by rw [Double.value_eq, h]; rfl,
        fun z hz => by rw [h] at hz; exact absurd hz (by simp)⟩
  have key : ∀ (n s : ℤ), |n| ≤ 2 ^ 53 → -1074 ≤ s → s ≤ 970 → Coarse 0 (Double.ofInt 0 n) ∧
      Shifted s (Double.ofInt 0 n) (Double.ofInt s n) := by
    intro n s hn h1 h2
    obtain ⟨a1, a2, a3⟩ := hm n 0 hn (by decide) (by decide)
    obtain ⟨b1, b2, b3⟩ := hm n s hn h1 h2
    refine ⟨⟨a1, n, by rw [a2]; rfl⟩, b1, by rw [a2, b2, zpow_zero, mul_one], fun z hz => ?_⟩
    have hz' := a3 z hz
    subst hz'
    have : n = 0 := by
      rw [Double.value_eq, hz, zpow_zero, mul_one] at a2
      have a2 : (0 : ℚ) = n := a2
      exact_mod_cast a2.symm
    rw [this, Double.ofInt_zero]
    rfl
  exact (C130_semi 8 4 (by decide) (by decide) (by decide) fused).2 0 0 (-1) 0 (by decide) (by decide)
    _ _ _ _ _ _ _ _ (holds_rect _ _ _) (holds_rect _ _ _) (holds_rect _ _ _) (holds_rect _ _ _)
    (fun i k _ _ => key _ _ (ha i k) (by decide) (by decide))
    (fun k j _ _ => key _ _ (hb k j) (by decide) (by decide))

/-- Only powers of two: scaling `2 ^ 53 + 1 * 1` by three changes the rounding. -/
example : (Double.fma (Double.ofInt 0 (2 ^ 53)) (Double.ofInt 0 1) (Double.ofInt 0 1)).1 =
      (Double.ofInt 0 (2 ^ 53)).1 ∧
    (Double.fma (Double.ofInt 2 (3 * 2 ^ 51)) (Double.ofInt 0 1) (Double.ofInt 0 3)).1 ≠
      (Double.ofInt 2 (3 * 2 ^ 51)).1 := by
  decide +kernel

/-- Without the condition on underflow: `2 ^ (-1000) * 2 ^ (-74)` is not zero, half of it is. -/
example : (Double.mul (Double.ofInt (-1000) 1) (Double.ofInt (-74) 1)).1 ≠ .zero false ∧
    (Double.mul (Double.ofInt (-1001) 1) (Double.ofInt (-74) 1)).1 = .zero false := by
  decide +kernel

/-- With negative elements there is no order: `1 * (-1)` and `2 * (-1)`. -/
example : (Double.mul (Double.ofInt 0 2) (Double.ofInt 0 (-1))).value <
    (Double.mul (Double.ofInt 0 1) (Double.ofInt 0 (-1))).value := by
  decide +kernel

end Examples

end Verif.Props
