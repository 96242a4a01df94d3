import Verif.Proof.Fast
import Verif.Proof.ExperimentsIntrin
import Verif.Props.Double
import Verif.Props.DriverFloat
import Verif.Props.TestsFloat
/-
C105: what the programs compute when they are compiled with `-ffast-math`.
-/
namespace Verif.Props
open IEEE Kernel
variable {N : Nat} {f g : Nat → Nat → Term}

/-- **C105.** The rules for formulas allow exactly the sums of the same products, in every order and
grouping. -/
theorem C105_rules (x y : Term) (hx : x.Flat) : x.Fast y ↔ y.Flat ∧ x.products = y.products :=
  ⟨fun h => ⟨h.flat.1 hx, h.products⟩, fun h => (Term.fast_iff hx h.1).2 h.2⟩

/-! ### The algorithms add up every product once -/

/-- One entry of the result. -/
def FastEntry (N r : Nat) (f g : Nat → Nat → Term) (i j : Nat) (t : Term) : Prop :=
  t.Flat ∧ ∃ m : Nat, t.products =
    r • (Multiset.range N).map (fun k => (f i k, g k j)) + m • {(Term.zero, Term.zero)}

private theorem entry_once {i j : Nat} {t : Term} (h : t.Flat)
    (hp : t.products = (Multiset.range N).map fun k => (f i k, g k j)) : FastEntry N 1 f g i j t :=
  ⟨h, 0, by rw [hp, one_nsmul, zero_nsmul, add_zero]⟩

private theorem entry_dot (hf : ∀ i j, (f i j).Atom) (hg : ∀ i j, (g i j).Atom) (i j : Nat) :
    FastEntry N 1 f g i j (dot N (f i) fun k => g k j) :=
  entry_once (Term.dot_flat _ (hf i) fun k => hg k j) (Term.dot_products _ _ _)

private theorem entry_bdot (hf : ∀ i j, (f i j).Atom) (hg : ∀ i j, (g i j).Atom) {bi : Nat} (hd : bi ∣ N)
    (i j : Nat) : FastEntry N 1 f g i j (bdot bi (N / bi) (f i) fun k => g k j) :=
  entry_once (Term.bdot_flat _ _ (hf i) fun k => hg k j)
    (by rw [Term.bdot_products, Nat.div_mul_cancel hd])

private theorem entry_repeat (hf : ∀ i j, (f i j).Atom) (hg : ∀ i j, (g i j).Atom) (r : Nat) {bs nb : Nat}
    (hN : N ≤ nb * bs) {i j : Nat} (hi : i < N) (hj : j < N) :
    FastEntry N r f g i j
      (Tiled.repeatDot r bs nb (fun k => Tiled.pad N f i k) fun k => Tiled.pad N g k j) := by
  refine ⟨Term.repeatDot_flat _ _ _ (fun k => Term.pad_atom hf i k) fun k => Term.pad_atom hg k j,
    r * (nb * bs - N), ?_⟩
  rw [Term.repeatDot_products, Term.pad_products hN f g hi hj, nsmul_add, ← mul_nsmul']

private theorem entry_pad (hf : ∀ i j, (f i j).Atom) (hg : ∀ i j, (g i j).Atom) {bs nb : Nat}
    (hN : N ≤ nb * bs) {i j : Nat} (hi : i < N) (hj : j < N) :
    FastEntry N 1 f g i j (bdot bs nb (fun k => Tiled.pad N f i k) fun k => Tiled.pad N g k j) :=
  entry_repeat hf hg 1 hN hi hj

private theorem entry_submatrix (hf : ∀ i j, (f i j).Atom) (hg : ∀ i j, (g i j).Atom) (t : Bool)
    {bi s : Nat} (hd : t = true → bi ≠ 0 → 4 ≤ s → bi ∣ N) (i j : Nat) :
    FastEntry N 1 f g i j (submatrixEntry N f (if t then tr g else g) t bi s i j) := by
  unfold submatrixEntry
  cases t with
  | false => exact entry_dot hf hg i j
  | true =>
    rw [if_neg (by decide)]
    split
    · exact entry_dot hf hg i j
    · exact entry_bdot hf hg (hd rfl (by omega) (by omega)) i j

/-- **C105.** The naive multiplication. -/
theorem C105_naive (hf : ∀ i j, (f i j).Atom) (hg : ∀ i j, (g i j).Atom) (A B : Array Term)
    (hA : Holds A N N f) (hB : Holds B N N g) : Sums (Naive.naive_matrix_multiply N A B) N 1 f g :=
  ⟨_, C01_naive N A B f g hA hB, fun i _ j _ => entry_dot hf hg i j⟩

/-- **C105.** The naive multiplication with `B` transposed. -/
theorem C105_naive_transposed (hf : ∀ i j, (f i j).Atom) (hg : ∀ i j, (g i j).Atom) (A B : Array Term)
    (hA : Holds A N N f) (hB : Holds B N N (tr g)) :
    Sums (Naive.naive_matrix_multiply_transposed N A B) N 1 f g :=
  ⟨_, C02_naive_transposed N A B f (tr g) hA hB, fun i _ j _ => entry_dot hf hg i j⟩

/-- **C105.** `single`, for `N = 2^e * s` where the halving stops at `s` (as in C10). -/
theorem C105_single (hf : ∀ i j, (f i j).Atom) (hg : ∀ i j, (g i j).Atom) (e s : Nat) (A B : Array Term)
    (transposed : Bool) (br bi reps : Nat) (hA : Holds A N N f)
    (hB : Holds B N N (if transposed then tr g else g)) (hN : N = 2 ^ e * s)
    (hs : s ≤ br) (he : ∀ d, d < e → br < 2 ^ (d + 1) * s)
    (hdiv : transposed = true → bi ≠ 0 → 4 ≤ s → 4 ∣ s ∧ bi ∣ N) (hr : 0 < reps) :
    Sums (Recursive.single_matrix_multiply N A B transposed br bi reps) N 1 f g :=
  ⟨_, C10_single N e s A B f _ transposed br bi reps hA hB hN hs he hdiv hr,
    fun i _ j _ => entry_submatrix hf hg _ (fun h1 h2 h3 => (hdiv h1 h2 h3).2) i j⟩

private theorem four_dvd {d : Nat} (h : 4 ≤ 2 ^ d * 1) : 4 ∣ 2 ^ d * 1 := by
  rw [Nat.mul_one] at h ⊢
  have h2d : 2 ≤ d := by
    apply Classical.byContradiction; intro hn
    have : d = 0 ∨ d = 1 := by omega
    rcases this with rfl | rfl <;> simp at h
  exact ⟨2 ^ (d - 2), by rw [show (4 : Nat) = 2 ^ 2 by rfl, ← Nat.pow_add]; congr 1; omega⟩

/-- **C105.** `single` with a power of two as size. -/
theorem C105_single_pow2 (hf : ∀ i j, (f i j).Atom) (hg : ∀ i j, (g i j).Atom) (k : Nat) (hk : N = 2 ^ k)
    (A B : Array Term) (transposed : Bool) (br bi reps : Nat) (hA : Holds A N N f)
    (hB : Holds B N N (if transposed then tr g else g)) (hbr : 1 ≤ br) (hbi : bi = 0 ∨ bi ∣ N)
    (hr : 0 < reps) :
    Sums (Recursive.single_matrix_multiply N A B transposed br bi reps) N 1 f g := by
  obtain ⟨d, hd, h1, h2⟩ := StaticImproved.halving_stops hbr k
  refine C105_single hf hg (k - d) (2 ^ d * 1) A B transposed br bi reps hA hB ?_ h1 h2
    (fun _ h0 h4 => ⟨four_dvd h4, hbi.resolve_left h0⟩) hr
  rw [hk, Nat.mul_one, ← Nat.pow_add]
  congr 1
  omega

/-- **C105.** `pseudodynamic`, for every number of localities. -/
theorem C105_pseudodynamic (hf : ∀ i j, (f i j).Atom) (hg : ∀ i j, (g i j).Atom)
    (p : StaticImproved.Params) (e q : Nat) (A B : Array Term) (transposed : Bool) (br bi reps L : Nat)
    (hA : Holds A N N f) (hB : Holds B N N (if transposed then tr g else g)) (hN : N = 2 ^ e * q)
    (hq : q ≤ p.min_work_size) (hbr : q ≤ br) (hL : 0 < L) (hr : 0 < reps)
    (hdiv : transposed = true → bi ≠ 0 → bi ∣ N ∧ ∀ d, d ≤ e → 4 ≤ 2 ^ d * q → 4 ∣ 2 ^ d * q) :
    Sums (StaticImproved.pseudodynamic_matrix_multiply p N A B transposed br bi reps L) N 1 f g := by
  obtain ⟨G, hG, hE⟩ := C22_pseudodynamic_entries p N e q A B f _ transposed br bi reps L hA hB hN hq
    hbr hL hr hdiv
  refine ⟨G, hG, fun i hi j hj => ?_⟩
  obtain ⟨d, _, he⟩ := hE i hi j hj
  rw [he]
  exact entry_submatrix hf hg _ (fun h1 h2 _ => (hdiv h1 h2).1) i j

/-- **C105.** `algorithms`. -/
theorem C105_algorithms (hf : ∀ i j, (f i j).Atom) (hg : ∀ i j, (g i j).Atom) (A B : Array Term)
    (hA : Holds A N N f) (hB : Holds B N N (tr g)) (bi br : Nat) (hbi : 0 < bi) (hbr : 0 < br)
    (hdi : bi ∣ N) (hdr : br ∣ N) : Sums (Algorithms.matrix_multiply N A B bi br) N 1 f g :=
  ⟨_, C24_algorithms N A B f (tr g) hA hB bi br hbi hbr hdi hdr, fun i _ j _ => entry_bdot hf hg hdi i j⟩

/-- **C105.** `looped`. -/
theorem C105_looped (hf : ∀ i j, (f i j).Atom) (hg : ∀ i j, (g i j).Atom) (A B : Array Term)
    (hA : Holds A N N f) (hB : Holds B N N (tr g)) (br bi : Nat) (hbr : 0 < br) (hbi : 0 < bi)
    (hdr : br ∣ N) (hdi : bi ∣ N) : Sums (ND.ofM (Looped.matrix_multiply N A B br bi)) N 1 f g :=
  ⟨_, congrArg ND.ofM (C26_looped N A B f (tr g) hA hB br bi hbr hbi hdr hdi).1,
    fun i _ j _ => entry_dot hf hg i j⟩

/-- **C105.** `semi`. -/
theorem C105_semi (hf : ∀ i j, (f i j).Atom) (hg : ∀ i j, (g i j).Atom) (A B : Array Term)
    (hA : Holds A N N f) (hB : Holds B N N (tr g)) (bi : Nat) (h4 : 4 ∣ N) (hbi : 0 < bi) (hd : bi ∣ N) :
    Sums (Semi.matrix_multiply N A B bi) N 1 f g :=
  ⟨_, C32_semi N A B f (tr g) hA hB bi h4 hbi hd, fun i _ j _ => entry_bdot hf hg hd i j⟩

/-- **C105.** `combined` with `r` repetitions, for every size. -/
theorem C105_combined (hf : ∀ i j, (f i j).Atom) (hg : ∀ i j, (g i j).Atom) (A B : Array Term)
    (hA : Holds A N N f) (hB : Holds B N N g) (r : Nat) :
    Sums (Combined.matrix_multiply Combined.blocking N A B r) N r f g :=
  ⟨_, C35_combined _ Combined.valid N A B f g hA hB r, fun i hi j hj => entry_repeat hf hg r
    (by rw [blocks_mul Combined.valid]; exact Tiled.le_padded Combined.valid.k3) hi hj⟩

/-- **C105.** `kernel_tiled`, for every size. -/
theorem C105_kernel_tiled (hf : ∀ i j, (f i j).Atom) (hg : ∀ i j, (g i j).Atom) (A B : Array Term)
    (hA : Holds A N N f) (hB : Holds B N N g) (transposed : Bool) (r : Nat) (hr : 1 ≤ r) :
    Sums (KernelTiled.matrix_multiply KernelTiled.blocking N A B transposed r) N 1 f g := by
  refine ⟨_, C37_kernel_tiled _ KernelTiled.valid N A B f g hA hB transposed r, fun i hi j hj => ?_⟩
  rw [if_neg (by omega)]
  exact entry_pad hf hg (by rw [blocks_mul KernelTiled.valid]; exact Tiled.le_padded KernelTiled.valid.k3)
    hi hj

/-- **C105.** `kernel_test`, for its safe sizes. -/
theorem C105_kernel_test (hf : ∀ i j, (f i j).Atom) (hg : ∀ i j, (g i j).Atom) (hN : SafeSize N)
    (A B : Array Term) (hA : Holds A N N f) (hB : Holds B N N g) (transposed : Bool) (r : Nat)
    (hr : 1 ≤ r) : Sums (KernelTest.matrix_multiply N A B transposed r) N 1 f g :=
  ⟨_, C39_kernel_test N hN A B f g hA hB transposed r hr, fun _ hi _ hj => entry_pad hf hg
    (by unfold ceilDiv; omega) hi hj⟩

/-! ### What follows for the numbers -/

variable {P : ND (Array Term)} {r : Nat} {p q : Nat → Nat → Double} {C : Array Double}

theorem fast_entries (h : Sums P N r f g) (hC : FastResult p q P C) :
    ∃ c : Nat → Nat → Double, C = rowMajor N c ∧ ∀ i, i < N → ∀ j, j < N →
      ∃ t, FastEntry N r f g i j t ∧ t.Computes p q (c i j) := by
  obtain ⟨t, rfl, ht⟩ := h
  obtain ⟨T, hT, hs, hk⟩ := hC
  cases hT
  obtain ⟨c, hc⟩ := Experiments.exists_rect Double.zero (hs.trans (rect_size N N t))
  refine ⟨c, hc, fun i hi j hj => ?_⟩
  obtain ⟨t', v, h1, h2, h3⟩ := hk _ _ (holds_rect N N t i hi j hj)
  rw [hc, holds_rect N N c i hi j hj] at h3
  cases h3
  obtain ⟨h4, m, h5⟩ := ht i hi j hj
  exact ⟨t', ⟨h1.flat.1 h4, m, h1.products ▸ h5⟩, h2⟩

/-- The double that `f i j` stands for. -/
abbrev ev (p q : Nat → Nat → Double) (f : Nat → Nat → Term) : Nat → Nat → Double :=
  fun i j => (f i j).val p q

private theorem sum_range (n : Nat) (h : Nat → ℚ) :
    ((Multiset.range n).map h).sum = ∑ k ∈ Finset.range n, h k := rfl

theorem entry_total {i j : Nat} {t : Term} (h : FastEntry N r f g i j t) :
    Term.total p q t.products =
        r * ∑ k ∈ Finset.range N, (ev p q f i k).value * (ev p q g k j).value ∧
      Term.absTotal p q t.products =
        r * ∑ k ∈ Finset.range N, |(ev p q f i k).value * (ev p q g k j).value| ∧
      Term.count t.products ≤ r * N := by
  obtain ⟨-, m, hm⟩ := h
  have hz : Term.prodVal p q (Term.zero, Term.zero) = 0 := zero_mul _
  rw [hm]
  refine ⟨?_, ?_, ?_⟩
  · rw [Term.total_add]
    unfold Term.total
    rw [Multiset.map_nsmul, Multiset.map_nsmul, Multiset.sum_nsmul, Multiset.sum_nsmul,
      Multiset.map_singleton, Multiset.sum_singleton, hz, smul_zero, add_zero, nsmul_eq_mul,
      Multiset.map_map]
    rfl
  · rw [Term.absTotal_add]
    unfold Term.absTotal
    rw [Multiset.map_nsmul, Multiset.map_nsmul, Multiset.sum_nsmul, Multiset.sum_nsmul,
      Multiset.map_singleton, Multiset.sum_singleton, hz, abs_zero, smul_zero, add_zero, nsmul_eq_mul,
      Multiset.map_map]
    rfl
  · unfold Term.count
    rw [Multiset.countP_add, Multiset.countP_nsmul, Multiset.countP_nsmul,
      show Multiset.countP Term.Real {(Term.zero, Term.zero)} = 0 from rfl, Nat.mul_zero, Nat.add_zero]
    refine Nat.mul_le_mul_left _ ((Multiset.countP_le_card _ _).trans ?_)
    simp

private theorem entry_finite {i j : Nat} {t : Term} (h : FastEntry N r f g i j t) (hi : i < N) (hj : j < N)
    (hf : ∀ i, i < N → ∀ j, j < N → (ev p q f i j).finite ∧ (ev p q g i j).finite) :
    Term.FiniteFactors p q t.products := by
  obtain ⟨-, m, hm⟩ := h
  intro x hx
  rw [hm, Multiset.mem_add] at hx
  rcases hx with hx | hx
  · obtain ⟨k, hk, rfl⟩ := Multiset.mem_map.1 (Multiset.mem_of_mem_nsmul hx)
    have hk := Multiset.mem_range.1 hk
    exact ⟨(hf i hi k hk).1, (hf k hk j hj).2⟩
  · cases Multiset.mem_singleton.1 (Multiset.mem_of_mem_nsmul hx)
    exact ⟨trivial, trivial⟩

private theorem bound_general (fuse : Double → Double → Double → Bool) (h : Sums P N r f g)
    (hf : ∀ i, i < N → ∀ j, j < N → (ev p q f i j).finite ∧ (ev p q g i j).finite)
    (hfit : ∀ i, i < N → ∀ j, j < N → letI := Double.arith fuse
      (Double.rounding fuse).Fits (r * N + 1) (r * N)
        (r * absEntry (Double.rounding fuse) N (ev p q f) (ev p q g) i j))
    (hC : FastResult p q P C) :
    ∃ c : Nat → Nat → Double, C = rowMajor N c ∧ ∀ i, i < N → ∀ j, j < N → letI := Double.arith fuse
      (c i j).finite ∧
      |(c i j).value - r * exactEntry (Double.rounding fuse) N (ev p q f) (ev p q g) i j| ≤
        (Double.rounding fuse).bound (r * N + 1) (r * N)
          (r * absEntry (Double.rounding fuse) N (ev p q f) (ev p q g) i j) := by
  obtain ⟨c, hc, h1⟩ := fast_entries h hC
  refine ⟨c, hc, fun i hi j hj => ?_⟩
  obtain ⟨t, ht, hv⟩ := h1 i hi j hj
  obtain ⟨e1, e2, e3⟩ := entry_total (p := p) (q := q) ht
  have h0 := Term.absTotal_nonneg (p := p) (q := q) t.products
  have hfit' : Term.Fit (r * N) (Term.absTotal p q t.products) := by rw [e2]; exact hfit i hi j hj
  have := (hv.near ht.1 (entry_finite ht hi hj hf) (hfit'.mono e3 h0 le_rfl)).mono e3 h0 le_rfl
  rw [e1, e2] at this
  exact this

/-- **C105.** Rounding errors with `-ffast-math`: whatever order the compiler chooses for each entry,
and whichever products it fuses, the error is at most that of `N + 1` roundings. -/
theorem C105_bound (fuse : Double → Double → Double → Bool) (h : Sums P N 1 Term.a Term.b)
    (hno : letI := Double.arith fuse
      NoOverflow (Double.rounding fuse) N (N + 1) N p q) (hC : FastResult p q P C) :
    letI := Double.arith fuse
    ApproxProduct (Double.rounding fuse) N (N + 1) N p q (ND.pure C) := by
  let _ := Double.arith fuse
  obtain ⟨c, hc, h1⟩ := bound_general fuse h (p := p) (q := q) hno.finite (fun i hi j hj => by
    have := hno.fits i hi j hj
    simp only [Nat.cast_one, one_mul]
    exact this) hC
  refine ⟨c, by rw [hc], fun i hi j hj => ?_⟩
  have := h1 i hi j hj
  simp only [Nat.cast_one, one_mul] at this
  exact this

/-- **C105.** The same for a result that is summed up `r` times (`combined` with `r` repetitions). -/
theorem C105_bound_repeated (fuse : Double → Double → Double → Bool) (h : Sums P N r Term.a Term.b)
    (hf : ∀ i, i < N → ∀ j, j < N → (p i j).finite ∧ (q i j).finite)
    (hfit : ∀ i, i < N → ∀ j, j < N → letI := Double.arith fuse
      (Double.rounding fuse).Fits (r * N + 1) (r * N) (r * absEntry (Double.rounding fuse) N p q i j))
    (hC : FastResult p q P C) :
    ∃ c : Nat → Nat → Double, C = rowMajor N c ∧ ∀ i, i < N → ∀ j, j < N → letI := Double.arith fuse
      (c i j).finite ∧
      |(c i j).value - r * exactEntry (Double.rounding fuse) N p q i j| ≤
        (Double.rounding fuse).bound (r * N + 1) (r * N) (r * absEntry (Double.rounding fuse) N p q i j) :=
  bound_general (p := p) (q := q) (f := Term.a) (g := Term.b) fuse h hf hfit hC

private theorem exact_general (h : Sums P N r f g)
    (hf : ∀ i, i < N → ∀ j, j < N → (ev p q f i j).finite ∧ (ev p q g i j).finite)
    (hd : ∀ i, i < N → ∀ j, j < N → ∀ t, FastEntry N r f g i j t → ∀ s, s ≤ t.products →
      IsDouble (Term.total p q s)) (hC : FastResult p q P C) :
    ∃ c : Nat → Nat → Double, C = rowMajor N c ∧ ∀ i, i < N → ∀ j, j < N →
      (c i j).finite ∧
        (c i j).value = r * ∑ k ∈ Finset.range N, (ev p q f i k).value * (ev p q g k j).value := by
  obtain ⟨c, hc, h1⟩ := fast_entries h hC
  refine ⟨c, hc, fun i hi j hj => ?_⟩
  obtain ⟨t, ht, hv⟩ := h1 i hi j hj
  rw [← (entry_total (p := p) (q := q) ht).1]
  exact hv.exact ht.1 (entry_finite ht hi hj hf) (hd i hi j hj t ht)

/-- **C105.** Matrices of integers: with `-ffast-math` the result is exact if the absolute values of the
products of every entry add up to at most `2^53`. -/
theorem C105_integers (h : Sums P N r Term.a Term.b) (x y : Nat → Nat → ℤ)
    (hp : ∀ i, i < N → ∀ k, k < N → (p i k).finite ∧ (p i k).value = x i k)
    (hq : ∀ k, k < N → ∀ j, j < N → (q k j).finite ∧ (q k j).value = y k j)
    (hs : ∀ i, i < N → ∀ j, j < N → r * ∑ k ∈ Finset.range N, |x i k * y k j| ≤ 2 ^ 53)
    (hC : FastResult p q P C) :
    ∃ c : Nat → Nat → Double, C = rowMajor N c ∧ ∀ i, i < N → ∀ j, j < N →
      (c i j).finite ∧ (c i j).value = ((r * ∑ k ∈ Finset.range N, x i k * y k j : ℤ) : ℚ) := by
  have hd : ∀ i, i < N → ∀ j, j < N → ∀ t, FastEntry N r Term.a Term.b i j t → ∀ s, s ≤ t.products →
      IsDouble (Term.total p q s) := by
    intro i hi j hj t ht s hs'
    have hint : ∀ z ∈ t.products, ∃ n : ℤ, Term.prodVal p q z = n := by
      obtain ⟨-, m, hm⟩ := ht
      intro z hz
      rw [hm, Multiset.mem_add] at hz
      rcases hz with hz | hz
      · obtain ⟨k, hk, rfl⟩ := Multiset.mem_map.1 (Multiset.mem_of_mem_nsmul hz)
        have hk := Multiset.mem_range.1 hk
        refine ⟨x i k * y k j, ?_⟩
        show (p i k).value * (q k j).value = _
        rw [(hp i hi k hk).2, (hq k hk j hj).2, Int.cast_mul]
      · cases Multiset.mem_singleton.1 (Multiset.mem_of_mem_nsmul hz)
        exact ⟨0, by rw [Int.cast_zero]; exact zero_mul _⟩
    obtain ⟨s', hs2⟩ := Multiset.le_iff_exists_add.1 hs'
    have hle : Term.absTotal p q s ≤ 2 ^ 53 := by
      have e := (entry_total (p := p) (q := q) ht).2.1
      rw [hs2, Term.absTotal_add] at e
      have h0 := Term.absTotal_nonneg (p := p) (q := q) s'
      have h2 : (r : ℚ) * ∑ k ∈ Finset.range N, |(p i k).value * (q k j).value| ≤ 2 ^ 53 := by
        have := hs i hi j hj
        have e2 : (r : ℚ) * ∑ k ∈ Finset.range N, |(p i k).value * (q k j).value| =
            ((r * ∑ k ∈ Finset.range N, |x i k * y k j| : ℤ) : ℚ) := by
          push_cast
          refine congrArg _ (Finset.sum_congr rfl fun k hk => ?_)
          have hk := Finset.mem_range.1 hk
          rw [(hp i hi k hk).2, (hq k hk j hj).2]
        rw [e2]
        exact_mod_cast this
      have h3 : (r : ℚ) * ∑ k ∈ Finset.range N, |(ev p q Term.a i k).value * (ev p q Term.b k j).value| ≤
        2 ^ 53 := h2
      linarith
    have hint' : ∃ n : ℤ, Term.total p q s = n := by
      have hi' : ∀ z ∈ s, ∃ n : ℤ, Term.prodVal p q z = n := fun z hz =>
        hint z (Multiset.mem_of_le hs' hz)
      clear hs' hs2 hle
      induction s using Multiset.induction_on with
      | empty => exact ⟨0, by rw [Int.cast_zero]; rfl⟩
      | cons z s ih =>
        obtain ⟨n, hn⟩ := ih (fun z hz => hi' z (Multiset.mem_cons_of_mem hz))
        obtain ⟨m, hm⟩ := hi' z (Multiset.mem_cons_self _ _)
        exact ⟨n + m, by rw [Term.total_cons, hn, hm, Int.cast_add]⟩
    obtain ⟨n, hn⟩ := hint'
    have hab : |n| ≤ 2 ^ 53 := by
      have := (Term.abs_total_le (p := p) (q := q) s).trans hle
      rw [hn] at this
      exact_mod_cast this
    rw [hn]
    have := Double.isDouble_int (s := 0) hab (by norm_num) (by norm_num)
    rwa [zpow_zero, mul_one] at this
  obtain ⟨c, hc, h1⟩ := exact_general h (p := p) (q := q)
    (fun i hi j hj => ⟨(hp i hi j hj).1, (hq i hi j hj).1⟩) hd hC
  refine ⟨c, hc, fun i hi j hj => ⟨(h1 i hi j hj).1, (h1 i hi j hj).2.trans ?_⟩⟩
  push_cast
  refine congrArg _ (Finset.sum_congr rfl fun k hk => ?_)
  have hk := Finset.mem_range.1 hk
  show (p i k).value * (q k j).value = _
  rw [(hp i hi k hk).2, (hq k hk j hj).2]

/-! ### The driver program -/

section
open Driver

private theorem entryB_tr {e : Env Term} (t : Bool) : (if t then tr (entryB e) else entryB e) = entryB e := by
  cases t with
  | false => rfl
  | true =>
    funext i j
    simp only [if_true, tr, entryB, eq_comm]

private theorem driver_sums (e : Env Term) (hA : ∀ k, (e.rand k).Atom) (hB : e.one.Atom) (o : Opts)
    (h : Admissible e o) :
    ∃ P, Requested e o P ∧ Sums P o.N 1 (entryA e o.N) (entryB e) := by
  have ha : Holds (vecA e o.N) o.N o.N (entryA e o.N) := holds_rect _ _ _
  have hb : Holds (vecB e o.N) o.N o.N (entryB e) := holds_rect _ _ _
  have hb' : ∀ t : Bool, Holds (vecB e o.N) o.N o.N (if t then tr (entryB e) else entryB e) :=
    fun t => by rw [entryB_tr]; exact hb
  have hf : ∀ i j, (entryA e o.N i j).Atom := fun i j => hA _
  have hg : ∀ i j, (entryB e i j).Atom := fun i j => by
    unfold entryB
    split
    · exact hB
    · trivial
  cases h with
  | single h0 hN hbr hbi hr =>
    obtain ⟨k, hk⟩ := hN
    exact ⟨_, .single h0 hr, C105_single_pow2 hf hg k hk _ _ _ _ _ _ ha (hb' _) hbr hbi hr⟩
  | pseudodynamic h0 hN hbr hbi hr hm hl =>
    obtain ⟨k, hk⟩ := hN
    exact ⟨_, .pseudodynamic h0, C105_pseudodynamic hf hg _ k 1 _ _ _ _ _ _ _ ha (hb' _)
      (by rw [hk, Nat.mul_one]) hm hbr hl hr fun _ h2 => ⟨hbi.resolve_left h2, fun d _ h4 => four_dvd h4⟩⟩
  | algorithms h0 ht hbi hbr hdi hdr =>
    exact ⟨_, .algorithms h0 ht, C105_algorithms hf hg _ _ ha (hb' true) _ _ hbi hbr hdi hdr⟩
  | looped h0 ht hbi hbr hdi hdr =>
    exact ⟨_, .looped h0 ht, C105_looped hf hg _ _ ha (hb' true) _ _ hbr hbi hdr hdi⟩
  | semi h0 ht hbi hdi h4 =>
    exact ⟨_, .semi h0 ht, C105_semi hf hg _ _ ha (hb' true) _ h4 hbi hdi⟩
  | combined h0 ht hr =>
    exact ⟨_, .combined h0 ht, by rw [hr]; exact C105_combined hf hg _ _ ha hb 1⟩
  | kernel_tiled h0 hr =>
    exact ⟨_, .kernel_tiled h0, C105_kernel_tiled hf hg _ _ ha hb _ _ hr⟩
  | kernel_test h0 hs hr =>
    exact ⟨_, .kernel_test h0, C105_kernel_test hf hg hs _ _ ha hb _ _ hr⟩

private theorem one_lit : (Double.lit 1 0).finite ∧ (Double.lit 1 0).value = 1 := by
  decide +kernel

/-- A product with the identity is exact in every order: all partial sums are 0 or the element of `A`. -/
private theorem identity_exact (e : Env Term) (hr : e.rand = Term.a 0) (h1 : e.one = Term.b 0 0)
    (rand : Nat → Double) (hrand : ∀ k, (rand k).finite) {P : ND (Array Term)} {N : Nat}
    (h : Sums P N 1 (entryA e N) (entryB e)) {C : Array Double}
    (hC : FastResult (fun _ => rand) (fun _ _ => Double.lit 1 0) P C) :
    ∃ c : Nat → Nat → Double, C = rowMajor N c ∧ ∀ i, i < N → ∀ j, j < N →
      (c i j).finite ∧ (c i j).value = (rand (i * N + j)).value := by
  have eA : ∀ i k, ev (fun _ => rand) (fun _ _ => Double.lit 1 0) (entryA e N) i k = rand (i * N + k) := by
    intro i k
    show Term.val _ _ (e.rand _) = _
    rw [hr]
    rfl
  have eB : ∀ k j, (ev (fun _ => rand) (fun _ _ => Double.lit 1 0) (entryB e) k j).finite ∧
      (ev (fun _ => rand) (fun _ _ => Double.lit 1 0) (entryB e) k j).value = if k = j then 1 else 0 := by
    intro k j
    show (Term.val _ _ (entryB e k j)).finite ∧ (Term.val _ _ (entryB e k j)).value = _
    unfold entryB
    split
    · rw [h1]
      exact one_lit
    · exact ⟨trivial, rfl⟩
  obtain ⟨c, hc, h2⟩ := exact_general h (p := fun _ => rand) (q := fun _ _ => Double.lit 1 0)
    (fun i _ j _ => ⟨by rw [eA]; exact hrand _, (eB i j).1⟩) (fun i hi j hj t ht s hs => by
      obtain ⟨-, m, hm⟩ := ht
      rw [hm, one_nsmul] at hs
      obtain ⟨l, hl⟩ : ∃ l, l = rand (i * N + j) := ⟨_, rfl⟩
      have key : ∀ n, n ≤ N → ∀ s, s ≤ (Multiset.range n).map (fun k => (entryA e N i k, entryB e k j)) +
          m • {(Term.zero, Term.zero)} →
          Term.total (fun _ => rand) (fun _ _ => Double.lit 1 0) s = 0 ∨
            j < n ∧ Term.total (fun _ => rand) (fun _ _ => Double.lit 1 0) s = l.value := by
        intro n
        induction n with
        | zero =>
          intro _ s hs
          refine .inl (Multiset.sum_eq_zero fun y hy => ?_)
          obtain ⟨x, hx, rfl⟩ := Multiset.mem_map.1 hy
          have := Multiset.mem_of_le hs hx
          rw [Multiset.range_zero, Multiset.map_zero, zero_add] at this
          cases Multiset.mem_singleton.1 (Multiset.mem_of_mem_nsmul this)
          exact zero_mul _
        | succ n ih =>
          intro hn s hs
          rw [Multiset.range_succ, Multiset.map_cons, Multiset.cons_add] at hs
          have hv : Term.prodVal (fun _ => rand) (fun _ _ => Double.lit 1 0)
              (entryA e N i n, entryB e n j) = if n = j then l.value else 0 := by
            show (ev (fun _ => rand) (fun _ _ => Double.lit 1 0) (entryA e N) i n).value *
              (ev (fun _ => rand) (fun _ _ => Double.lit 1 0) (entryB e) n j).value = _
            rw [eA, (eB n j).2]
            split
            · rename_i h
              rw [mul_one, hl, h]
            · exact mul_zero _
          by_cases hx : (entryA e N i n, entryB e n j) ∈ s
          · obtain ⟨s', rfl⟩ := Multiset.exists_cons_of_mem hx
            have hs' := (Multiset.cons_le_cons_iff _).1 hs
            rw [Term.total_cons, hv]
            rcases ih (by omega) s' hs' with h0 | ⟨h0, h3⟩
            · rw [h0, zero_add]
              split
              · exact .inr ⟨by omega, rfl⟩
              · exact .inl rfl
            · rw [if_neg (by omega), h3, add_zero]
              exact .inr ⟨by omega, rfl⟩
          · rcases ih (by omega) s ((Multiset.le_cons_of_notMem hx).1 hs) with h0 | ⟨h0, h3⟩
            · exact .inl h0
            · exact .inr ⟨by omega, h3⟩
      rcases key N (Nat.le_refl _) s hs with h0 | ⟨-, h0⟩
      · rw [h0]; exact isDouble_zero
      · rw [h0]; exact l.isDouble_value) hC
  refine ⟨c, hc, fun i hi j hj => ⟨(h2 i hi j hj).1, (h2 i hi j hj).2.trans ?_⟩⟩
  rw [Nat.cast_one, one_mul, Finset.sum_eq_single j]
  · rw [eA, (eB j j).2, if_pos rfl, mul_one]
  · intro k _ hk
    rw [(eB k j).2, if_neg hk, mul_zero]
  · intro hj'
    exact absurd (Finset.mem_range.2 hj) hj'

/-- **C105.** The driver program compiled with `-ffast-math`: with admissible parameters every run ends
with status 0, every element of the result has the value of the element of `A`, and the check
`std::abs(first - second) < 1E-10` passes. -/
theorem C105_driver (e : Env Term) (hr : e.rand = Term.a 0) (h1 : e.one = Term.b 0 0) (o : Opts)
    (hh : o.help = false) (h : Admissible e o) (rand : Nat → Double) (hrand : ∀ k, (rand k).finite) :
    (∃ rep, main e o = ND.pure rep ∧ rep.status = 0 ∧ rep.invalid = false) ∧
    ∀ C R : Array Double,
      FastResult (fun _ => rand) (fun _ _ => Double.lit 1 0)
        (do let rep ← main e o; pure rep.C) C →
      FastResult (fun _ => rand) (fun _ _ => Double.lit 1 0)
        (compute_ref ⟨o, vecA e o.N, vecB e o.N, #[], e.root, false⟩) R →
      (∃ c : Nat → Nat → Double, C = rowMajor o.N c ∧ ∀ i, i < o.N → ∀ j, j < o.N →
        (c i j).finite ∧ (c i j).value = (rand (i * o.N + j)).value) ∧
      std_equal (Double.small (Double.lit 1 10)) C R = true := by
  have hA : ∀ k, (e.rand k).Atom := fun k => by rw [hr]; trivial
  have hB : e.one.Atom := by rw [h1]; trivial
  obtain ⟨P, hreq, hs⟩ := driver_sums e hA hB o h
  have hs' := hs
  obtain ⟨t, rfl, -⟩ := hs'
  have hm : main e o = finish e o (rowMajor o.N t) := by
    rw [driver_requested e o _ hh hreq]
    exact ND.pure_bind _ _
  unfold finish at hm
  rw [if_neg (by simp [rowMajor])] at hm
  refine ⟨⟨_, hm, rfl, rfl⟩, fun C R hC hR => ?_⟩
  rw [hm] at hC
  have hC' : FastResult (fun _ => rand) (fun _ _ => Double.lit 1 0) (ND.pure (rowMajor o.N t)) C := by
    have e1 : (do let rep ← ND.pure (⟨0, false, if e.root && o.check then
        some (std_equal e.close (rowMajor o.N t) (Driver.reference e o.N)) else none,
        rowMajor o.N t⟩ : Report Term); pure rep.C) = ND.pure (rowMajor o.N t) := ND.pure_bind _ _
    rw [e1] at hC
    exact hC
  have hR' : Sums (compute_ref ⟨o, vecA e o.N, vecB e o.N, #[], e.root, false⟩) o.N 1
      (entryA e o.N) (entryB e) := by
    unfold compute_ref
    have hf : ∀ i j, (entryA e o.N i j).Atom := fun i j => hA _
    have hg : ∀ i j, (entryB e i j).Atom := fun i j => by
      unfold entryB
      split
      · exact hB
      · trivial
    cases ho : o.transposed with
    | false =>
      rw [if_pos (by simp)]
      exact C105_naive hf hg _ _ (holds_rect _ _ _) (holds_rect _ _ _)
    | true =>
      rw [if_neg (by simp)]
      refine C105_naive_transposed hf hg _ _ (holds_rect _ _ _) ?_
      have := entryB_tr (e := e) true
      rw [if_pos rfl] at this
      rw [this]
      exact holds_rect _ _ _
  obtain ⟨c, rfl, hc⟩ := identity_exact e hr h1 rand hrand hs hC'
  obtain ⟨c', rfl, hc'⟩ := identity_exact e hr h1 rand hrand hR' hR
  refine ⟨⟨c, rfl, hc⟩, ?_⟩
  let _ := Double.arith fun _ _ _ => true
  refine (std_equal_iff _ _ _ _).2 ⟨by simp, fun i hi j hj => ⟨c i j, holds_rect _ _ _ i hi j hj, ?_⟩⟩
  refine small_accepts 10 (by decide) (hc i hi j hj).1 (hc' i hi j hj).1 ?_
  rw [(hc i hi j hj).2, (hc' i hi j hj).2, sub_self, abs_zero]
  positivity

end

/-! ### The tests with random matrices -/

section
open Tests

private theorem tests_sums (hf : ∀ i j, (f i j).Atom) (hg : ∀ i j, (g i j).Atom) (e : Env Term) (c : Case)
    (hd : InDomain c) (hl : e.localities = 1) (A B C : Array Term) (hA : Holds A c.N c.N f)
    (hB : Holds B c.N c.N (if c.transposed then tr g else g)) :
    Sums (hpx_main e c A B C) c.N 1 f g := by
  have single : (∃ n, c.N = 2 ^ n) → 1 ≤ c.block_input → (c.block_result = 0 ∨ c.block_result ∣ c.N) →
      1 ≤ c.repetitions → Sums (Recursive.single_matrix_multiply c.N A B c.transposed c.block_input
        c.block_result c.repetitions) c.N 1 f g := by
    rintro ⟨n, hn⟩ h1 h2 h3
    exact C105_single_pow2 hf hg n hn _ _ _ _ _ _ hA hB h1 h2 h3
  unfold hpx_main
  rcases hd with ⟨h0, hn, h1, h2, h3⟩ | ⟨h0, hn, h1, h2, h3, h4, h5⟩ |
    ⟨h0 | h0, ht, h1, h2, h3, h4⟩ | ⟨h0, ht, h1, h2, h3⟩ | ⟨h0, ht, h1⟩
  · rw [if_pos h0]
    exact single hn h1 h2 h3
  · rw [if_neg (by rw [h0]; decide), if_pos h0, C72_one_locality _ _ _ _ _ _ _ _ _ (.inl hl) h5 h4]
    exact single hn h1 h2 h3
  · rw [ht] at hB
    rw [h0, ht]
    simp only [String.reduceEq, if_false, if_true, not_true_eq_false]
    exact C105_algorithms hf hg A B hA hB _ _ h1 h2 h3 h4
  · rw [ht] at hB
    rw [h0, ht]
    simp only [String.reduceEq, if_false, if_true, not_true_eq_false]
    exact C105_looped hf hg A B hA hB _ _ h2 h1 h4 h3
  · rw [ht] at hB
    rw [h0, ht]
    simp only [String.reduceEq, if_false, if_true, not_true_eq_false]
    exact C105_semi hf hg A B hA hB _ h1 h2 h3
  · rw [ht] at hB
    rw [h0, ht, h1]
    simp only [String.reduceEq, if_false, if_true, Bool.false_eq_true]
    exact C105_combined hf hg A B hA hB 1

private theorem reference_sums (hf : ∀ i j, (f i j).Atom) (hg : ∀ i j, (g i j).Atom) (c : Case)
    (A B : Array Term) (hA : Holds A c.N c.N f)
    (hB : Holds B c.N c.N (if c.transposed then tr g else g)) : Sums (reference c A B) c.N 1 f g := by
  unfold reference
  cases ht : c.transposed with
  | false =>
    rw [ht] at hB
    exact C105_naive hf hg A B hA hB
  | true =>
    rw [ht] at hB
    exact C105_naive_transposed hf hg A B hA hB

/-- The error bounds of the tests: up to 1024 terms between -1 and 1. -/
private theorem random_bound (fuse : Double → Double → Double → Bool) {N : Nat} (hN : N ≤ 1024)
    {a b : Nat → Nat → Double} (ha : ∀ i j, (a i j).finite ∧ |(a i j).value| ≤ 1)
    (hb : ∀ i j, (b i j).finite ∧ |(b i j).value| ≤ 1) : letI := Double.arith fuse
    NoOverflow (Double.rounding fuse) N (N + 1) N a b ∧ ∀ i, i < N → ∀ j, j < N →
      (Double.rounding fuse).bound (N + 1) N (absEntry (Double.rounding fuse) N a b i j) ≤
        1 / 4 * (1 / 10 ^ 8) := by
  let _ := Double.arith fuse
  have hN : (N : ℚ) ≤ 1024 := by exact_mod_cast hN
  have hN0 : (0 : ℚ) ≤ N := Nat.cast_nonneg _
  have hu0 := (Double.rounding fuse).u_nonneg
  have hη0 := (Double.rounding fuse).η_nonneg
  have hu : (Double.rounding fuse).u ≤ 1 / 2 ^ 52 := u_le52
  have hη : (Double.rounding fuse).η ≤ 1 / 2 ^ 52 := η_le52
  have hΩ : 4096 ≤ (Double.rounding fuse).Ω := max_4096
  have e1 : ((N : ℚ) + 1) * (Double.rounding fuse).u ≤ 1025 * (1 / 2 ^ 52) :=
    mul_le_mul (by linarith) hu hu0 (by norm_num)
  have e2 : (N : ℚ) * (Double.rounding fuse).η ≤ 1024 * (1 / 2 ^ 52) :=
    mul_le_mul hN hη hη0 (by norm_num)
  have e3 : ((N : ℚ) + 1) * (Double.rounding fuse).u * N ≤ 1025 * (1 / 2 ^ 52) * 1024 :=
    mul_le_mul e1 hN hN0 (by norm_num)
  have n1 : (2 : ℚ) * (1025 * (1 / 2 ^ 52)) ≤ 1 := by norm_num
  have n2 : (2 : ℚ) * (1024 + 1024 * (1 / 2 ^ 52)) ≤ 4096 := by norm_num
  have n3 : (4 : ℚ) * (1025 * (1 / 2 ^ 52) * 1024 + 1024 * (1 / 2 ^ 52)) ≤ 1 / 2 * (1 / 10 ^ 8) := by
    norm_num
  generalize hr : Double.rounding fuse = r at *
  have ha' : ∀ i, i < N → ∀ j, j < N → |r.value (a i j)| ≤ 1 := fun i _ j _ => hr ▸ (ha i j).2
  have hb' : ∀ i, i < N → ∀ j, j < N → |r.value (b i j)| ≤ 1 := fun i _ j _ => hr ▸ (hb i j).2
  refine ⟨C85_no_overflow (c := 1) (d := 1) (fun i _ j _ => hr ▸ ⟨(ha i j).1, (hb i j).1⟩)
    ha' hb' (by push_cast; linarith) (by rw [mul_one, mul_one]; linarith), fun i hi j hj => ?_⟩
  have hW0 : 0 ≤ absEntry r N a b i j := Rounding.sum_abs_nonneg _ _
  have hW : absEntry r N a b i j ≤ N * (1 * 1) := absEntry_le ha' hb' i j hi hj
  have hb := C85_bound (r := r) (N + 1) N _ hW0 (by push_cast; linarith)
  push_cast at hb
  have hm := mul_le_mul_of_nonneg_left hW
    (mul_nonneg (mul_nonneg (by norm_num) (by positivity)) hu0 : 0 ≤ 2 * ((N : ℚ) + 1) * r.u)
  linarith

/-- **C105.** The tests with random matrices compiled with `-ffast-math`, all except
`random_matrices_2` of test_semi.cpp (C74): for all random numbers from -1 to 1, whatever the compiler
makes of the sums in the algorithm and in the reference, every check `BOOST_CHECK_SMALL(…, 1E-8)`
passes. -/
theorem C105_tests (e : Env Term) (hr : e.rand = Term.a 0) (hl : e.localities = 1) (c : Case)
    (hm : c ∈ random_cases) (hs : ¬ (c.algorithm = "semi" ∧ c.N = 2)) (rand : Nat → Double)
    (hrand : ∀ k, (rand k).finite ∧ |(rand k).value| ≤ 1) (e' : Env Double)
    (hclose : e'.close = Double.small (Double.lit 1 8)) (q : Nat → Nat → Double) (C R : Array Double)
    (hC : FastResult (fun _ => rand) q (do
      let A ← ND.ofM (Util.create_random_matrix e.rand c.N)
      let B ← ND.ofM (Util.create_random_matrix e.rand c.N)
      hpx_main e c A B #[]) C)
    (hR : FastResult (fun _ => rand) q (do
      let A ← ND.ofM (Util.create_random_matrix e.rand c.N)
      let B ← ND.ofM (Util.create_random_matrix e.rand c.N)
      reference c A B) R) :
    checks e' c.N C R = .ok (List.replicate (c.N * c.N) true) := by
  let fuse : Double → Double → Double → Bool := fun _ _ _ => true
  let _ := Double.arith fuse
  rw [C49_random] at hC hR
  have hC : FastResult (fun _ => rand) q (hpx_main e c (rowMajor c.N fun i j => e.rand (i * c.N + j))
      (rowMajor c.N fun i j => e.rand (i * c.N + j)) #[]) C := by
    have e1 := (ND.pure_bind (rowMajor c.N fun i j => e.rand (i * c.N + j)) fun A =>
      (ND.pure (rowMajor c.N fun i j => e.rand (i * c.N + j)) : ND _) >>= fun B => hpx_main e c A B #[]).trans
      (ND.pure_bind _ _)
    exact e1 ▸ hC
  have hR : FastResult (fun _ => rand) q (reference c (rowMajor c.N fun i j => e.rand (i * c.N + j))
      (rowMajor c.N fun i j => e.rand (i * c.N + j))) R := by
    have e1 := (ND.pure_bind (rowMajor c.N fun i j => e.rand (i * c.N + j)) fun A =>
      (ND.pure (rowMajor c.N fun i j => e.rand (i * c.N + j)) : ND _) >>= fun B => reference c A B).trans
      (ND.pure_bind _ _)
    exact e1 ▸ hR
  obtain ⟨f, hf⟩ : ∃ f : Nat → Nat → Term, f = fun i j => e.rand (i * c.N + j) := ⟨_, rfl⟩
  obtain ⟨g, hg⟩ : ∃ g : Nat → Nat → Term, g = if c.transposed then tr f else f := ⟨_, rfl⟩
  rw [← hf] at hC hR
  have hfv : ∀ i j, (f i j).Atom ∧ (ev (fun _ => rand) q f i j).finite ∧
      |(ev (fun _ => rand) q f i j).value| ≤ 1 := by
    intro i j
    unfold ev
    rw [hf]
    simp only [hr]
    exact ⟨trivial, hrand _⟩
  have hgv : ∀ i j, (g i j).Atom ∧ (ev (fun _ => rand) q g i j).finite ∧
      |(ev (fun _ => rand) q g i j).value| ≤ 1 := by
    intro i j
    rw [hg]
    cases c.transposed
    · exact hfv i j
    · exact hfv j i
  have hB : Holds (rowMajor c.N f) c.N c.N (if c.transposed then tr g else g) := by
    rw [hg]
    cases c.transposed <;> exact holds_rect c.N c.N f
  have hN := random_sizes_le c hm
  obtain ⟨hno, hbd⟩ := random_bound fuse hN (fun i j => (hfv i j).2) fun i j => (hgv i j).2
  have key : ∀ {P : ND (Array Term)} {C : Array Double}, Sums P c.N 1 f g →
      FastResult (fun _ => rand) q P C → ∃ v : Nat → Nat → Double, C = rowMajor c.N v ∧
        ∀ i, i < c.N → ∀ j, j < c.N → (v i j).finite ∧
          |(v i j).value - exactEntry (Double.rounding fuse) c.N (ev (fun _ => rand) q f)
            (ev (fun _ => rand) q g) i j| ≤ 1 / 4 * (1 / 10 ^ 8) := by
    intro P C h hC
    obtain ⟨v, hv, h1⟩ := bound_general fuse h (p := fun _ => rand) (q := q) hno.finite
      (fun i hi j hj => by
        have := hno.fits i hi j hj
        simp only [Nat.cast_one, one_mul]
        exact this) hC
    refine ⟨v, hv, fun i hi j hj => ?_⟩
    obtain ⟨h2, h3⟩ := h1 i hi j hj
    simp only [Nat.cast_one, one_mul] at h3
    exact ⟨h2, h3.trans (hbd i hi j hj)⟩
  obtain ⟨v, rfl, hv⟩ := key (tests_sums (fun i j => (hfv i j).1) (fun i j => (hgv i j).1) e c
    (random_inDomain c hm hs) hl _ _ _ (holds_rect _ _ _) hB) hC
  obtain ⟨w, rfl, hw⟩ := key (reference_sums (fun i j => (hfv i j).1) (fun i j => (hgv i j).1) c _ _
    (holds_rect _ _ _) hB) hR
  refine checks_close e' c.N v w fun i hi j hj => ?_
  rw [hclose]
  refine small_accepts 8 (by decide) (hv i hi j hj).1 (hw i hi j hj).1 ?_
  have h1 := abs_le.1 (hv i hi j hj).2
  have h2 := abs_le.1 (hw i hi j hj).2
  rw [abs_le]
  constructor <;> linarith [h1.1, h1.2, h2.1, h2.2]

end
/-! ### The order of the source text, and others -/

private theorem dot_computes (fuse : Double → Double → Double → Bool) {p q : Nat → Nat → Double} (n i j : Nat) :
    (dot n (Term.a i) fun k => Term.b k j).Computes p q
      (@dot Double (Double.arith fuse) n (p i) fun k => q k j) := by
  unfold dot
  suffices h : ∀ (l : List Nat) (t : Term) (v : Double), t.Computes p q v →
      (l.foldl (fun s k => Term.mac s (Term.a i k) (Term.b k j)) t).Computes p q
        (l.foldl (fun s k => (Double.arith fuse).mac s (p i k) (q k j)) v) from
    h _ _ _ (.zero trivial rfl)
  intro l
  induction l with
  | nil => exact fun _ _ h => h
  | cons k l ih =>
    intro t v h
    rw [List.foldl_cons, List.foldl_cons]
    refine ih _ _ ?_
    show Term.Computes p q _ (if fuse v (p i k) (q k j) then _ else _)
    split
    · exact .fused h (.a i k) (.b k j)
    · exact .two h (.a i k) (.b k j)

private theorem fast_rect {p q : Nat → Nat → Double} {t : Nat → Nat → Term} {c : Nat → Nat → Double}
    (h : ∀ i, i < N → ∀ j, j < N → ∃ t', (t i j).Fast t' ∧ t'.Computes p q (c i j)) :
    FastResult p q (ND.pure (rowMajor N t)) (rowMajor N c) := by
  refine ⟨_, rfl, by simp, fun k t' hk => ?_⟩
  have hlt : k < N * N := by
    have := (Array.getElem?_eq_some_iff.1 hk).1
    simpa using this
  have hN : 0 < N := by
    rcases Nat.eq_zero_or_pos N with h0 | h0
    · rw [h0] at hlt; omega
    · exact h0
  have hi : k / N < N := Nat.div_lt_of_lt_mul hlt
  have hj := Nat.mod_lt k hN
  have hkk : k / N * N + k % N = k := Nat.div_add_mod' k N
  have e1 := holds_rect N N t _ hi _ hj
  have e2 := holds_rect N N c _ hi _ hj
  rw [hkk] at e1 e2
  obtain ⟨t'', h1, h2⟩ := h _ hi _ hj
  have e3 : t (k / N) (k % N) = t' := by
    have := e1.symm.trans hk
    injection this
  exact ⟨t'', _, e3 ▸ h1, h2, e2⟩

/-- **C105.** The result of the source text without `-ffast-math`, with any choice of fused operations,
is one of the results that are possible with it. -/
theorem C105_source (fuse : Double → Double → Double → Bool) (p q : Nat → Nat → Double) (C : Array Double)
    (h : @Naive.naive_matrix_multiply Double (Double.arith fuse) N (rowMajor N p) (rowMajor N q) (.ok C)) :
    FastResult p q (Naive.naive_matrix_multiply N (rowMajor N Term.a) (rowMajor N Term.b)) C := by
  rw [@C01_naive Double (Double.arith fuse) N _ _ _ _ (holds_rect _ _ _) (holds_rect _ _ _)] at h
  rw [C01_naive N _ _ _ _ (holds_rect _ _ _) (holds_rect _ _ _)]
  cases h
  exact fast_rect fun i _ j _ => ⟨_, .refl _, dot_computes fuse N i j⟩

/-- **C105.** The flag makes a difference: for the matrices with rows `1, 2^-53, 2^-53` and columns of
ones, the program may return `1` or `1 + 2^-52`. -/
theorem C105_order : ∃ p q : Nat → Nat → Double, ∃ c d : Double, c.value = 1 ∧ d.value = 1 + 1 / 2 ^ 52 ∧
    ∀ x : Nat → Nat → Double, (∀ i, i < 3 → ∀ j, j < 3 → x i j = c ∨ x i j = d) →
    FastResult p q (Naive.naive_matrix_multiply 3 (rowMajor 3 Term.a) (rowMajor 3 Term.b)) (rowMajor 3 x) := by
  refine ⟨fun _ k => if k = 0 then Double.lit 1 0 else Double.ofRat (1 / 2 ^ 53), fun _ _ => Double.lit 1 0,
    (((Double.lit 1 0).mul (Double.lit 1 0)).add ((Double.ofRat (1 / 2 ^ 53)).mul (Double.lit 1 0))).add
      ((Double.ofRat (1 / 2 ^ 53)).mul (Double.lit 1 0)),
    ((Double.lit 1 0).mul (Double.lit 1 0)).add (((Double.ofRat (1 / 2 ^ 53)).mul (Double.lit 1 0)).add
      ((Double.ofRat (1 / 2 ^ 53)).mul (Double.lit 1 0))), by decide +kernel, by decide +kernel, fun x hx => ?_⟩
  rw [C01_naive 3 _ _ _ _ (holds_rect _ _ _) (holds_rect _ _ _)]
  refine fast_rect fun i hi j hj => ?_
  have h3 : (dot 3 (Term.a i) fun k => Term.b k j) =
      .mac (.mac (.mac .zero (.a i 0) (.b 0 j)) (.a i 1) (.b 1 j)) (.a i 2) (.b 2 j) := rfl
  rw [h3]
  rcases hx i hi j hj with h | h
  · rw [h]
    exact ⟨_, .refl _, .two (.two (.product (.a i 0) (.b 0 j)) (.a i 1) (.b 1 j)) (.a i 2) (.b 2 j)⟩
  · rw [h]
    refine ⟨.add (.mac .zero (.a i 0) (.b 0 j)) (.add (.mac .zero (.a i 1) (.b 1 j))
      (.mac .zero (.a i 2) (.b 2 j))), ?_,
      .add (.product (.a i 0) (.b 0 j)) (.add (.product (.a i 1) (.b 1 j)) (.product (.a i 2) (.b 2 j)))⟩
    exact .trans (.mac_eq _ _ _) (.trans (.add (.mac_eq _ _ _) (.refl _)) (.add_assoc _ _ _))

section Examples

/-- Matrices of ones. -/
private def ones : Nat → Nat → Double := fun _ _ => Double.lit 1 0

private theorem ones_ok (i j : Nat) : (ones i j).finite ∧ (ones i j).value = 1 := one_lit

private theorem atomA (i j : Nat) : (Term.a i j).Atom := trivial

private theorem atomB (i j : Nat) : (Term.b i j).Atom := trivial

-- `combined` for every size and number of repetitions is a sum, and so are the others
example : Sums (Combined.matrix_multiply Combined.blocking 100 (rowMajor 100 Term.a) (rowMajor 100 Term.b) 3)
    100 3 Term.a Term.b :=
  C105_combined atomA atomB _ _ (holds_rect _ _ _) (holds_rect _ _ _) 3

example : Sums (Recursive.single_matrix_multiply 64 (rowMajor 64 Term.a) (rowMajor 64 (tr Term.b)) true 8 16 2)
    64 1 Term.a Term.b :=
  C105_single_pow2 atomA atomB 6 rfl _ _ true 8 16 2 (holds_rect _ _ _)
    (holds_rect _ _ _) (by decide) (.inr (by decide)) (by decide)

example : Sums (Recursive.single_matrix_multiply 12 (rowMajor 12 Term.a) (rowMajor 12 Term.b) false 3 4 1)
    12 1 Term.a Term.b :=
  C105_single atomA atomB 2 3 _ _ false 3 4 1 (holds_rect _ _ _)
    (holds_rect _ _ _) rfl (by decide) (by decide) (by decide) (by decide)

example : Sums (StaticImproved.pseudodynamic_matrix_multiply ⟨8, 10, fun _ _ => true⟩ 64
    (rowMajor 64 Term.a) (rowMajor 64 (tr Term.b)) true 8 16 2 3) 64 1 Term.a Term.b :=
  C105_pseudodynamic atomA atomB _ 6 1 _ _ true 8 16 2 3 (holds_rect _ _ _)
    (holds_rect _ _ _) rfl (by decide) (by decide) (by decide) (by decide)
    fun _ _ => ⟨by decide, by decide⟩

example : Sums (Algorithms.matrix_multiply 24 (rowMajor 24 Term.a) (rowMajor 24 (tr Term.b)) 6 8)
    24 1 Term.a Term.b :=
  C105_algorithms atomA atomB _ _ (holds_rect _ _ _) (holds_rect _ _ _) 6 8
    (by decide) (by decide) (by decide) (by decide)

example : Sums (ND.ofM (Looped.matrix_multiply 24 (rowMajor 24 Term.a) (rowMajor 24 (tr Term.b)) 6 8))
    24 1 Term.a Term.b :=
  C105_looped atomA atomB _ _ (holds_rect _ _ _) (holds_rect _ _ _) 6 8
    (by decide) (by decide) (by decide) (by decide)

example : Sums (Semi.matrix_multiply 24 (rowMajor 24 Term.a) (rowMajor 24 (tr Term.b)) 6) 24 1 Term.a Term.b :=
  C105_semi atomA atomB _ _ (holds_rect _ _ _) (holds_rect _ _ _) 6
    (by decide) (by decide) (by decide)

example : Sums (KernelTiled.matrix_multiply KernelTiled.blocking 100 (rowMajor 100 Term.a)
    (rowMajor 100 Term.b) false 2) 100 1 Term.a Term.b :=
  C105_kernel_tiled atomA atomB _ _ (holds_rect _ _ _) (holds_rect _ _ _) _ 2
    (by decide)

example : Sums (KernelTest.matrix_multiply 512 (rowMajor 512 Term.a) (rowMajor 512 Term.b) false 2)
    512 1 Term.a Term.b :=
  C105_kernel_test atomA atomB (.inr (by decide)) _ _ (holds_rect _ _ _) (holds_rect _ _ _) _ 2 (by decide)

example : Sums (Naive.naive_matrix_multiply_transposed 7 (rowMajor 7 Term.a) (rowMajor 7 (tr Term.b)))
    7 1 Term.a Term.b :=
  C105_naive_transposed atomA atomB _ _ (holds_rect _ _ _) (holds_rect _ _ _)

-- a sum of three products may be evaluated from right to left, but no product may be left out
example : (dot 3 (Term.a 0) fun k => Term.b k 0).Fast
    (.mac (.mac (.mac .zero (.a 0 2) (.b 2 0)) (.a 0 1) (.b 1 0)) (.a 0 0) (.b 0 0)) :=
  (C105_rules _ _ (by simp [dot, dotFrom, List.range, List.range.loop, Arith.mac, Arith.zero, Term.Flat,
    Term.Atom])).2 ⟨by simp [Term.Flat, Term.Atom], by decide⟩

example : ¬ (dot 3 (Term.a 0) fun k => Term.b k 0).Fast
    (.mac (.mac .zero (.a 0 2) (.b 2 0)) (.a 0 1) (.b 1 0)) := fun h =>
  absurd (congrArg Multiset.card ((C105_rules _ _ (by simp [dot, dotFrom, List.range, List.range.loop,
    Arith.mac, Arith.zero, Term.Flat, Term.Atom])).1 h).2) (by decide)

-- the error bounds, for a program that adds up everything once or three times
example (fuse : Double → Double → Double → Bool) (C : Array Double) (h : FastResult ones ones
    (Combined.matrix_multiply Combined.blocking 100 (rowMajor 100 Term.a) (rowMajor 100 Term.b) 1) C) :
    letI := Double.arith fuse
    ApproxProduct (Double.rounding fuse) 100 (100 + 1) 100 ones ones (ND.pure C) :=
  C105_bound fuse (C105_combined atomA atomB _ _ (holds_rect _ _ _) (holds_rect _ _ _) 1)
    (random_bound fuse (by decide) (fun i j => ⟨(ones_ok i j).1, by rw [(ones_ok i j).2, abs_one]⟩)
      fun i j => ⟨(ones_ok i j).1, by rw [(ones_ok i j).2, abs_one]⟩).1 h

set_option exponentiation.threshold 1100 in
example (fuse : Double → Double → Double → Bool) (C : Array Double) (h : FastResult ones ones
    (Combined.matrix_multiply Combined.blocking 100 (rowMajor 100 Term.a) (rowMajor 100 Term.b) 3) C) :
    ∃ c : Nat → Nat → Double, C = rowMajor 100 c ∧ ∀ i, i < 100 → ∀ j, j < 100 → (c i j).finite := by
  let _ := Double.arith fuse
  obtain ⟨c, hc, h1⟩ := C105_bound_repeated fuse
    (C105_combined atomA atomB _ _ (holds_rect _ _ _) (holds_rect _ _ _) 3)
    (fun i _ j _ => ⟨(ones_ok i j).1, (ones_ok i j).1⟩) (fun i hi j hj => by
      have h1 : ∀ i, i < 100 → ∀ j, j < 100 → |(Double.rounding fuse).value (ones i j)| ≤ 1 :=
        fun i _ j _ => by
          show |(ones i j).value| ≤ 1
          rw [(ones_ok i j).2, abs_one]
      have h2 := absEntry_le h1 h1 i j hi hj
      have h3 : 0 ≤ absEntry (Double.rounding fuse) 100 ones ones i j := Rounding.sum_abs_nonneg _ _
      have hη : (Double.rounding fuse).η ≤ 1 / 2 ^ 52 := η_le52
      have hη0 := (Double.rounding fuse).η_nonneg
      have hu : (Double.rounding fuse).u ≤ 1 / 2 ^ 52 := u_le52
      have hΩ : 4096 ≤ (Double.rounding fuse).Ω := max_4096
      generalize hr : Double.rounding fuse = r at *
      have h4 : (1 + r.u) ^ (3 * 100 + 1) ≤ 2 :=
        (pow_le_pow_left₀ (by linarith [r.u_nonneg]) (by linarith : 1 + r.u ≤ 1 + 1 / 2 ^ 52) _).trans
          (by norm_num)
      refine le_trans (b := 2 * (3 * 100 + 300 * (1 / 2 ^ 52))) ?_ (le_trans (by norm_num) hΩ)
      refine mul_le_mul h4 ?_ ?_ (by norm_num)
      · push_cast at h2 ⊢
        linarith
      · push_cast
        linarith) h
  exact ⟨c, hc, fun i hi j hj => (h1 i hi j hj).1⟩

-- integers: ones times ones is exactly 100 everywhere
example (C : Array Double) (h : FastResult ones ones
    (Naive.naive_matrix_multiply 100 (rowMajor 100 Term.a) (rowMajor 100 Term.b)) C) :
    ∃ c : Nat → Nat → Double, C = rowMajor 100 c ∧ ∀ i, i < 100 → ∀ j, j < 100 →
      (c i j).finite ∧ (c i j).value = 100 := by
  obtain ⟨c, hc, h1⟩ := C105_integers (C105_naive atomA atomB _ _
    (holds_rect _ _ _) (holds_rect _ _ _)) (fun _ _ => 1) (fun _ _ => 1)
    (fun i _ k _ => ⟨(ones_ok i k).1, (ones_ok i k).2.trans (by norm_num)⟩)
    (fun i _ k _ => ⟨(ones_ok i k).1, (ones_ok i k).2.trans (by norm_num)⟩) (by norm_num) h
  refine ⟨c, hc, fun i hi j hj => ⟨(h1 i hi j hj).1, (h1 i hi j hj).2.trans ?_⟩⟩
  norm_num

private def symbols : Driver.Env Term where
  rand := Term.a 0
  one := Term.b 0 0
  absDiff _ _ := Term.zero
  close _ _ := true
  root := true
  localities := 1
  relOk _ _ := true
  junk _ := #[]

-- the driver with `semi`
example (rand : Nat → Double) (hrand : ∀ k, (rand k).finite) (C R : Array Double)
    (hC : FastResult (fun _ => rand) (fun _ _ => Double.lit 1 0) (do
      let rep ← Driver.main symbols { N := 512, algorithm := "semi", check := true }; pure rep.C) C)
    (hR : FastResult (fun _ => rand) (fun _ _ => Double.lit 1 0) (Driver.compute_ref
      ⟨{ N := 512, algorithm := "semi", check := true }, Driver.vecA symbols 512, Driver.vecB symbols 512,
        #[], true, false⟩) R) :
    Driver.std_equal (Double.small (Double.lit 1 10)) C R = true :=
  ((C105_driver symbols rfl rfl _ rfl
    (.semi rfl rfl (by decide) (by decide) (by decide)) rand hrand).2 C R hC hR).2

-- the test `random_matrices_1024` of test_combined.cpp
example (rand : Nat → Double) (hrand : ∀ k, (rand k).finite ∧ |(rand k).value| ≤ 1) (C R : Array Double)
    (hC : FastResult (fun _ => rand) ones (do
      let A ← ND.ofM (Util.create_random_matrix (Term.a 0) 1024)
      let B ← ND.ofM (Util.create_random_matrix (Term.a 0) 1024)
      Tests.hpx_main ⟨Term.a 0, fun _ _ => true, 1, fun _ => #[]⟩ ⟨"combined", 1024, false, 128, 128, 1, 0, 0⟩
        A B #[]) C)
    (hR : FastResult (fun _ => rand) ones (do
      let A ← ND.ofM (Util.create_random_matrix (Term.a 0) 1024)
      let B ← ND.ofM (Util.create_random_matrix (Term.a 0) 1024)
      Tests.reference ⟨"combined", 1024, false, 128, 128, 1, 0, 0⟩ A B) R) :
    Tests.checks ⟨rand, Double.small (Double.lit 1 8), 1, fun _ => #[]⟩ 1024 C R =
      .ok (List.replicate (1024 * 1024) true) :=
  C105_tests ⟨Term.a 0, fun _ _ => true, 1, fun _ => #[]⟩ rfl rfl
    ⟨"combined", 1024, false, 128, 128, 1, 0, 0⟩ (by decide) (by decide) rand hrand
    ⟨rand, Double.small (Double.lit 1 8), 1, fun _ => #[]⟩ rfl ones C R hC hR

-- such results exist
example : FastResult ones ones (Naive.naive_matrix_multiply 5 (rowMajor 5 Term.a) (rowMajor 5 Term.b))
    (rowMajor 5 (@mulSpec Double (Double.arith fun _ _ _ => true) 5 ones ones)) :=
  C105_source (fun _ _ _ => true) ones ones _ (by
    rw [@C01_naive Double (Double.arith fun _ _ _ => true) 5 _ _ _ _ (holds_rect _ _ _) (holds_rect _ _ _)]
    rfl)

end Examples
end Verif.Props
