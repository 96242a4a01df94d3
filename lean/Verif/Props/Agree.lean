import Verif.Props.Naive
import Verif.Props.Kernel
import Verif.Props.Schedule
import Verif.Props.Looped
import Verif.Props.Algorithms
import Verif.Props.Semi
import Verif.Props.Combined
import Verif.Props.KernelTiled
import Verif.Props.KernelTest
import Verif.Props.Util
/-
C58: all algorithms agree where all of them are applicable.  C49: multiplying by the generated
identity matrix.
-/
namespace Verif.Props
variable {R : Type} [Semiring R]

private theorem sum_if {N : Nat} (t : Bool) (f g : Nat → Nat → R) :
    (fun i j => ∑ k ∈ Finset.range N,
      f i k * (if t then (if t then tr g else g) j k else (if t then tr g else g) k j))
      = matProd N f g := by
  funext i j
  cases t <;> rfl

/-- **C58.** `N = 2 ^ e` with `9 ≤ e`, block sizes that divide `N`, at least one repetition and one
compute locality: all nine programs have exactly one outcome, and it is the same matrix for all of
them, `A · B`.  `B` is passed transposed (`Bt`) to the programs that expect it that way. -/
theorem C58_all_agree (e : Nat) (he : 9 ≤ e) (A B Bt : Array R) (f g : Nat → Nat → R)
    (hA : Holds A (2 ^ e) (2 ^ e) f) (hB : Holds B (2 ^ e) (2 ^ e) g)
    (hBt : Holds Bt (2 ^ e) (2 ^ e) (tr g)) (br bi reps L : Nat) (p : StaticImproved.Params)
    (hbr : br ∣ 2 ^ e) (hbi : bi ∣ 2 ^ e) (hr : 1 ≤ reps) (hL : 0 < L) (hp : 1 ≤ p.min_work_size)
    (t : Bool) (x : ND (Array R))
    (hx : x ∈ [
      @Naive.naive_matrix_multiply R (exact R) (2 ^ e) A B,
      @Naive.naive_matrix_multiply_transposed R (exact R) (2 ^ e) A Bt,
      @Recursive.single_matrix_multiply R (exact R) (2 ^ e) A B false br bi reps,
      @Recursive.single_matrix_multiply R (exact R) (2 ^ e) A Bt true br bi reps,
      @StaticImproved.pseudodynamic_matrix_multiply R (exact R) p (2 ^ e) A B false br bi reps L,
      @StaticImproved.pseudodynamic_matrix_multiply R (exact R) p (2 ^ e) A Bt true br bi reps L,
      @Algorithms.matrix_multiply R (exact R) (2 ^ e) A Bt bi br,
      ND.ofM (@Looped.matrix_multiply R (exact R) (2 ^ e) A Bt br bi),
      @Semi.matrix_multiply R (exact R) (2 ^ e) A Bt bi,
      @Combined.matrix_multiply R (exact R) Combined.blocking (2 ^ e) A B 1,
      @KernelTiled.matrix_multiply R (exact R) KernelTiled.blocking (2 ^ e) A B t reps,
      @KernelTest.matrix_multiply R (exact R) (2 ^ e) A B t reps]) :
    x = ND.pure (rowMajor (2 ^ e) (matProd (2 ^ e) f g)) := by
  have hpos : 0 < 2 ^ e := Nat.two_pow_pos e
  have hbr0 : 0 < br := Nat.pos_of_dvd_of_pos hbr hpos
  have hbi0 : 0 < bi := Nat.pos_of_dvd_of_pos hbi hpos
  have h512 : 2 ^ 9 ∣ 2 ^ e := Nat.pow_dvd_pow 2 he
  have h4 : 4 ∣ 2 ^ e := Nat.dvd_trans (by decide) h512
  simp only [List.mem_cons, List.not_mem_nil, or_false] at hx
  rcases hx with rfl | rfl | rfl | rfl | rfl | rfl | rfl | rfl | rfl | rfl | rfl | rfl
  · exact C01_naive_exact _ A B f g hA hB
  · rw [@C02_naive_transposed R (exact R) _ A Bt f _ hA hBt]
    refine congrArg ND.pure (congrArg _ ?_)
    funext i j
    exact dot_exact _ _ _
  · rw [C10_single_pow2_exact e A B f g false br bi reps hA hB hbr0 (.inr hbi) hr]
    exact congrArg ND.pure (congrArg _ (sum_if false f g))
  · rw [C10_single_pow2_exact e A Bt f _ true br bi reps hA hBt hbr0 (.inr hbi) hr]
    exact congrArg ND.pure (congrArg _ (sum_if true f g))
  · rw [C22_pseudodynamic_pow2 p e A B f g false br bi reps L hA hB hp hbr0 hL hr (.inr hbi)]
    exact congrArg ND.pure (congrArg _ (sum_if false f g))
  · rw [C22_pseudodynamic_pow2 p e A Bt f _ true br bi reps L hA hBt hp hbr0 hL hr (.inr hbi)]
    exact congrArg ND.pure (congrArg _ (sum_if true f g))
  · exact C24_algorithms_exact _ A Bt f _ hA hBt bi br hbi0 hbr0 hbi hbr
  · rw [C26_looped_exact _ A Bt f _ hA hBt br bi hbr0 hbi0 hbr hbi]
    rfl
  · exact C32_semi_exact _ A Bt f _ hA hBt bi h4 hbi0 hbi
  · exact C34_combined _ A B f g hA hB
  · exact C37_kernel_tiled_exact _ A B f g hA hB t reps hr
  · exact C39_kernel_test_exact _ (.inr ⟨h4, .inl (Nat.mod_eq_zero_of_dvd h512)⟩) A B f g hA hB t
      reps hr

/-- The identity matrix. -/
def idMat : Nat → Nat → R := fun i j => if i = j then 1 else 0

theorem idMat_tr : (tr idMat : Nat → Nat → R) = idMat := by
  funext i j
  simp only [tr, idMat, eq_comm]

theorem rowMajor_mul_id (N : Nat) (f : Nat → Nat → R) :
    rowMajor N (matProd N f idMat) = rowMajor N f :=
  rect_congr fun i hi j hj => (C49_neutral N f i j hi hj).1

/-- **C49.** Whatever `create_identity_matrix` returns is neutral for every algorithm, transposed or
not: the only outcome is the first matrix (as vector of exactly `N * N` elements). -/
theorem C49_algorithms (e : Nat) (he : 9 ≤ e) (A I : Array R) (f : Nat → Nat → R)
    (hA : Holds A (2 ^ e) (2 ^ e) f)
    (hI : @Util.create_identity_matrix R (exact R) 1 (2 ^ e) = .ok I) (br bi reps L : Nat)
    (p : StaticImproved.Params) (hbr : br ∣ 2 ^ e) (hbi : bi ∣ 2 ^ e) (hr : 1 ≤ reps) (hL : 0 < L)
    (hp : 1 ≤ p.min_work_size) (t : Bool) (x : ND (Array R))
    (hx : x ∈ [
      @Naive.naive_matrix_multiply R (exact R) (2 ^ e) A I,
      @Naive.naive_matrix_multiply_transposed R (exact R) (2 ^ e) A I,
      @Recursive.single_matrix_multiply R (exact R) (2 ^ e) A I false br bi reps,
      @Recursive.single_matrix_multiply R (exact R) (2 ^ e) A I true br bi reps,
      @StaticImproved.pseudodynamic_matrix_multiply R (exact R) p (2 ^ e) A I false br bi reps L,
      @StaticImproved.pseudodynamic_matrix_multiply R (exact R) p (2 ^ e) A I true br bi reps L,
      @Algorithms.matrix_multiply R (exact R) (2 ^ e) A I bi br,
      ND.ofM (@Looped.matrix_multiply R (exact R) (2 ^ e) A I br bi),
      @Semi.matrix_multiply R (exact R) (2 ^ e) A I bi,
      @Combined.matrix_multiply R (exact R) Combined.blocking (2 ^ e) A I 1,
      @KernelTiled.matrix_multiply R (exact R) KernelTiled.blocking (2 ^ e) A I t reps,
      @KernelTest.matrix_multiply R (exact R) (2 ^ e) A I t reps]) :
    x = ND.pure (rowMajor (2 ^ e) f) := by
  have hI' : I = rowMajor (2 ^ e) idMat :=
    Except.ok.inj (hI.symm.trans (@C49_identity R (exact R) 1 (2 ^ e)))
  have h1 : Holds I (2 ^ e) (2 ^ e) idMat := hI' ▸ holds_rect _ _ _
  have h2 : Holds I (2 ^ e) (2 ^ e) (tr idMat : Nat → Nat → R) := idMat_tr (R := R) ▸ h1
  rw [← rowMajor_mul_id (2 ^ e) f]
  exact C58_all_agree e he A I I f idMat hA h1 h2 br bi reps L p hbr hbi hr hL hp t x hx

section Examples

/-- the parameters of the driver for `N = 512`: a skew matrix, default block sizes -/
example : ∃ (A B Bt : Array Int) (f g : Nat → Nat → Int), Holds A (2 ^ 9) (2 ^ 9) f ∧
    Holds B (2 ^ 9) (2 ^ 9) g ∧ Holds Bt (2 ^ 9) (2 ^ 9) (tr g) ∧ 128 ∣ 2 ^ 9 ∧ f 0 1 ≠ f 1 0 :=
  ⟨rowMajor _ fun i j => i + 2 * j, rowMajor _ fun i j => 3 * i + j, rowMajor _ (tr fun i j => 3 * i + j),
    _, _, holds_rect _ _ _, holds_rect _ _ _, holds_rect _ _ _, by decide, by decide⟩

example : ∃ I : Array Int, @Util.create_identity_matrix Int (exact Int) 1 (2 ^ 9) = .ok I :=
  ⟨_, @C49_identity Int (exact Int) 1 (2 ^ 9)⟩

end Examples
end Verif.Props
