import Verif.Proof.Recursive
import Verif.Props.Exact
/-
Properties C04–C14: the block kernels, the submatrix action and the recursive
single-node multiplication.
-/
namespace Verif.Props
open Verif.Kernel Verif.Recursive
variable {α : Type} [Arith α]

/-- **C04.** `kernel::kernel` overwrites `C` with the requested block of the product. -/
theorem C04_kernel (A B C : Array α) (N x y bs : Nat) (a b : Nat → Nat → α)
    (hA : Holds A N N a) (hB : Holds B N N b) (hC : C.size = bs * bs)
    (hx : x + bs ≤ N) (hy : y + bs ≤ N) :
    (kernel A B C.size N x y bs).execOn C =
      .ok (rect bs bs fun i j => dot N (a (x + i)) (fun k => b k (y + j))) := by
  rw [hC, (kernel_does hA hB hx hy).execOn, block_result' _ hC]

/-- **C05.** For arbitrary vectors and block positions `kernel::kernel` returns normally,
keeps the length of `C`, and every element is either untouched or the accumulation the
formula prescribes (all of whose operands exist). -/
theorem C05_kernel_total (A B C : Array α) (N x y bs : Nat) :
    ∃ C', (kernel A B C.size N x y bs).execOn C = .ok C' ∧ C'.size = C.size ∧
      ∀ p, p < C.size → C'[p]? = C[p]? ∨
        ∃ i j f g, i < bs ∧ j < bs ∧ p = i * bs + j ∧
          (∀ k, k < N → A[(x + i) * N + k]? = some (f k)) ∧
          (∀ k, k < N → B[k * N + (y + j)]? = some (g k)) ∧ C'[p]? = some (dot N f g) := by
  let I : (Nat → α) → Prop := fun c => ∀ p, p < C.size → C[p]? = some (c p) ∨
        ∃ i j f g, i < bs ∧ j < bs ∧ p = i * bs + j ∧
          (∀ k, k < N → A[(x + i) * N + k]? = some (f k)) ∧
          (∀ k, k < N → B[k * N + (y + j)]? = some (g k)) ∧ c p = dot N f g
  have hbody : (kernelBody A B C.size N x y bs).Keeps I (fun _ => True)
      (fun e => e = .outOfRange) := by
    unfold kernelBody
    rw [forStep_eq (by decide)]
    refine Act.Keeps.foldlM (fun i hi _ _ => ?_) trivial
    rw [forStep_eq (by decide)]
    refine Act.Keeps.foldlM (fun j hj _ _ => ?_) trivial
    rw [steps_one, List.mem_range] at hi hj
    refine Act.Keeps.bind (P := fun r => component A B N x y i j = .ok r)
      (Act.Keeps.ofM (fun r hr => hr) fun e he => component_errs he) fun r hr => ?_
    refine Act.Keeps.writeAt fun hlt c hc p hp => ?_
    by_cases hpi : p = i * bs + j
    · obtain ⟨f, g, h1, h2, h3⟩ := component_inv hr
      exact .inr ⟨i, j, f, g, hi, hj, hpi, h1, h2, by simp [hpi, h3]⟩
    · simpa [hpi] using hc p hp
  have hk := hbody.catchOutOfRange (Mem.ofArray C) (fun p hp => .inl (by
    simp [Mem.ofArray, Array.getElem?_eq_getElem hp]))
  have he : (kernel A B C.size N x y bs).execOn C = .ok (toArray C.size
      ((kernel A B C.size N x y bs).exec (Mem.ofArray C)).2.cell) := by
    unfold Act.execOn
    change _ ∧ _ ∧ ∀ e, ((kernel A B C.size N x y bs).exec (Mem.ofArray C)).1 = _ → _ at hk
    generalize (kernel A B C.size N x y bs).exec (Mem.ofArray C) = z at hk
    obtain ⟨z1, z2⟩ := z
    cases z1 with
    | ok r => rfl
    | error e => exact (hk.2.2 e rfl).elim
  refine ⟨_, he, by simp [toArray], fun p hp => ?_⟩
  have hp' : (toArray C.size ((kernel A B C.size N x y bs).exec (Mem.ofArray C)).2.cell)[p]?
      = some (((kernel A B C.size N x y bs).exec (Mem.ofArray C)).2.cell p) := by
    simp [toArray, hp]
  rw [hp']
  rcases hk.1 p hp with h | ⟨i, j, f, g, h1, h2, h3, h4, h5, h6⟩
  · exact .inl h.symm
  · exact .inr ⟨i, j, f, g, h1, h2, h3, h4, h5, by rw [← h6]; rfl⟩

/-- **C06.** `kernel::kernel_transposed` is in bounds and overwrites `C` with the block of
`A · Btᵀ`. -/
theorem C06_kernel_transposed (A Bt C : Array α) (N x y bs : Nat) (a b : Nat → Nat → α)
    (hA : Holds A N N a) (hB : Holds Bt N N b) (hC : C.size = bs * bs)
    (hx : x + bs ≤ N) (hy : y + bs ≤ N) :
    (kernel_transposed A Bt C.size N x y bs).execOn C =
      .ok (rect bs bs fun i j => dot N (a (x + i)) (b (y + j))) := by
  rw [hC, (kernel_transposed_does hA hB hx hy).execOn, block_result' _ hC]

/-- **C07.** `kernel_transposed_blocked` with dividing block sizes is in bounds and adds to
each element of `C` the block sums of the dot product, in order. -/
theorem C07_kernel_blocked (A Bt C : Array α) (N x y br bi : Nat) (a b c : Nat → Nat → α)
    (hA : Holds A N N a) (hB : Holds Bt N N b) (hC : C.size = br * br) (hc : Holds C br br c)
    (hx : x + br ≤ N) (hy : y + br ≤ N) (h4 : 4 ∣ br) (hbi : 0 < bi) (hdvd : bi ∣ N) :
    (kernel_transposed_blocked A Bt C.size N x y br bi).execOn C =
      .ok (rect br br fun i j => bdotFrom (c i j) bi (N / bi) (a (x + i)) (b (y + j))) := by
  have hN : N = N / bi * bi := (Nat.div_mul_cancel hdvd).symm
  have h4' : br % 4 = 0 := Nat.mod_eq_zero_of_dvd h4
  rw [hC, (kernel_transposed_blocked_does hA hB hx hy h4' hbi hN).execOn]
  congr 1
  refine applyA_rect hC hc fun i hi j hj => ?_
  exact blocked_cell (F := fun r k => a (x + r) k) (G := fun r k => b (y + r) k) h4' hbi hN hi hj _

/-- **C07**, exact arithmetic: `C` becomes old `C` plus the block of `A · Btᵀ`. -/
theorem C07_kernel_blocked_exact {R : Type} [Semiring R] (A Bt C : Array R) (N x y br bi : Nat)
    (a b c : Nat → Nat → R) (hA : Holds A N N a) (hB : Holds Bt N N b) (hC : C.size = br * br)
    (hc : Holds C br br c) (hx : x + br ≤ N) (hy : y + br ≤ N) (h4 : 4 ∣ br) (hbi : 0 < bi)
    (hdvd : bi ∣ N) :
    @Act.execOn R _ (exact R) (@kernel_transposed_blocked R (exact R) A Bt C.size N x y br bi) C =
      .ok (rect br br fun i j =>
        c i j + ∑ k ∈ Finset.range N, a (x + i) k * b (y + j) k) := by
  rw [@C07_kernel_blocked R (exact R) A Bt C N x y br bi a b c hA hB hC hc hx hy h4 hbi hdvd]
  congr; funext i j
  rw [bdotFrom_exact, Nat.div_mul_cancel hdvd]

/-- **C08.** If `block_result` is not a multiple of 4, the blocked kernel accesses memory
out of bounds. -/
theorem C08_blocked_oob_result (A Bt C : Array α) (N x y br bi : Nat) (hN : 0 < N)
    (hbi : 0 < bi) (h4 : ¬ 4 ∣ br) :
    (kernel_transposed_blocked A Bt C.size N x y br bi).execOn C = .error .oob := by
  have h4' : br % 4 ≠ 0 := fun h => h4 (Nat.dvd_of_mod_eq_zero h)
  have := blocked_stuck (A := A) (B := Bt) (nC := C.size) (N := N) (x := x) (y := y) (br := br)
    (kb := 0) hbi ((mem_steps hbi).2 ⟨0, by omega, hN⟩) (fun s hs => by
      refine Act.All.bind (P' := fun As => As.size = br * bi)
        (Act.All.ofM (fun r hr => (loadSmall_size.1 r hr).trans hs.1)
          fun e he => loadSmall_size.2 e he) fun As hAs => ?_
      refine Act.All.bind (P' := fun _ => True)
        (Act.All.ofM (fun _ _ => trivial) fun e he => loadSmall_size.2 e he) fun Bs _ => ?_
      exact Act.All.bind (multSmall_stuck hAs hbi h4') fun _ h => h.elim)
  obtain ⟨e, he, h⟩ := this.execOn_error C
  rw [h, he]

/-- **C08.** If `block_input` does not divide `N` and the block touches the last row of `A`,
the blocked kernel accesses memory out of bounds. -/
theorem C08_blocked_oob_input (A Bt C : Array α) (N x y br bi : Nat) (hA : A.size = N * N)
    (hbi : 0 < bi) (hbr : 0 < br) (hx : x + br = N) (hnd : ¬ bi ∣ N) :
    (kernel_transposed_blocked A Bt C.size N x y br bi).execOn C = .error .oob := by
  have hmod : N % bi ≠ 0 := fun h => hnd (Nat.dvd_of_mod_eq_zero h)
  have hdm := Nat.div_add_mod N bi
  have hlt := Nat.mod_lt N hbi
  rw [Nat.mul_comm] at hdm
  have := blocked_stuck (A := A) (B := Bt) (nC := C.size) (N := N) (x := x) (y := y) (br := br)
    (kb := N / bi * bi) hbi ((mem_steps hbi).2 ⟨N / bi, by omega, by omega⟩) (fun s hs => by
      refine Act.All.bind (P' := fun _ => False)
        (Act.All.ofM (fun r hr => ?_) fun e he => loadSmall_size.2 e he) fun _ h => h.elim
      refine loadSmall_not_ok (i := br - 1) (k := N % bi) (by omega) hlt ?_ r hr
      rw [hA]
      have h1 : x + (br - 1) = N - 1 := by omega
      have h2 : (N - 1) * N + N = N * N := by rw [← Nat.succ_mul]; congr 1; omega
      rw [h1]
      omega)
  obtain ⟨e, he, h⟩ := this.execOn_error C
  rw [h, he]

/-- The accumulation order used by `calculate_submatrix` for one entry: plain, or block-wise
if the blocked kernel is selected. -/
def submatrixEntry (N : Nat) (a b : Nat → Nat → α) (transposed : Bool) (bi s i j : Nat) : α :=
  if transposed = false then dot N (a i) (fun k => b k j)
  else if bi = 0 ∨ s < 4 then dot N (a i) (b j)
  else bdot bi (N / bi) (a i) (b j)

/-- In exact arithmetic every order gives the entry of `A · B` resp. `A · Bᵀ`. -/
theorem submatrixEntry_exact {R : Type} [Semiring R] (N : Nat) (a b : Nat → Nat → R)
    (transposed : Bool) (bi s i j : Nat) (h : transposed = true → bi ≠ 0 → 4 ≤ s → bi ∣ N) :
    @submatrixEntry R (exact R) N a b transposed bi s i j =
      ∑ k ∈ Finset.range N, a i k * (if transposed then b j k else b k j) := by
  unfold submatrixEntry
  cases transposed with
  | false => simp only [if_true]; exact dot_exact N _ _
  | true =>
    simp only [Bool.true_eq_false, if_false, if_true]
    split
    · exact dot_exact N _ _
    · rename_i hn
      have := h rfl (fun h => hn (.inl h)) (by omega)
      rw [bdot_exact, Nat.div_mul_cancel this]

/-- **C09.** `calculate_submatrix` returns the block at `(x,y)` for every flag
combination. -/
theorem C09_calculate_submatrix (N : Nat) (A B : Array α) (a b : Nat → Nat → α)
    (transposed : Bool) (bi x y s : Nat) (hA : Holds A N N a) (hB : Holds B N N b)
    (hx : x + s ≤ N) (hy : y + s ≤ N)
    (hdiv : transposed = true → bi ≠ 0 → 4 ≤ s → 4 ∣ s ∧ bi ∣ N) :
    calculate_submatrix ⟨N, A, B, transposed, bi⟩ x y s =
      .ok (rect s s fun i j => submatrixEntry N a b transposed bi s (x + i) (y + j)) := by
  unfold calculate_submatrix
  cases transposed with
  | false =>
    simp only [Bool.not_false, if_true]
    exact C04_kernel A B (zeros (s * s)) N x y s a b hA hB (by simp) hx hy
  | true =>
    simp only [Bool.not_true, Bool.false_eq_true, if_false]
    split
    · rename_i h
      rw [C06_kernel_transposed A B (zeros (s * s)) N x y s a b hA hB (by simp) hx hy]
      simp only [submatrixEntry, Bool.true_eq_false, if_false, if_pos h]
    · rename_i h
      obtain ⟨h4, hd⟩ := hdiv rfl (fun h' => h (.inl h')) (by omega)
      rw [C07_kernel_blocked A B (zeros (s * s)) N x y s bi a b _ hA hB (by simp)
        (zeros_holds s s) hx hy h4 (by omega) hd]
      simp only [submatrixEntry, Bool.true_eq_false, if_false, if_neg h]
      rfl

/-- **C10.** Let `N = 2^e * s` where `s` is the size at which the repeated halving stops
(`s ≤ block_result`, every intermediate size `2^(d+1) * s` is larger than `block_result`).
Then under every schedule `single::matrix_multiply` returns the product. -/
theorem C10_single (N e s : Nat) (A B : Array α) (a b : Nat → Nat → α) (transposed : Bool)
    (br bi reps : Nat) (hA : Holds A N N a) (hB : Holds B N N b) (hN : N = 2 ^ e * s)
    (hs : s ≤ br) (he : ∀ d, d < e → br < 2 ^ (d + 1) * s)
    (hdiv : transposed = true → bi ≠ 0 → 4 ≤ s → 4 ∣ s ∧ bi ∣ N) (hr : 0 < reps) :
    single_matrix_multiply N A B transposed br bi reps =
      ND.pure (rowMajor N fun i j => submatrixEntry N a b transposed bi s i j) := by
  unfold single_matrix_multiply
  rw [nd_repeat _ _ _ hr]
  have := distribute_blocks (mult := calculate_submatrix ⟨N, A, B, transposed, bi⟩) (br := br)
    (s := s) (N := N) (G := submatrixEntry N a b transposed bi s) hs
    (fun x y hx hy => C09_calculate_submatrix N A B a b transposed bi x y s hA hB hx hy hdiv)
    e he 0 0 (by omega) (by omega)
  rw [← hN] at this
  simp only [Nat.zero_add] at this
  exact this

/-- **C10** for powers of two (the case advertised by the help text), exact arithmetic:
any `block_result ≥ 1`, blocking of the input disabled or dividing `N`. -/
theorem C10_single_pow2_exact {R : Type} [Semiring R] (e : Nat) (A B : Array R)
    (a b : Nat → Nat → R) (transposed : Bool) (br bi reps : Nat) (hA : Holds A (2 ^ e) (2 ^ e) a)
    (hB : Holds B (2 ^ e) (2 ^ e) b) (hbr : 1 ≤ br) (hdiv : bi = 0 ∨ bi ∣ 2 ^ e) (hr : 0 < reps) :
    @single_matrix_multiply R (exact R) (2 ^ e) A B transposed br bi reps =
      ND.pure (rowMajor (2 ^ e) fun i j =>
        ∑ k ∈ Finset.range (2 ^ e), a i k * (if transposed then b j k else b k j)) := by
  -- the size at which the halving stops
  have hex : ∃ d, d ≤ e ∧ 2 ^ d ≤ br ∧ (∀ t, t < e - d → br < 2 ^ (t + 1) * 2 ^ d) := by
    induction e with
    | zero => exact ⟨0, by omega, by simpa using hbr, fun t ht => by omega⟩
    | succ e ih =>
      by_cases h : 2 ^ (e + 1) ≤ br
      · exact ⟨e + 1, by omega, h, fun t ht => by omega⟩
      · obtain ⟨d, h1, h2, h3⟩ : ∃ d, d ≤ e ∧ 2 ^ d ≤ br ∧
            (∀ t, t < e - d → br < 2 ^ (t + 1) * 2 ^ d) := by
          clear hA hB hdiv ih
          induction e with
          | zero => exact ⟨0, by omega, by simpa using hbr, fun t ht => by omega⟩
          | succ e ih =>
            by_cases h' : 2 ^ (e + 1) ≤ br
            · exact ⟨e + 1, by omega, h', fun t ht => by omega⟩
            · obtain ⟨d, h1, h2, h3⟩ := ih h'
              refine ⟨d, by omega, h2, fun t ht => ?_⟩
              by_cases ht' : t < e - d
              · exact h3 t ht'
              · have : t + 1 + d = e + 1 := by omega
                rw [← Nat.pow_add, this]; omega
        refine ⟨d, by omega, h2, fun t ht => ?_⟩
        by_cases ht' : t < e - d
        · exact h3 t ht'
        · have : t + 1 + d = e + 1 := by omega
          rw [← Nat.pow_add, this]; omega
  obtain ⟨d, hd, hs, hstop⟩ := hex
  have hdiv' : transposed = true → bi ≠ 0 → 4 ≤ 2 ^ d → 4 ∣ 2 ^ d ∧ bi ∣ 2 ^ e := by
    intro _ hbi h4
    refine ⟨?_, hdiv.resolve_left hbi⟩
    have h2d : 2 ≤ d := by
      apply Classical.byContradiction; intro hn
      have : d = 0 ∨ d = 1 := by omega
      rcases this with rfl | rfl <;> simp at h4
    exact ⟨2 ^ (d - 2), by
      rw [show (4 : Nat) = 2 ^ 2 by rfl, ← Nat.pow_add]; congr 1; omega⟩
  rw [@C10_single R (exact R) (2 ^ e) (e - d) (2 ^ d) A B a b transposed br bi reps hA hB
    (by rw [← Nat.pow_add]; congr 1; omega) hs hstop hdiv' hr]
  congr; funext i j
  exact submatrixEntry_exact (2 ^ e) a b transposed bi (2 ^ d) i j
    fun h1 h2 h3 => (hdiv' h1 h2 h3).2

/-- **C11.** The recursion has an outcome for all parameters (also `block_result = 0`), and a
normal result always has `blockSize²` elements. -/
theorem C11_distribute_terminates (s : Multiplier α) (br x y bs : Nat) :
    (∃ o, distribute_recursively (calculate_submatrix s) br x y bs o) ∧
    ∀ C, distribute_recursively (calculate_submatrix s) br x y bs (.ok C) → C.size = bs * bs :=
  ⟨distribute_exists _ _ _ _ _, fun C h => distribute_size (fun _ _ _ _ h => calculate_size h) _ _ _ C h⟩

/-- **C12.** `block_result = 0` yields the zero matrix, for all inputs. -/
theorem C12_block_result_zero (N : Nat) (A B : Array α) (transposed : Bool) (bi reps : Nat) :
    single_matrix_multiply N A B transposed 0 bi reps = ND.pure (rowMajor N fun _ _ => Arith.zero) := by
  have hz : (zeros (N * N) : Array α) = rowMajor N fun _ _ => Arith.zero :=
    eq_rect (by simp) (zeros_holds N N)
  rw [← hz]
  unfold single_matrix_multiply
  rcases Nat.eq_zero_or_pos reps with rfl | hr
  · exact forStep_nil (Nat.le_refl _) _ _
  · rw [nd_repeat _ _ _ hr]
    exact distribute_zero (fun x y => calculate_empty _ x y) N 0 0

/-- **C13.** For odd `N > block_result` the last entry of every normal result is 0. -/
theorem C13_odd_loses_last (N : Nat) (A B C : Array α) (transposed : Bool) (br bi reps : Nat)
    (hodd : N % 2 = 1) (hbr : br < N)
    (h : single_matrix_multiply N A B transposed br bi reps (.ok C)) :
    C[N * N - 1]? = some Arith.zero := by
  unfold single_matrix_multiply at h
  rcases Nat.eq_zero_or_pos reps with rfl | hr
  · rw [forStep_nil (Nat.le_refl _)] at h
    cases h
    have : 0 < N * N := Nat.mul_pos (by omega) (by omega)
    rw [zeros, Array.getElem?_replicate, if_pos (by omega)]
  · rw [nd_repeat _ _ _ hr] at h
    exact distribute_odd hbr hodd (fun _ _ _ _ h => calculate_size h) h

/-- **C14.** Repeating the multiplication does not change the set of outcomes; zero
repetitions give the zero matrix. -/
theorem C14_repetitions (N : Nat) (A B : Array α) (transposed : Bool) (br bi reps : Nat) :
    single_matrix_multiply N A B transposed br bi (reps + 1) =
      single_matrix_multiply N A B transposed br bi 1 ∧
    single_matrix_multiply N A B transposed br bi 0 =
      ND.pure (rowMajor N fun _ _ => Arith.zero) := by
  constructor
  · unfold single_matrix_multiply
    rw [nd_repeat _ _ _ (Nat.succ_pos _), nd_repeat _ _ _ Nat.one_pos]
  · have hz : (zeros (N * N) : Array α) = rowMajor N fun _ _ => Arith.zero :=
      eq_rect (by simp) (zeros_holds N N)
    rw [← hz]
    exact forStep_nil (Nat.le_refl _) _ _

/-! ### Non-vacuity -/
section Examples
attribute [local instance] exact

-- C04/C06: a 2×2 block at (1,0) of a 3×3 product
example : (kernel (rect 3 3 fun i j => i + j) (rect 3 3 fun i j => i * j) 4 3 1 0 2).execOn
    #[9, 9, 9, 9] = .ok (rect 2 2 fun i j => dot 3 (fun k => 1 + i + k) (fun k => k * (0 + j))) :=
  C04_kernel _ _ #[9, 9, 9, 9] 3 1 0 2 _ _ (holds_rect 3 3 _) (holds_rect 3 3 _) rfl
    (by omega) (by omega)

-- C07: N = 8, block_result = 4, block_input = 2, block at (4,0)
example : (kernel_transposed_blocked (rect 8 8 fun i j => i + j) (rect 8 8 fun i j => i * j)
    (rect 4 4 fun _ _ => 1).size 8 4 0 4 2).execOn (rect 4 4 fun _ _ => 1) =
    .ok (rect 4 4 fun i j => bdotFrom 1 2 4 (fun k => 4 + i + k) (fun k => (0 + j) * k)) :=
  C07_kernel_blocked _ _ (rect 4 4 fun _ _ => 1) 8 4 0 4 2 _ _ _ (holds_rect 8 8 _)
    (holds_rect 8 8 _) (rect_size ..) (holds_rect 4 4 _) (by omega) (by omega) ⟨1, rfl⟩ (by omega) ⟨4, rfl⟩

-- C08: N = 5, block_input = 2
example : (kernel_transposed_blocked (rect 5 5 fun i j => i + j) (rect 5 5 fun i j => i * j)
    (rect 4 4 fun _ _ => 1).size 5 1 0 4 2).execOn (rect 4 4 fun _ _ => 1) = .error .oob :=
  C08_blocked_oob_input _ _ (rect 4 4 fun _ _ => 1) 5 1 0 4 2 (rect_size ..) (by omega) (by omega) rfl
    (by decide)

-- C10: N = 16 = 2^2 * 4, block_result = 5, block_input = 8, transposed
example : single_matrix_multiply 16 (rect 16 16 fun i j => i + j) (rect 16 16 fun i j => i * j)
    true 5 8 3 = ND.pure (rowMajor 16 fun i j =>
      submatrixEntry 16 (fun i j => i + j) (fun i j => i * j) true 8 4 i j) :=
  C10_single 16 2 4 _ _ _ _ true 5 8 3 (holds_rect 16 16 _) (holds_rect 16 16 _) rfl (by omega)
    (fun d hd => by have : d = 0 ∨ d = 1 := by omega
                    rcases this with rfl | rfl <;> decide)
    (fun _ _ _ => ⟨⟨1, rfl⟩, ⟨2, rfl⟩⟩) (by omega)

-- C12/C13 are wrong results: the product of two all-ones matrices has no zero entry
example : ND.pure (rowMajor 3 fun _ _ => (0 : Nat)) ≠
    ND.pure (rowMajor 3 (mulSpec 3 (fun _ _ => 1) (fun _ _ => 1))) := by
  intro h
  have := congrFun h (.ok (rowMajor 3 fun _ _ => (0 : Nat)))
  have h2 : ND.pure (rowMajor 3 fun _ _ => (0 : Nat)) (.ok (rowMajor 3 fun _ _ => 0)) := rfl
  rw [this] at h2
  cases h2
end Examples

end Verif.Props
