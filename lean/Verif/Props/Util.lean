import Verif.Proof.Util
import Verif.SpecText
import Verif.Props.Exact
/-
src/util: properties C48 (transposition), C49 (generated matrices) and C57 (printing).
-/
namespace Verif.Props
open Verif.Util
variable {α : Type}

/-! ### C48 -/

section
variable [Arith α]

/-- **C48.** The square overload returns the transposed matrix. -/
theorem C48_transpose (N : Nat) (org : Array α) (f : Nat → Nat → α) (h : Holds org N N f) :
    transpose_matrix N org = .ok (rowMajor N fun i j => f j i) := transpose_ok h

/-- **C48.** The overload with two strides transposes a `stride_result × stride_org` matrix. -/
theorem C48_transpose_rect (so sr : Nat) (org : Array α) (f : Nat → Nat → α)
    (h : Holds org sr so f) : transpose_rect so sr org = .ok (rect so sr fun i j => f j i) :=
  transpose_ok h

/-- **C48.** Transposing twice gives the original vector. -/
theorem C48_involution (N : Nat) (org : Array α) (h : org.size = N * N) :
    (transpose_matrix N org >>= transpose_matrix N) = .ok org := by
  have h1 := vec_holds (v := org) (Nat.le_of_eq h.symm)
  rw [C48_transpose N org _ h1, M_bind_ok, C48_transpose N _ _ (holds_rect _ _ _),
    rowMajor, ← eq_rect h h1]

/-- **C48.** … and so does the rectangular overload with exchanged strides. -/
theorem C48_involution_rect (so sr : Nat) (org : Array α) (h : org.size = sr * so) :
    (transpose_rect so sr org >>= transpose_rect sr so) = .ok org := by
  have h1 := vec_holds (v := org) (Nat.le_of_eq h.symm)
  rw [C48_transpose_rect so sr org _ h1, M_bind_ok, C48_transpose_rect sr so _ _ (holds_rect _ _ _),
    ← eq_rect h h1]

/-- **C48.** With a shorter vector both overloads read out of bounds. -/
theorem C48_short (so sr N : Nat) (org : Array α) :
    (org.size < N * N → transpose_matrix N org = .error .oob) ∧
      (org.size < sr * so → transpose_rect so sr org = .error .oob) :=
  ⟨fun h => transpose_short (so := N) (sr := N) h, transpose_short⟩

/-! ### C49 -/

/-- **C49.** `create_identity_matrix` returns the identity matrix. -/
theorem C49_identity (one : α) (N : Nat) : create_identity_matrix one N =
    .ok (rowMajor N fun i j => if i = j then one else Arith.zero) := identity_ok one N

/-- **C49.** `create_enumerating_matrix` returns the numbers `0 … N * N - 1` in row-major order. -/
theorem C49_enumerating (cast : Nat → α) (N : Nat) : create_enumerating_matrix cast N =
    .ok (rowMajor N fun i j => cast (i * N + j)) := by
  refine (generate_ok cast (N * N)).trans (congrArg Except.ok (eq_rect (by simp) ?_))
  intro i hi j hj
  simp [idx_lt hi hj]

/-- **C49.** `create_random_matrix` returns the first `N * N` numbers of the generator. -/
theorem C49_random (myRand : Nat → α) (N : Nat) : create_random_matrix myRand N =
    .ok (rowMajor N fun i j => myRand (i * N + j)) := C49_enumerating myRand N

end

/-- **C49.** The identity matrix is neutral for multiplication from either side. -/
theorem C49_neutral {R : Type} [Semiring R] (N : Nat) (f : Nat → Nat → R) (i j : Nat) (hi : i < N)
    (hj : j < N) :
    matProd N f (fun i j => if i = j then 1 else 0) i j = f i j ∧
      matProd N (fun i j => if i = j then 1 else 0) f i j = f i j := by
  constructor
  · unfold matProd
    rw [Finset.sum_eq_single j]
    · simp
    · intro k _ hk
      simp [hk]
    · exact fun h => absurd (Finset.mem_range.2 hj) h
  · unfold matProd
    rw [Finset.sum_eq_single i]
    · simp
    · intro k _ hk
      simp [Ne.symm hk]
    · exact fun h => absurd (Finset.mem_range.2 hi) h

/-! ### C57 -/

theorem printLoops_emits {rows cols : Nat} {idx : Nat → Nat → Nat} {m : Array α} {f : Nat → Nat → α}
    (h : ∀ i, i < rows → ∀ j, j < cols → m[idx i j]? = some (f i j)) :
    Emits (printLoops rows cols idx m) (matrixText rows cols f) := by
  refine .forStep fun i hi => .bind ?_ (.emit _)
  rw [← row_text]
  exact .forStep fun j hj => (Emits.sepIf j).bind (.at (h i hi j hj) (.emit _))

theorem out_of_emits {p : Print α Unit} {o : List (Tok α)} (h : Emits p o) : p.out = (.ok (), o) :=
  h []

/-- **C57.** `print_matrix(N, m)` prints the matrix. -/
theorem C57_print (N : Nat) (m : Array α) (f : Nat → Nat → α) (h : Holds m N N f) :
    (print_matrix N m).out = (.ok (), matrixText N N f) := out_of_emits (printLoops_emits h)

/-- **C57.** `print_matrix_host(rows, cols, m)` prints a rectangular matrix. -/
theorem C57_print_host_rect (rows cols : Nat) (m : Array α) (f : Nat → Nat → α)
    (h : Holds m rows cols f) :
    (print_matrix_host_rect rows cols m).out = (.ok (), matrixText rows cols f) :=
  out_of_emits (printLoops_emits h)

/-- **C57.** `print_matrix_transposed(N, m)` prints the transposed matrix. -/
theorem C57_print_transposed (N : Nat) (m : Array α) (f : Nat → Nat → α) (h : Holds m N N f) :
    (print_matrix_transposed N m).out = (.ok (), matrixText N N fun i j => f j i) :=
  out_of_emits (printLoops_emits fun i hi j hj => h j hj i hi)

/-- **C57.** `print_matrix_transposed(N, M, m)` prints the transpose of an `M × N` matrix. -/
theorem C57_print_transposed_rect (N M : Nat) (m : Array α) (f : Nat → Nat → α)
    (h : Holds m M N f) :
    (print_matrix_transposed_rect N M m).out = (.ok (), matrixText N M fun i j => f j i) :=
  out_of_emits (printLoops_emits fun i hi j hj => h j hj i hi)

/-- **C57.** `print_matrix(N, M, m)` for an `N × M` matrix with more rows than columns raises
`std::out_of_range`. -/
theorem C57_print_rect_raises (N M : Nat) (m : Array α) (h : m.size = N * M) (hM : 1 ≤ M)
    (hN : M < N) : (print_matrix_rect N M m).out.1 = .error .outOfRange := by
  have elem : ∀ i j, EmitsOr (do
      sepIf j
      let x ← MonadExcept.ofExcept (rdAt m (i * N + j))
      emit (.elem x) : Print α Unit) .outOfRange := by
    intro i j
    refine .bind (.inl ⟨_, .sepIf j⟩) ?_
    cases hx : m[i * N + j]? with
    | none =>
      right
      rw [rdAt_err (by simpa using hx)]
      exact fun _ => rfl
    | some x => exact .inl ⟨_, .at hx (.emit _)⟩
  have row : ∀ i, EmitsOr (forStep 0 M 1 () fun j _ => (do
      sepIf j
      let x ← MonadExcept.ofExcept (rdAt m (i * N + j))
      emit (.elem x) : Print α Unit)) .outOfRange := by
    intro i
    rw [forStep_eq (by decide)]
    exact .foldlM fun j _ => elem i j
  have hbad : Raises (print_matrix_rect N M m) .outOfRange := by
    unfold print_matrix_rect printLoops
    rw [forStep_eq (by decide), steps_one]
    refine .foldlM (i0 := N - 1) (fun i _ => (row i).bind (.inl ⟨_, .emit _⟩))
      (List.mem_range.2 (by omega)) (.bind_left ?_)
    rw [forStep_eq (by decide), steps_one]
    refine .foldlM (i0 := M - 1) (fun j _ => elem _ j) (List.mem_range.2 (by omega)) ?_
    refine .bind_right (.sepIf _) ?_
    rw [rdAt_err]
    · exact fun _ => rfl
    · rw [h]
      show N * M ≤ (N - 1) * N + (M - 1)
      have e1 : (N - 1) * (M + 1) ≤ (N - 1) * N := Nat.mul_le_mul_left _ hN
      rw [Nat.mul_add, Nat.sub_mul N 1 M, Nat.mul_one, Nat.one_mul] at e1
      have : M ≤ N * M := Nat.le_mul_of_pos_left _ (by omega)
      omega
  exact hbad []

/-- **C57.** For which shapes `print_matrix(N, M, m)` prints every `N × M` matrix correctly. -/
theorem C57_print_rect_iff [Nontrivial α] (N M : Nat) :
    (∀ f : Nat → Nat → α, (print_matrix_rect N M (rect N M f)).out = (.ok (), matrixText N M f)) ↔
      N = M ∨ N ≤ 1 ∨ M = 0 := by
  constructor
  · intro h
    by_contra hn
    obtain ⟨x, y, hxy⟩ := exists_pair_ne α
    rcases Nat.lt_or_gt_of_ne (show N ≠ M by omega) with hlt | hgt
    · -- the last element is not printed
      have h1 := h fun i j => if i = N - 1 ∧ j = M - 1 then x else y
      have hidx : ∀ i, i < N → ∀ j, j < M → i * N + j < N * M - 1 := by
        intro i hi j hj
        have e1 : i * N ≤ (N - 1) * N := Nat.mul_le_mul_right _ (by omega)
        have e2 : (N - 1) * (N + 1) ≤ (N - 1) * M := Nat.mul_le_mul_left _ (by omega)
        rw [Nat.mul_add, Nat.sub_mul N 1 M, Nat.mul_one, Nat.one_mul] at e2
        have : M ≤ N * M := Nat.le_mul_of_pos_left _ (by omega)
        omega
      have hprint := out_of_emits (printLoops_emits (rows := N) (cols := M)
        (idx := fun i j => i * N + j)
        (m := rect N M fun i j => if i = N - 1 ∧ j = M - 1 then x else y) (f := fun _ _ => y)
        (by
          intro i hi j hj
          have hp := hidx i hi j hj
          have hM : 0 < M := by omega
          have e : (i * N + j) / M * M + (i * N + j) % M = i * N + j := Nat.div_add_mod' _ _
          have hd : (i * N + j) / M < N := Nat.div_lt_of_lt_mul (by rw [Nat.mul_comm M]; omega)
          have := holds_rect N M (fun i j => if i = N - 1 ∧ j = M - 1 then x else y) _ hd _
            (Nat.mod_lt (i * N + j) hM)
          rw [e] at this
          rw [this]
          refine congrArg some (if_neg ?_)
          rintro ⟨c1, c2⟩
          rw [c1, c2, Nat.sub_mul N 1 M, Nat.one_mul] at e
          have : M ≤ N * M := Nat.le_mul_of_pos_left _ (by omega)
          omega))
      have heq := congrArg Prod.snd (h1.symm.trans hprint)
      have hmem : Tok.elem x ∈ matrixText N M fun i j => if i = N - 1 ∧ j = M - 1 then x else y := by
        refine List.mem_flatMap.2 ⟨N - 1, List.mem_range.2 (by omega), List.mem_append_left _ ?_⟩
        rw [← row_text]
        refine List.mem_flatMap.2 ⟨M - 1, List.mem_range.2 (by omega), List.mem_append_right _ ?_⟩
        simp
      have heq : matrixText N M (fun i j => if i = N - 1 ∧ j = M - 1 then x else y) =
          matrixText N M fun _ _ => y := heq
      rw [heq] at hmem
      obtain ⟨i, _, hmem⟩ := List.mem_flatMap.1 hmem
      rcases List.mem_append.1 hmem with hmem | hmem
      · rw [← row_text] at hmem
        obtain ⟨j, _, hmem⟩ := List.mem_flatMap.1 hmem
        rcases List.mem_append.1 hmem with hmem | hmem
        · split at hmem <;> simp at hmem
        · simp at hmem
          exact hxy hmem
      · simp at hmem
    · have := C57_print_rect_raises N M (rect N M fun _ _ => x) (by simp) (by omega) hgt
      rw [h] at this
      cases this
  · intro hs f
    refine out_of_emits (printLoops_emits fun i hi j hj => ?_)
    have : i * N + j = i * M + j := by
      rcases hs with rfl | h | h
      · rfl
      · obtain rfl : i = 0 := by omega
        simp
      · omega
    rw [this]
    exact holds_rect _ _ _ i hi j hj

section Examples
attribute [local instance] exact

example : transpose_matrix 2 #[1, 2, 3, 4] = .ok #[1, 3, 2, 4] :=
  C48_transpose 2 _ (fun i j => 2 * i + j + 1) (holds_rect 2 2 fun i j => 2 * i + j + 1)

/-- a 2 × 3 matrix -/
example : transpose_rect 3 2 #[1, 2, 3, 4, 5, 6] = .ok #[1, 4, 2, 5, 3, 6] :=
  C48_transpose_rect 3 2 _ (fun i j => 3 * i + j + 1) (holds_rect 2 3 fun i j => 3 * i + j + 1)

example : (transpose_rect 3 2 #[1, 2, 3, 4, 5, 6] >>= transpose_rect 2 3) =
    .ok #[1, 2, 3, 4, 5, 6] := C48_involution_rect 3 2 _ rfl

example : transpose_matrix 2 #[1, 2, 3] = .error .oob := (C48_short 0 0 2 #[1, 2, 3]).1 (by decide)

example : create_identity_matrix 1 2 = .ok #[1, 0, 0, 1] := C49_identity 1 2
example : create_enumerating_matrix id 2 = .ok #[0, 1, 2, 3] := C49_enumerating id 2

example : (print_matrix 2 #[1, 2, 3, 4]).out =
    (.ok (), [.elem 1, .sep, .elem 2, .endl, .elem 3, .sep, .elem 4, .endl]) :=
  C57_print 2 _ (fun i j => 2 * i + j + 1) (holds_rect 2 2 fun i j => 2 * i + j + 1)

example : (print_matrix_transposed_rect 3 2 #[1, 2, 3, 4, 5, 6]).out =
    (.ok (), [.elem 1, .sep, .elem 4, .endl, .elem 2, .sep, .elem 5, .endl, .elem 3, .sep, .elem 6,
      .endl]) :=
  C57_print_transposed_rect 3 2 _ (fun i j => 3 * i + j + 1)
    (holds_rect 2 3 fun i j => 3 * i + j + 1)

example : (print_matrix_rect 3 2 #[1, 2, 3, 4, 5, 6]).out.1 = .error .outOfRange :=
  C57_print_rect_raises 3 2 _ rfl (by decide) (by decide)

example : ¬ ∀ f : Nat → Nat → Nat,
    (print_matrix_rect 2 3 (rect 2 3 f)).out = (.ok (), matrixText 2 3 f) := by
  rw [C57_print_rect_iff]
  decide

end Examples

end Verif.Props
