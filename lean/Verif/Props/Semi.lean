import Verif.Proof.Semi
import Verif.Props.Exact
/-
Algorithm `semi`: properties C32 and C33.
-/
namespace Verif.Props
open Verif.Semi IndexIterator
variable {α : Type} [Arith α]

private theorem new_two : Policy.new 2 = .ok ⟨2, [([1, 1], [false, false])]⟩ := rfl

/-- The policy of `semi` has one level and no parallel dimensions. -/
theorem semi_policy (bi : Nat) :
    Verif.Semi.policy bi = .ok ⟨3, [([4, 2, bi], [false, false, false])]⟩ := rfl

/-- After the copies, `semi` is the three-dimensional iteration and the copy of its result. -/
theorem semi_mm_eq {N : Nat} {A Bt : Array α} {a b : Nat → Nat → α} (hA : Holds A N N a)
    (hB : Holds Bt N N b) (bi : Nat) :
    matrix_multiply N A Bt bi =
      (ND.runOn (zeros (N * N)) (tree N (rowMajor N a) (rowMajor N b) bi
        ⟨3, [([4, 2, bi], [false, false, false])]⟩)).bind
        (copy N ⟨2, [([1, 1], [false, false])]⟩) := by
  unfold matrix_multiply
  rw [new_two, semi_policy]
  rw [ND.ofM_ok, ND.ofM_ok, ND.pure_bind', copy_ok hA, copy_ok hB]
  refine (ND.pure_bind _ _).trans ?_
  refine (ND.pure_bind _ _).trans ?_
  exact ND.pure_bind _ _

/-- **C32.** If 4 and `block_input` divide `N`, `semi` multiplies `A` with the transpose of `Bt`,
accumulating blocks of `block_input` products; it has no other outcome. -/
theorem C32_semi (N : Nat) (A Bt : Array α) (a b : Nat → Nat → α) (hA : Holds A N N a)
    (hB : Holds Bt N N b) (bi : Nat) (h4 : 4 ∣ N) (hbi : 0 < bi) (hd : bi ∣ N) :
    matrix_multiply N A Bt bi =
      ND.pure (rowMajor N fun i j => bdot bi (N / bi) (a i) (b j)) := by
  rw [semi_mm_eq hA hB, tree_result (holds_rect _ _ _) (holds_rect _ _ _) h4 hbi hd]
  exact (ND.pure_bind _ _).trans (copy_ok (holds_rect _ _ _))

/-- **C32**, exact arithmetic. -/
theorem C32_semi_exact {R : Type} [Semiring R] (N : Nat) (A Bt : Array R) (a b : Nat → Nat → R)
    (hA : Holds A N N a) (hB : Holds Bt N N b) (bi : Nat) (h4 : 4 ∣ N) (hbi : 0 < bi)
    (hd : bi ∣ N) :
    @matrix_multiply R (exact R) N A Bt bi =
      ND.pure (rowMajor N fun i j => ∑ k ∈ Finset.range N, a i k * b j k) := by
  rw [@C32_semi R (exact R) N A Bt a b hA hB bi h4 hbi hd]
  congr; funext i j
  rw [bdot_exact, Nat.div_mul_cancel hd]

omit [Arith α] in
private theorem error_bind {x : ND (Array α)} {f : Array α → ND (Array α)} {e : Err}
    (h : ∀ o, x o ↔ o = .error e) (o : Except Err (Array α)) : x.bind f o ↔ o = .error e := by
  constructor
  · rintro (⟨e', ho, rfl⟩ | ⟨r, ho, _⟩)
    · exact (h _).1 ho ▸ rfl
    · cases (h _).1 ho
  · rintro rfl
    exact .inl ⟨e, (h _).2 rfl, rfl⟩

/-- **C33.** If 4 or `block_input > 0` does not divide `N > 0`, `semi` accesses memory out of
bounds; there is no other outcome. -/
theorem C33_oob (N : Nat) (A Bt : Array α) (a b : Nat → Nat → α) (hA : Holds A N N a)
    (hB : Holds Bt N N b) (bi : Nat) (hN : 0 < N) (hbi : 0 < bi) (h : ¬ (4 ∣ N ∧ bi ∣ N))
    (o : Except Err (Array α)) : matrix_multiply N A Bt bi o ↔ o = .error .oob := by
  rw [semi_mm_eq hA hB]
  refine error_bind (fun o => ?_) o
  obtain ⟨hg, _, hm⟩ := loop_nest_spec (R := fun _ _ => False) (dim := 3) (mn := [0, 0, 0])
    (mx := [N, N, N]) (st := [4, 2, bi]) (steps_pos bi hbi) rfl rfl
  have hstuck : (tree N (rowMajor N a) (rowMajor N b) bi
      ⟨3, [([4, 2, bi], [false, false, false])]⟩).Stuck := by
    rw [tree_eq]
    by_cases h4 : 4 ∣ N
    · have hnd : ¬ bi ∣ N := fun hd => h ⟨h4, hd⟩
      have hlt : (N - 1) / bi * bi < N :=
        Nat.lt_of_le_of_lt (Nat.div_mul_le_self _ _) (by omega)
      refine stuck_of_leaf (i := [N - 4, 0, (N - 1) / bi * bi])
        ((hm _).2 (onGrid_three.2 ⟨rfl, ⟨(N - 4) / 4, by simp; omega, by simp; omega⟩,
          ⟨0, rfl, hN⟩, ⟨_, rfl, hlt⟩⟩)) ?_
      have hle : N ≤ (N - 1) / bi * bi + bi := by
        have := Nat.lt_div_mul_add hbi (a := N - 1)
        omega
      have hne : N ≠ (N - 1) / bi * bi + bi := fun he =>
        hnd ⟨(N - 1) / bi + 1, by rw [Nat.mul_comm, Nat.add_mul, Nat.one_mul]; exact he⟩
      refine body_noRet (l := N - (N - 1) / bi * bi) (by omega) ?_
      have e : N - 4 + 3 + 1 = N := by obtain ⟨q, hq⟩ := h4; omega
      simp only [rect_size, List.getD_cons_zero, List.getD_cons_succ]
      rw [Nat.add_assoc, Nat.add_sub_cancel' (Nat.le_of_lt hlt)]
      calc N * N = (N - 4 + 3 + 1) * N := by rw [e]
        _ = (N - 4 + 3) * N + N := by rw [Nat.add_mul, Nat.one_mul]
        _ ≤ _ := Nat.le_refl _
    · refine stuck_of_leaf (i := [N / 4 * 4, 0, 0])
        ((hm _).2 (onGrid_three.2 ⟨rfl, ⟨N / 4, rfl, by simp; omega⟩, ⟨0, rfl, hN⟩,
          ⟨0, by simp, hN⟩⟩)) ?_
      refine body_noRet (l := 0) hbi ?_
      simp only [rect_size, List.getD_cons_zero, List.getD_cons_succ, Nat.add_zero]
      exact Nat.mul_le_mul_right N (by omega)
  have herrs : (tree N (rowMajor N a) (rowMajor N b) bi
      ⟨3, [([4, 2, bi], [false, false, false])]⟩).Errs (fun e => e = .oob) := by
    rw [tree_eq]
    exact hg.errs fun p _ => body_errs N _ _ bi p
  have hall : ∀ o, ND.runOn (zeros (N * N)) (tree N (rowMajor N a) (rowMajor N b) bi
      ⟨3, [([4, 2, bi], [false, false, false])]⟩) o → o = .error .oob := by
    intro o ho
    cases o with
    | ok C => exact absurd ho (runOn_stuck hstuck)
    | error e => rw [runOn_error herrs ho]
  refine ⟨hall o, ?_⟩
  rintro rfl
  obtain ⟨o, ho⟩ := runOn_exists (zeros (N * N)) (tree N (rowMajor N a) (rowMajor N b) bi
      ⟨3, [([4, 2, bi], [false, false, false])]⟩)
  exact hall o ho ▸ ho

/-- **C33.** With `block_input = 0` and `N ≥ 4`, `semi` does not terminate; for smaller `N > 0`
it accesses memory out of bounds. -/
theorem C33_zero_block (N : Nat) (A Bt : Array α) (a b : Nat → Nat → α) (hA : Holds A N N a)
    (hB : Holds Bt N N b) (hN : 0 < N) (o : Except Err (Array α)) :
    matrix_multiply N A Bt 0 o ↔ o = .error (if 4 ≤ N then .diverge else .oob) := by
  rw [semi_mm_eq hA hB]
  refine error_bind (fun o => ?_) o
  have htree : ∃ ts us, tree N (rowMajor N a) (rowMajor N b) 0
      ⟨3, [([4, 2, 0], [false, false, false])]⟩ =
      .seq (.seq (.seq [.act (body N (rowMajor N a) (rowMajor N b) 0 [0, 0, 0]),
        .act (.fail .diverge)] :: ts) :: us) := by
    rw [tree_eq, loop_nest, execute_looped, if_neg (by simp), if_neg (by simp)]
    simp only [List.getD_cons_zero]
    rw [steps_cons hN (by decide), List.map_cons, toTree_seq, List.map_cons, execute_looped,
      if_neg (by simp), if_neg (by simp)]
    simp only [List.getD_cons_zero, List.getD_cons_succ]
    rw [steps_cons hN (by decide), List.map_cons, toTree_seq, List.map_cons, execute_looped,
      if_neg (by simp), if_pos (by simpa using hN)]
    simp only [List.getD_cons_zero, List.getD_cons_succ]
    rw [toTree_seq, List.map_cons, List.map_cons, execute_looped, Calls.toTree, Calls.toTree]
    exact ⟨_, _, rfl⟩
  have hall : ∀ o, ND.runOn (zeros (N * N)) (tree N (rowMajor N a) (rowMajor N b) 0
      ⟨3, [([4, 2, 0], [false, false, false])]⟩) o →
      o = .error (if 4 ≤ N then .diverge else .oob) := by
    intro o ho
    obtain ⟨ts, us, ht⟩ := htree
    rw [ht] at ho
    have hf : (Tree.seq (.seq (.seq [.act (body N (rowMajor N a) (rowMajor N b) 0 [0, 0, 0]),
        .act (.fail .diverge)] :: ts) :: us)).Fails
        (fun e => e = if 4 ≤ N then .diverge else .oob) := by
      refine .head (.head ?_)
      by_cases h4 : 4 ≤ N
      · rw [if_pos h4]
        refine .tail (.act ?_) (.head (.act rfl))
        exact body_zero_all h4 _
      · rw [if_neg h4]
        exact .head (.act (body_zero_oob (by omega)))
    obtain ⟨e, he, rfl⟩ := hf.runOn ho
    rw [he]
  refine ⟨hall o, ?_⟩
  rintro rfl
  obtain ⟨o, ho⟩ := runOn_exists (zeros (N * N)) (tree N (rowMajor N a) (rowMajor N b) 0
      ⟨3, [([4, 2, 0], [false, false, false])]⟩)
  exact hall o ho ▸ ho

section Examples
attribute [local instance] exact

/-- Hypotheses of C32 and C33. -/
example : Semi.matrix_multiply 4 (rowMajor 4 fun i j => i + 2 * j) (rowMajor 4 fun i j => i * j) 2 =
    ND.pure (rowMajor 4 fun i j => ∑ k ∈ Finset.range 4, (i + 2 * k) * (j * k)) :=
  C32_semi_exact 4 _ _ _ _ (holds_rect _ _ _) (holds_rect _ _ _) 2 (by decide) (by decide)
    (by decide)
example (o) : Semi.matrix_multiply 2 (rowMajor 2 fun i j => i + j) (rowMajor 2 fun i j => i * j) 1 o
    ↔ o = .error .oob :=
  C33_oob 2 _ _ _ _ (holds_rect _ _ _) (holds_rect _ _ _) 1 (by decide) (by decide) (by decide) o
example (o) : Semi.matrix_multiply 4 (rowMajor 4 fun i j => i + j) (rowMajor 4 fun i j => i * j) 3 o
    ↔ o = .error .oob :=
  C33_oob 4 _ _ _ _ (holds_rect _ _ _) (holds_rect _ _ _) 3 (by decide) (by decide) (by decide) o
example (o) : Semi.matrix_multiply 5 (rowMajor 5 fun i j => i + j) (rowMajor 5 fun i j => i * j) 0 o
    ↔ o = .error .diverge :=
  C33_zero_block 5 _ _ _ _ (holds_rect _ _ _) (holds_rect _ _ _) (by decide) o

end Examples
end Verif.Props
