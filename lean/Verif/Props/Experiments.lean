import Verif.Proof.Experiments
import Verif.Props.Exact
import Mathlib.Tactic.Ring
/-
Properties C54–C56: the simple kernels of otherExperiments.
-/
namespace Verif.Props
open Verif.Experiments
variable {α : Type} [Arith α]

/-- **C54.** `multNaive` adds the products, in ascending order of the summation index, to what `C`
contained before; for every interleaving of the rows. -/
theorem C54_naive (n : Nat) (A B C : Array α) (a b c : Nat → Nat → α) (hA : Holds A n n a)
    (hB : Holds B n n b) (hC : Holds C n n c) (hs : C.size = n * n) :
    multNaive A B C n =
      ND.pure (rowMajor n fun i j => dotFrom (c i j) (List.range n) (a i) (fun k => b k j)) := by
  unfold multNaive
  rw [hs]
  refine ((naiveTree_does hA hB).runOn C).trans ?_
  rw [accUpd_result a (tr b) hs hC]
  rfl

/-- **C54**, exact arithmetic: `C += A · B`. -/
theorem C54_naive_exact {R : Type} [Semiring R] (n : Nat) (A B C : Array R) (a b c : Nat → Nat → R)
    (hA : Holds A n n a) (hB : Holds B n n b) (hC : Holds C n n c) (hs : C.size = n * n) :
    @multNaive R (exact R) A B C n =
      ND.pure (rowMajor n fun i j => c i j + ∑ k ∈ Finset.range n, a i k * b k j) := by
  rw [@C54_naive R (exact R) n A B C a b c hA hB hC hs]
  congr; funext i j
  rw [dotFrom_exact, list_sum_range]

/-- **C54.** A second run adds the product again, so the result of two runs on a zero matrix is
twice the product. -/
theorem C54_naive_twice {R : Type} [Semiring R] (n : Nat) (A B : Array R) (a b : Nat → Nat → R)
    (hA : Holds A n n a) (hB : Holds B n n b) :
    (do let C ← @multNaive R (exact R) A B (rowMajor n fun _ _ => 0) n
        @multNaive R (exact R) A B C n) =
      ND.pure (rowMajor n fun i j => 2 * ∑ k ∈ Finset.range n, a i k * b k j) := by
  rw [C54_naive_exact n A B _ a b _ hA hB (holds_rect _ _ _) (by simp)]
  refine (ND.pure_bind _ _).trans ?_
  rw [C54_naive_exact n A B _ a b _ hA hB (holds_rect _ _ _) (by simp)]
  congr; funext i j
  rw [zero_add, two_mul]

/-- **C54.** The rows of `multNaive` do not race. -/
theorem C54_naive_raceFree (n : Nat) (A B : Array α) (a b : Nat → Nat → α) (hA : Holds A n n a)
    (hB : Holds B n n b) (m : Mem α) : RaceFree m (naiveTree n A B (n * n)) :=
  (naiveTree_does hA hB).raceFree m

/-- **C54.** `multTransposed` does the same with the second matrix transposed. -/
theorem C54_transposed (n : Nat) (A B C : Array α) (a b c : Nat → Nat → α) (hA : Holds A n n a)
    (hB : Holds B n n b) (hC : Holds C n n c) (hs : C.size = n * n) :
    multTransposed A B C n =
      .ok (rowMajor n fun i j => dotFrom (c i j) (List.range n) (a i) (b j)) := by
  unfold multTransposed
  rw [hs]
  refine ((transposedLoops_does hA hB).execOn C).trans ?_
  rw [accUpd_result a b hs hC]

/-- **C54.** `multCounter` overwrites `C` with `A · Bᵀ`, whatever `C` contained. -/
theorem C54_counter (n : Nat) (A B C : Array α) (a b : Nat → Nat → α) (hA : Holds A n n a)
    (hB : Holds B n n b) (hs : C.size = n * n) :
    multCounter A B C n = ND.pure (rowMajor n fun i j => dot n (a i) (b j)) := by
  unfold multCounter
  rw [hs]
  refine ((counterTree_does hA hB).runOn C).trans ?_
  rw [steps_one, Kernel.block_result' _ hs]
  rfl

/-- **C54.** The rows of `multCounter` do not race. -/
theorem C54_counter_raceFree (n : Nat) (A B : Array α) (a b : Nat → Nat → α) (hA : Holds A n n a)
    (hB : Holds B n n b) (m : Mem α) : RaceFree m (counterTree n A B (n * n)) :=
  (counterTree_does hA hB).raceFree m

/-- **C54.** On a zero matrix the three kernels agree bit for bit. -/
theorem C54_agree (n : Nat) (A B Bt : Array α) (a b : Nat → Nat → α) (hA : Holds A n n a)
    (hB : Holds B n n b) (hBt : Holds Bt n n (fun i j => b j i)) :
    multNaive A B (zeros (n * n)) n = multCounter A Bt (zeros (n * n)) n ∧
      multCounter A Bt (zeros (n * n)) n = ND.ofM (multTransposed A Bt (zeros (n * n)) n) := by
  rw [C54_naive n A B _ a b _ hA hB (zeros_holds n n) (by simp),
    C54_counter n A Bt _ a _ hA hBt (by simp),
    C54_transposed n A Bt _ a _ _ hA hBt (zeros_holds n n) (by simp)]
  exact ⟨rfl, rfl⟩

/-- **C55.** For even `n` the 2 × 2 blocked kernel overwrites `C` with `A · Bᵀ`, every entry
accumulated in ascending order. -/
theorem C55_even (n : Nat) (hn : 2 ∣ n) (A B C : Array α) (a b : Nat → Nat → α)
    (hA : Holds A n n a) (hB : Holds B n n b) (hs : C.size = n * n) :
    multBlocked2 A B C n = ND.pure (rowMajor n fun i j => dot n (a i) (b j)) := by
  unfold multBlocked2
  rw [hs]
  refine ((blocked2Tree_does hn hA hB).runOn C).trans ?_
  rw [regUpd_result (by decide) hn (by decide) mem_pts2 _ hs]
  rfl

/-- **C55.** The block rows do not race for even `n`. -/
theorem C55_raceFree (n : Nat) (hn : 2 ∣ n) (A B : Array α) (a b : Nat → Nat → α)
    (hA : Holds A n n a) (hB : Holds B n n b) (m : Mem α) :
    RaceFree m (blocked2Tree n A B (n * n)) :=
  (blocked2Tree_does hn hA hB).raceFree m

/-- **C55.** For odd `n` every execution accesses memory out of bounds, unless `A` has room for a
further row. -/
theorem C55_odd (n : Nat) (hn : ¬ 2 ∣ n) (A B C : Array α) (hA : A.size < (n + 1) * n) :
    (multBlocked2 A B C n).All (fun _ => False) (· = .oob) :=
  ND.All.runOn_stuck (blocked2_errs n A B C.size) (blocked2_stuck hn hA C.size)

/-- **C56.** `multBlocked4` computes, for `n` a multiple of 4, only every fourth product. -/
theorem C56_result (n : Nat) (hn : 4 ∣ n) (A B C : Array α) (a b : Nat → Nat → α)
    (hA : Holds A n n a) (hB : Holds B n n b) (hs : C.size = n * n) :
    multBlocked4 A B C n = ND.pure (rowMajor n fun i j =>
      dot (n / 4) (fun t => a i (4 * t)) (fun t => b j (4 * t))) := by
  unfold multBlocked4
  rw [hs]
  refine ((blocked4Tree_does hn hA hB).runOn C).trans ?_
  rw [regUpd_result (by decide) hn (by decide) mem_pts4 _ hs]
  refine congrArg ND.pure (rect_congr fun i _ j _ => ?_)
  obtain ⟨m, rfl⟩ := hn
  unfold dotStep dot dotFrom
  rw [Nat.mul_comm, steps_mul m 4 (by decide), List.foldl_map, Nat.mul_div_cancel _ (by decide)]
  exact foldl_congr' (fun k _ s => by rw [Nat.mul_comm]) _

/-- **C56.** The result is the product exactly if, for every entry, the products left out sum up to
zero. -/
theorem C56_product_iff {R : Type} [Ring R] (n : Nat) (hn : 4 ∣ n) (A B C : Array R)
    (a b : Nat → Nat → R) (hA : Holds A n n a) (hB : Holds B n n b) (hs : C.size = n * n) :
    @multBlocked4 R (exact R) A B C n =
        ND.pure (rowMajor n fun i j => ∑ k ∈ Finset.range n, a i k * b j k) ↔
      ∀ i < n, ∀ j < n, ∑ k ∈ (Finset.range n).filter (fun k => ¬ 4 ∣ k), a i k * b j k = 0 := by
  rw [@C56_result R (exact R) n hn A B C a b hA hB hs]
  have key : ∀ i j, @dot R (exact R) (n / 4) (fun t => a i (4 * t)) (fun t => b j (4 * t)) =
      ∑ k ∈ (Finset.range n).filter (fun k => 4 ∣ k), a i k * b j k := by
    intro i j
    rw [dot_exact]
    refine Finset.sum_bij (fun t _ => 4 * t) ?_ ?_ ?_ (fun _ _ => rfl)
    · intro t ht
      have := Finset.mem_range.1 ht
      rw [Finset.mem_filter, Finset.mem_range]
      exact ⟨by omega, Nat.dvd_mul_right _ _⟩
    · intro t _ t' _ h
      exact Nat.eq_of_mul_eq_mul_left (by decide) h
    · intro k hk
      obtain ⟨h1, m, rfl⟩ := Finset.mem_filter.1 hk
      exact ⟨m, Finset.mem_range.2 (by have := Finset.mem_range.1 h1; omega), rfl⟩
  have split : ∀ i j, ∑ k ∈ Finset.range n, a i k * b j k =
      ∑ k ∈ (Finset.range n).filter (fun k => 4 ∣ k), a i k * b j k +
        ∑ k ∈ (Finset.range n).filter (fun k => ¬ 4 ∣ k), a i k * b j k :=
    fun i j => (Finset.sum_filter_add_sum_filter_not _ _ _).symm
  constructor
  · intro h i hi j hj
    have h1 : (rect n n fun i j => @dot R (exact R) (n / 4) (fun t => a i (4 * t))
        (fun t => b j (4 * t))) = rect n n fun i j => ∑ k ∈ Finset.range n, a i k * b j k := by
      have := congrFun h (.ok (rowMajor n fun i j => ∑ k ∈ Finset.range n, a i k * b j k))
      have := this.mpr rfl
      exact (Except.ok.inj this).symm
    have h2 := holds_rect n n (fun i j => @dot R (exact R) (n / 4) (fun t => a i (4 * t))
        (fun t => b j (4 * t))) i hi j hj
    rw [h1, holds_rect n n _ i hi j hj] at h2
    simp only [key, split i j] at h2
    have := Option.some.inj h2
    exact left_eq_add.1 this.symm
  · intro h
    refine congrArg ND.pure (rect_congr fun i hi j hj => ?_)
    rw [key, split, h i hi j hj, add_zero]

/-- **C56.** So for every `n` it is wrong for some input: there are matrices of any size for which
the result is not the product. -/
theorem C56_wrong (n : Nat) (hn : 4 ∣ n) (h0 : 0 < n) {R : Type} [Ring R] [Nontrivial R] :
    ∃ A B : Array R, ∀ C : Array R, C.size = n * n →
      ∃ a b, Holds A n n a ∧ Holds B n n b ∧ @multBlocked4 R (exact R) A B C n ≠
        ND.pure (rowMajor n fun i j => ∑ k ∈ Finset.range n, a i k * b j k) := by
  let e : Nat → Nat → R := fun _ k => if k = 1 then 1 else 0
  refine ⟨rowMajor n e, rowMajor n e, fun C hC => ⟨e, e, holds_rect _ _ _, holds_rect _ _ _, ?_⟩⟩
  intro h
  have := (C56_product_iff n hn _ _ C e e (holds_rect _ _ _) (holds_rect _ _ _) hC).1 h 0 h0 0 h0
  rw [Finset.sum_eq_single 1] at this
  · simp [e] at this
  · intro k _ hk; simp [e, hk]
  · intro hk
    exfalso
    refine hk (Finset.mem_filter.2 ⟨Finset.mem_range.2 ?_, by decide⟩)
    obtain ⟨m, rfl⟩ := hn
    omega

/-- **C56.** If 4 does not divide `n`, every execution accesses memory out of bounds. -/
theorem C56_oob (n : Nat) (hn : ¬ 4 ∣ n) (A B C : Array α) (hA : A.size ≤ n * n) :
    (multBlocked4 A B C n).All (fun _ => False) (· = .oob) :=
  ND.All.runOn_stuck (blocked4_errs n A B C.size) (blocked4_stuck hn (by omega) C.size)

/-! Non-vacuity. -/
section Examples
attribute [local instance] exact

example : multNaive #[1, 2, 3, 4] #[5, 6, 7, 8] #[1, 0, 0, 1] 2 = ND.pure #[20, 22, 43, 51] := by
  have hA : Holds (#[1, 2, 3, 4] : Array Nat) 2 2 (fun i j => 2 * i + j + 1) := by
    have := holds_rect 2 2 (fun i j => 2 * i + j + 1); exact this
  have hB : Holds (α := Nat) #[5, 6, 7, 8] 2 2 (fun i j => 2 * i + j + 5) := by
    have := holds_rect 2 2 (fun i j => 2 * i + j + 5); exact this
  have hC : Holds (α := Nat) #[1, 0, 0, 1] 2 2 (fun i j => if i = j then 1 else 0) := by
    have := holds_rect 2 2 (fun i j => if i = j then 1 else 0); exact this
  rw [C54_naive 2 _ _ _ _ _ _ hA hB hC rfl]
  rfl

example : multBlocked2 #[1, 2, 3, 4] #[5, 7, 6, 8] #[9, 9, 9, 9] 2 = ND.pure #[19, 22, 43, 50] := by
  have hA : Holds (#[1, 2, 3, 4] : Array Nat) 2 2 (fun i j => 2 * i + j + 1) := by
    have := holds_rect 2 2 (fun i j => 2 * i + j + 1); exact this
  have hB : Holds (α := Nat) #[5, 7, 6, 8] 2 2 (fun i j => 2 * j + i + 5) := by
    have := holds_rect 2 2 (fun i j => 2 * j + i + 5); exact this
  rw [C55_even 2 (by decide) _ _ _ _ _ hA hB rfl]
  rfl

-- odd size: undefined behaviour
example : (multBlocked2 #[2] #[3] #[0] 1).All (fun _ => False) (· = .oob) :=
  C55_odd 1 (by decide) _ _ _ (by decide)

-- blocked4 on a 4 × 4 matrix of ones: 1 instead of 4
example : multBlocked4 (rowMajor 4 fun _ _ => 1) (rowMajor 4 fun _ _ => 1) (zeros 16) 4 =
    ND.pure (rowMajor 4 fun _ _ => 1) := by
  rw [C56_result 4 (by decide) _ _ _ _ _ (holds_rect 4 4 _) (holds_rect 4 4 _) rfl]
  rfl
end Examples

end Verif.Props
