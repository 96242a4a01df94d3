import Verif.Proof.KernelTest
import Verif.Props.KernelTiled
/-
Reference kernel `kernel_test`: properties C39 and C38.
-/
namespace Verif.Props
open Verif.KernelTest Tiled
variable {α : Type} [Arith α]

/-- Sizes for which `kernel_test` stays inside its padded buffers and hits only aligned
addresses. -/
def SafeSize (N : Nat) : Prop := N = 0 ∨ (4 ∣ N ∧ (N % 512 = 0 ∨ 449 ≤ N % 512))

theorem safeSize_iff {N : Nat} : SafeSize N ↔ 4 ∣ N ∧ KT N < N + 64 := by
  unfold SafeSize KT ceilDiv
  omega

/-- **C39**, any arithmetic: for a safe size there is one outcome in all interleavings, the
blockwise product. -/
theorem C39_kernel_test (N : Nat) (hN : SafeSize N) (A B : Array α) (f g : Nat → Nat → α)
    (hA : Holds A N N f) (hB : Holds B N N g) (transposed : Bool) (r : Nat) (hr : 1 ≤ r) :
    KernelTest.matrix_multiply N A B transposed r = ND.pure (rowMajor N fun i j =>
      bdot 16 (ceilDiv N 512 * 512 / 16) (fun k => pad N f i k) (fun k => pad N g k j)) := by
  rw [mm_ok hA hB transposed r (.inr (safeSize_iff.1 hN))]
  simp only [if_neg (show ¬ r = 0 by omega)]
  rfl

/-- **C39.** For a safe size every interleaving returns `A · B`; there is no other outcome. -/
theorem C39_kernel_test_exact {R : Type} [Semiring R] (N : Nat) (hN : SafeSize N) (A B : Array R)
    (f g : Nat → Nat → R) (hA : Holds A N N f) (hB : Holds B N N g) (transposed : Bool) (r : Nat)
    (hr : 1 ≤ r) :
    @KernelTest.matrix_multiply R (exact R) N A B transposed r =
      ND.pure (rowMajor N (matProd N f g)) := by
  rw [@C39_kernel_test R (exact R) N hN A B f g hA hB transposed r hr]
  refine congrArg ND.pure (rect_congr fun i hi j hj => ?_)
  have e : ceilDiv N 512 * 512 / 16 * 16 = ceilDiv N 512 * 512 := by omega
  rw [bdot_exact, e, sum_pad (le_padded (by decide)) f g hi hj]
  rfl

/-- **C39.** For every other size and at least one repetition, whatever the input vectors, every
execution ends in an out-of-bounds or misaligned access (and there is an execution). -/
theorem C39_kernel_test_ub (N : Nat) (hN : ¬ SafeSize N) (A B : Array α) (transposed : Bool)
    (r : Nat) (hr : 1 ≤ r) :
    (∃ o, KernelTest.matrix_multiply N A B transposed r o) ∧
    ∀ o, KernelTest.matrix_multiply N A B transposed r o →
      o = .error .oob ∨ o = .error .misaligned := by
  have h0 : N ≠ 0 := fun h => hN (.inl h)
  rw [safeSize_iff] at hN
  refine ⟨mm_total _ _ _ _ _, fun o ho => ?_⟩
  rcases mm_ub (Nat.pos_of_ne_zero h0) A B transposed r hr (by omega) o ho with
    ⟨_, h, _⟩ | ⟨e, rfl | rfl, rfl⟩
  · exact h.elim
  · exact .inl rfl
  · exact .inr rfl

/-- **C39.** Both directions: no execution hits undefined behaviour exactly if the size is safe. -/
theorem C39_kernel_test_iff (N : Nat) (A B : Array α) (hA : A.size = N * N) (hB : B.size = N * N)
    (transposed : Bool) (r : Nat) (hr : 1 ≤ r) :
    (∀ e, ¬ KernelTest.matrix_multiply N A B transposed r (.error e)) ↔ SafeSize N := by
  constructor
  · intro h
    by_contra hN
    obtain ⟨⟨o, ho⟩, ho'⟩ := C39_kernel_test_ub N hN A B transposed r hr
    rcases ho' o ho with rfl | rfl <;> exact h _ ho
  · intro hN e he
    have hh : ∀ v : Array α, v.size = N * N →
        Holds v N N fun i j => v.getD (i * N + j) Arith.zero := by
      intro v hv i hi j hj
      have : i * N + j < v.size := by rw [hv]; exact idx_lt hi hj
      simp [this]
    rw [C39_kernel_test N hN A B _ _ (hh A hA) (hh B hB) transposed r hr] at he
    cases he

/-- **C39.** Without repetitions the kernel is never entered: zero matrix for every size. -/
theorem C39_kernel_test_zero (N : Nat) (A B : Array α) (f g : Nat → Nat → α) (hA : Holds A N N f)
    (hB : Holds B N N g) (transposed : Bool) :
    KernelTest.matrix_multiply N A B transposed 0 = ND.pure (rowMajor N fun _ _ => Arith.zero) :=
  mm_ok hA hB transposed 0 (.inl rfl)

/-- **C39.** For a safe size no interleaving of the parallel loop contains a data race. -/
theorem C39_kernel_test_raceFree (N : Nat) (hN : SafeSize N) (A B : Array α) (f g : Nat → Nat → α)
    (hA : Holds A N N f) (hB : Holds B N N g) {At Bp} (h1 : transA N A = .ok At)
    (h2 : padB N B = .ok Bp) (m : Mem α) : RaceFree m (KernelTest.tree N At Bp) := by
  rw [transA_ok hA] at h1
  rw [padB_ok hB] at h2
  injection h1 with h1
  injection h2 with h2
  subst h1 h2
  have hAt : Holds (rect (N + 64) (N + 64) (pad N (tr f))) (N + 64) (N + 64)
      (fun k i => pad N f i k) := by
    intro i hi j hj
    rw [holds_rect _ _ _ i hi j hj]
    unfold pad tr
    simp only [and_comm]
  have := safeSize_iff.1 hN
  exact (KernelTest.tree_does hAt (holds_rect _ _ _) this.1 this.2).raceFree m

/-- **C38.** The flag `transposed` has no effect on `kernel_test`, whatever the inputs. -/
theorem C38_kernel_test_flag (N : Nat) (A B : Array α) (r : Nat) :
    KernelTest.matrix_multiply N A B true r = KernelTest.matrix_multiply N A B false r := rfl

/-- **C38.** With the second matrix given transposed, `kernel_test` (called with `transposed`)
returns what the transposed reference returns exactly if `A · B` and `A · Bᵀ` are the same. -/
theorem C38_kernel_test_iff {R : Type} [Semiring R] (N : Nat) (hN : SafeSize N) (A B : Array R)
    (f g : Nat → Nat → R) (hA : Holds A N N f) (hB : Holds B N N g) (r : Nat) (hr : 1 ≤ r) :
    @KernelTest.matrix_multiply R (exact R) N A B true r =
      @Naive.naive_matrix_multiply_transposed R (exact R) N A B ↔
      ∀ i, i < N → ∀ j, j < N → matProd N f g i j = matProd N f (tr g) i j := by
  rw [C39_kernel_test_exact N hN A B f g hA hB true r hr,
    ← C37_kernel_tiled_exact N A B f g hA hB true r hr]
  exact C38_kernel_tiled_iff N A B f g hA hB r hr

/-- **C38.** For every safe size `N ≥ 2` there are inputs for which `kernel_test` with
`transposed = true` differs from the transposed reference. -/
theorem C38_kernel_test_differs {R : Type} [Semiring R] [Nontrivial R] (N : Nat) (hS : SafeSize N)
    (hN : 2 ≤ N) (r : Nat) (hr : 1 ≤ r) : ∃ A B : Array R, A.size = N * N ∧ B.size = N * N ∧
    @KernelTest.matrix_multiply R (exact R) N A B true r ≠
      @Naive.naive_matrix_multiply_transposed R (exact R) N A B := by
  refine ⟨rowMajor N fun i j => if i = j then 1 else 0, rowMajor N skew, by simp, by simp, ?_⟩
  rw [ne_eq, C38_kernel_test_iff N hS _ _ _ _ (holds_rect _ _ _) (holds_rect _ _ _) r hr]
  intro h
  have := h 0 (by omega) 1 (by omega)
  rw [matProd_one (by omega), matProd_one (by omega)] at this
  simp [skew, tr] at this

section Examples
attribute [local instance] exact

example : SafeSize 512 ∧ SafeSize 452 ∧ SafeSize 1020 ∧ ¬ SafeSize 510 ∧ ¬ SafeSize 448 ∧
    ¬ SafeSize 256 := by unfold SafeSize; omega

/-- Squaring a matrix of size 1020 (not a multiple of any block size). -/
example (A : Array Int) (f : Nat → Nat → Int) (hA : Holds A 1020 1020 f) :
    KernelTest.matrix_multiply 1020 A A true 1 = ND.pure (rowMajor 1020 (matProd 1020 f f)) :=
  C39_kernel_test_exact 1020 (by unfold SafeSize; omega) A A f f hA hA true 1 (Nat.le_refl _)

/-- The size of the repository's tests of the other kernels, 256, is not safe. -/
example (A B : Array Int) (o) (h : KernelTest.matrix_multiply 256 A B false 3 o) :
    o = .error .oob ∨ o = .error .misaligned :=
  (C39_kernel_test_ub 256 (by unfold SafeSize; omega) A B false 3 (by decide)).2 o h

example (A : Array Int) (hA : A.size = 512 * 512) (e : Err) :
    ¬ KernelTest.matrix_multiply 512 A A false 2 (.error e) :=
  (C39_kernel_test_iff 512 A A hA hA false 2 (by decide)).2 (by unfold SafeSize; omega) e

example (A B : Array Int) (f g : Nat → Nat → Int) (hA : Holds A 7 7 f) (hB : Holds B 7 7 g) :
    KernelTest.matrix_multiply 7 A B true 0 = ND.pure (rowMajor 7 fun _ _ => 0) :=
  C39_kernel_test_zero 7 A B f g hA hB true

example : ∃ A B : Array Int, A.size = 452 * 452 ∧ B.size = 452 * 452 ∧
    KernelTest.matrix_multiply 452 A B true 1 ≠ Naive.naive_matrix_multiply_transposed 452 A B :=
  C38_kernel_test_differs 452 (by unfold SafeSize; omega) (by omega) 1 (Nat.le_refl _)

example (A : Array Int) (f : Nat → Nat → Int) (hA : Holds A 512 512 f) {At Bp}
    (h1 : transA 512 A = .ok At) (h2 : padB 512 A = .ok Bp) (m : Mem Int) :
    RaceFree m (KernelTest.tree 512 At Bp) :=
  C39_kernel_test_raceFree 512 (by unfold SafeSize; omega) A A f f hA hA h1 h2 m

end Examples
end Verif.Props
