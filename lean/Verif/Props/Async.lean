import Verif.Proof.Async
import Verif.SpecRuns
import Verif.Props.Schedule
import Verif.Props.Naive
import Verif.Props.Algorithms
/-
Properties C90, C91: all tasks of the recursive multiplication at once (Model/Async.lean), and
complete runs of the parallel programs.
-/
set_option linter.unusedSectionVars false
namespace Verif.Props
open Verif.Kernel Verif.Recursive Verif.StaticImproved
variable {α : Type} [Arith α]

/-! ### C90 -/

/-- **C90.** If `single::matrix_multiply` returns `C` when the recursive calls of every level are
finished before the continuations start, then it returns `C` under every interleaving of all
tasks of all levels, and there is no data race. -/
theorem C90_single (junk : Nat → α) (N : Nat) (A B C : Array α) (transposed : Bool)
    (br bi reps : Nat) (h : single_matrix_multiply N A B transposed br bi reps (.ok C)) :
    Async.single_matrix_multiply junk N A B transposed br bi reps = ND.pure C ∧
    ∀ fl, RaceFree ⟨Async.startMem (N * N) junk, fl⟩
      (Async.single_tasks N A B transposed br bi reps) := by
  obtain ⟨h1, h2⟩ := Async.single_wp h junk
  exact ⟨Async.run_toArray h1 h2, fun fl => WP.raceFree (m := ⟨_, fl⟩) h2⟩

/-- **C90**, in the domain of C10 the result is the product. -/
theorem C90_single_product (junk : Nat → α) (N e s : Nat) (A B : Array α) (a b : Nat → Nat → α)
    (transposed : Bool) (br bi reps : Nat) (hA : Holds A N N a) (hB : Holds B N N b)
    (hN : N = 2 ^ e * s) (hs : s ≤ br) (he : ∀ d, d < e → br < 2 ^ (d + 1) * s)
    (hdiv : transposed = true → bi ≠ 0 → 4 ≤ s → 4 ∣ s ∧ bi ∣ N) (hr : 0 < reps) :
    Async.single_matrix_multiply junk N A B transposed br bi reps =
      ND.pure (rowMajor N fun i j => submatrixEntry N a b transposed bi s i j) :=
  (C90_single junk N A B _ transposed br bi reps (by
    rw [C10_single N e s A B a b transposed br bi reps hA hB hN hs he hdiv hr]; rfl)).1

/-- **C90**, powers of two, exact arithmetic. -/
theorem C90_single_pow2_exact {R : Type} [Semiring R] (junk : Nat → R) (e : Nat) (A B : Array R)
    (a b : Nat → Nat → R) (transposed : Bool) (br bi reps : Nat) (hA : Holds A (2 ^ e) (2 ^ e) a)
    (hB : Holds B (2 ^ e) (2 ^ e) b) (hbr : 1 ≤ br) (hdiv : bi = 0 ∨ bi ∣ 2 ^ e) (hr : 0 < reps) :
    @Async.single_matrix_multiply R (exact R) junk (2 ^ e) A B transposed br bi reps =
      ND.pure (rowMajor (2 ^ e) fun i j =>
        ∑ k ∈ Finset.range (2 ^ e), a i k * (if transposed then b j k else b k j)) :=
  (@C90_single R (exact R) junk (2 ^ e) A B _ transposed br bi reps (by
    rw [C10_single_pow2_exact e A B a b transposed br bi reps hA hB hbr hdiv hr]; rfl)).1

/-- The state of the schedule, packages inside and apart. -/
theorem schedule_packages {p : Params} {N L : Nat} {aw : List (List Work)}
    (h : create_schedule p N L = .ok aw) :
    (∀ w ∈ aw.flatten, w.x + w.N ≤ N ∧ w.y + w.N ≤ N) ∧ aw.flatten.Pairwise Apart := by
  obtain ⟨hL, k, s, hi, _, _, rfl⟩ := schedule_ok h
  have hI := (iter_inv hL hi).1
  exact ⟨hI.inside, hI.apart⟩

/-- What the tasks of `static_improved::matrix_multiply` leave in the result. -/
theorem improved_key (junk : Nat → α) (p : Params) (N : Nat) (A B C : Array α)
    (transposed : Bool) (bi br reps L : Nat)
    (h : matrix_multiply p N A B transposed bi br reps L (.ok C)) :
    ∃ aw, create_schedule p N (if 1 < L then L - 1 else L) = .ok aw ∧ C.size = N * N ∧
      WP false (fun _ => True)
        (Async.improved_tasks ⟨N, A, B, transposed, bi⟩ N br reps aw.flatten)
        (fun c' => ∀ i, i < N * N → C[i]? = some (c' i)) (Async.startMem (N * N) junk) := by
  unfold matrix_multiply at h
  simp only at h
  generalize (if 1 < L then L - 1 else L) = cl at h ⊢
  cases haw : create_schedule p N cl with
  | error e =>
    rw [haw] at h
    rcases h with ⟨e', _, h'⟩ | ⟨r, h', _⟩
    · cases h'
    · cases h'
  | ok aw =>
    rw [haw] at h
    obtain ⟨hin, hap⟩ := schedule_packages haw
    have h' : forStep (m := ND) 0 reps 1 (zeros (N * N)) (fun _ C => do
        let subs ← computePackages (calculate_submatrix ⟨N, A, B, transposed, bi⟩) br aw.flatten
        ND.runOn C (.par (subs.map fun ws => .act (insert_submatrix N ws.2 ws.1)))) (.ok C) := by
      rcases h with ⟨e', h1, _⟩ | ⟨r, h1, h2⟩
      · cases h1
      · cases h1; exact h2
    refine ⟨aw, rfl, ?_⟩
    rcases Nat.eq_zero_or_pos reps with rfl | hr
    · rw [forStep_nil (Nat.le_refl _)] at h'
      cases h'
      exact ⟨zeros_size _, .seqNil fun i hi => Async.startMem_zero junk hi⟩
    · obtain ⟨g, hg, rfl⟩ := Async.improved_inv hin hap hr h'
      exact ⟨by rw [Async.after_size, zeros_size], Async.improved_wp hg hin hap reps junk⟩

/-- **C90.** The same for `static_improved::matrix_multiply`: all work packages, all levels of
their recursions and all insertions into the result interleaved arbitrarily. -/
theorem C90_improved (junk : Nat → α) (p : Params) (N : Nat) (A B C : Array α)
    (transposed : Bool) (bi br reps L : Nat)
    (h : matrix_multiply p N A B transposed bi br reps L (.ok C)) :
    Async.improved_matrix_multiply junk p N A B transposed bi br reps L = ND.pure C ∧
    ∀ aw, create_schedule p N (if 1 < L then L - 1 else L) = .ok aw →
      ∀ fl, RaceFree ⟨Async.startMem (N * N) junk, fl⟩
        (Async.improved_tasks ⟨N, A, B, transposed, bi⟩ N br reps aw.flatten) := by
  obtain ⟨aw, haw, h1, h2⟩ := improved_key junk p N A B C transposed bi br reps L h
  refine ⟨?_, fun aw' haw' fl => ?_⟩
  · unfold Async.improved_matrix_multiply
    simp only
    rw [haw]
    exact (ND.pure_bind aw _).trans (Async.run_toArray h1 h2)
  · rw [haw] at haw'
    cases haw'
    exact WP.raceFree (m := ⟨_, fl⟩) h2

/-- **C90**, in the domain of C22 the result is the product. -/
theorem C90_improved_product (junk : Nat → α) (p : Params) (N e q : Nat) (A B : Array α)
    (a b : Nat → Nat → α) (transposed : Bool) (br bi reps L : Nat) (hA : Holds A N N a)
    (hB : Holds B N N b) (hN : N = 2 ^ e * q) (hq : q ≤ p.min_work_size) (hbr : q ≤ br)
    (hL : 0 < L) (hr : 0 < reps) (hbi : transposed = false ∨ bi = 0) :
    Async.improved_matrix_multiply junk p N A B transposed bi br reps L =
      ND.pure (rowMajor N fun i j =>
        dot N (a i) (fun k => if transposed then b j k else b k j)) :=
  (C90_improved junk p N A B _ transposed bi br reps L (by
    have := C22_pseudodynamic p N e q A B a b transposed br bi reps L hA hB hN hq hbr hL hr hbi
    unfold pseudodynamic_matrix_multiply at this
    rw [this]; rfl)).1

/-- **C90**, powers of two, exact arithmetic. -/
theorem C90_improved_pow2_exact {R : Type} [Semiring R] (junk : Nat → R) (p : Params) (e : Nat)
    (A B : Array R) (a b : Nat → Nat → R) (transposed : Bool) (br bi reps L : Nat)
    (hA : Holds A (2 ^ e) (2 ^ e) a) (hB : Holds B (2 ^ e) (2 ^ e) b)
    (hq : 1 ≤ p.min_work_size) (hbr : 1 ≤ br) (hL : 0 < L) (hr : 0 < reps)
    (hdiv : bi = 0 ∨ bi ∣ 2 ^ e) :
    @Async.improved_matrix_multiply R (exact R) junk p (2 ^ e) A B transposed bi br reps L =
      ND.pure (rowMajor (2 ^ e) fun i j =>
        ∑ k ∈ Finset.range (2 ^ e), a i k * (if transposed then b j k else b k j)) :=
  (@C90_improved R (exact R) junk p (2 ^ e) A B _ transposed bi br reps L (by
    have := C22_pseudodynamic_pow2 p e A B a b transposed br bi reps L hA hB hq hbr hL hr hdiv
    unfold pseudodynamic_matrix_multiply at this
    rw [this]; rfl)).1

/-! ### C91 -/

omit [Arith α] in
/-- **C91.** No fork/join program has an infinite run, whatever its tasks do. -/
theorem C91_finite (m : Mem α) (t : Tree α) : ¬ InfiniteRun m t := by
  rintro ⟨f, h0, hf⟩
  have key : ∀ t : Tree α, TAcc t → ∀ n, (f n).2 ≠ t := by
    intro t ht
    induction ht with
    | intro t _ ih =>
      intro n hn
      have := hf n
      rw [hn] at this
      exact ih _ ⟨_, _, this⟩ (n + 1) rfl
  exact key t (tacc t) 0 (by rw [h0])

omit [Arith α] in
/-- **C91.** At the end of a run, all tasks have returned or one of them has failed. -/
theorem C91_end (m : Mem α) (t : Tree α) (h : AtEnd m t) : Done t ∨ ∃ e, Failed e t := by
  rcases progress m t with h1 | h1 | h1
  · exact .inl h1
  · exact .inr h1
  · exact absurd h1 h

/-- **C91.** A program whose only outcome is the vector `v` returns `v` in every complete run. -/
theorem C91_run {c : Nat → α} {fl : Nat → Bool} {t : Tree α} {n : Nat} {v : Array α}
    (hr : RaceFree ⟨c, fl⟩ t)
    (h : ND.bind (ND.run c fl t) (fun c' => ND.pure (toArray n c')) = ND.pure v) :
    EveryRun ⟨c, fl⟩ t (fun c' => toArray n c' = v) := by
  refine ⟨C91_finite _ _, hr, fun m' t' hs he => ?_⟩
  rcases C91_end m' t' he with hd | ⟨e, hf⟩
  · refine ⟨hd, ?_⟩
    have h1 : ND.bind (ND.run c fl t) (fun c' => ND.pure (toArray n c')) (.ok (toArray n m'.cell)) :=
      .inr ⟨m'.cell, .inl ⟨m', t', hs, hd, rfl⟩, rfl⟩
    rw [h] at h1
    cases h1
    rfl
  · have h1 : ND.bind (ND.run c fl t) (fun c' => ND.pure (toArray n c')) (.error e) :=
      .inl ⟨e, .inr ⟨m', t', e, hs, hf, rfl⟩, rfl⟩
    rw [h] at h1
    cases h1

/-- **C91**, the reference multiplication. -/
theorem C91_naive (N : Nat) (A B : Array α) (a b : Nat → Nat → α) (hA : Holds A N N a)
    (hB : Holds B N N b) :
    EveryRun (Mem.ofArray (zeros (N * N))) (Naive.tree N A B) (fun c =>
      toArray (N * N) c = rowMajor N fun i j => dot N (a i) (fun k => b k j)) := by
  have := C01_naive N A B a b hA hB
  unfold Naive.naive_matrix_multiply ND.runOn at this
  rw [zeros_size] at this
  exact C91_run (C01_naive_raceFree N A B a b hA hB _) this

/-- **C91**, the reference multiplication with the second matrix transposed. -/
theorem C91_naive_transposed (N : Nat) (A Bt : Array α) (a b : Nat → Nat → α)
    (hA : Holds A N N a) (hB : Holds Bt N N b) :
    EveryRun (Mem.ofArray (zeros (N * N))) (Naive.treeT N A Bt) (fun c =>
      toArray (N * N) c = rowMajor N fun i j => dot N (a i) (b j)) := by
  have := C02_naive_transposed N A Bt a b hA hB
  unfold Naive.naive_matrix_multiply_transposed ND.runOn at this
  rw [zeros_size] at this
  exact C91_run ((Naive.treeT_does hA hB).raceFree _) this

/-- **C91**, variant `algorithms`. -/
theorem C91_algorithms (N : Nat) (A Bt : Array α) (a b : Nat → Nat → α) (hA : Holds A N N a)
    (hB : Holds Bt N N b) (bi br : Nat) (hbi : 0 < bi) (hbr : 0 < br) (hdi : bi ∣ N)
    (hdr : br ∣ N) :
    EveryRun (Mem.ofArray (zeros (N * N))) (Algorithms.tree N A Bt bi br) (fun c =>
      toArray (N * N) c = rowMajor N fun i j => bdot bi (N / bi) (a i) (b j)) := by
  have := C24_algorithms N A Bt a b hA hB bi br hbi hbr hdi hdr
  unfold Algorithms.matrix_multiply ND.runOn at this
  rw [if_neg (by omega), zeros_size] at this
  exact C91_run (C24_algorithms_raceFree N A Bt a b hA hB bi br hbi hbr hdi hdr _) this

/-- **C91**, `single::matrix_multiply`, all tasks of all repetitions. -/
theorem C91_single (junk : Nat → α) (fl : Nat → Bool) (N e s : Nat) (A B : Array α)
    (a b : Nat → Nat → α) (transposed : Bool) (br bi reps : Nat) (hA : Holds A N N a)
    (hB : Holds B N N b) (hN : N = 2 ^ e * s) (hs : s ≤ br)
    (he : ∀ d, d < e → br < 2 ^ (d + 1) * s)
    (hdiv : transposed = true → bi ≠ 0 → 4 ≤ s → 4 ∣ s ∧ bi ∣ N) (hr : 0 < reps) :
    EveryRun ⟨Async.startMem (N * N) junk, fl⟩ (Async.single_tasks N A B transposed br bi reps)
      (fun c => toArray (N * N) c =
        rowMajor N fun i j => submatrixEntry N a b transposed bi s i j) := by
  have h0 : single_matrix_multiply N A B transposed br bi reps
      (.ok (rowMajor N fun i j => submatrixEntry N a b transposed bi s i j)) := by
    rw [C10_single N e s A B a b transposed br bi reps hA hB hN hs he hdiv hr]; rfl
  obtain ⟨h1, h2⟩ := Async.single_wp h0 junk
  exact C91_run (WP.raceFree (m := ⟨_, fl⟩) h2) (Async.run_toArray h1 h2)

/-- **C91**, `static_improved::matrix_multiply`, all tasks of all repetitions. -/
theorem C91_improved (junk : Nat → α) (fl : Nat → Bool) (p : Params) (N e q : Nat) (A B : Array α)
    (a b : Nat → Nat → α) (transposed : Bool) (br bi reps L : Nat) (hA : Holds A N N a)
    (hB : Holds B N N b) (hN : N = 2 ^ e * q) (hq : q ≤ p.min_work_size) (hbr : q ≤ br)
    (hL : 0 < L) (hr : 0 < reps) (hbi : transposed = false ∨ bi = 0) :
    ∃ aw, create_schedule p N (if 1 < L then L - 1 else L) = .ok aw ∧
      EveryRun ⟨Async.startMem (N * N) junk, fl⟩
        (Async.improved_tasks ⟨N, A, B, transposed, bi⟩ N br reps aw.flatten) (fun c =>
          toArray (N * N) c = rowMajor N fun i j =>
            dot N (a i) (fun k => if transposed then b j k else b k j)) := by
  have h0 : matrix_multiply p N A B transposed bi br reps L (.ok (rowMajor N fun i j =>
      dot N (a i) (fun k => if transposed then b j k else b k j))) := by
    have := C22_pseudodynamic p N e q A B a b transposed br bi reps L hA hB hN hq hbr hL hr hbi
    unfold pseudodynamic_matrix_multiply at this
    rw [this]; rfl
  obtain ⟨aw, haw, h1, h2⟩ := improved_key junk p N A B _ transposed bi br reps L h0
  exact ⟨aw, haw, C91_run (WP.raceFree (m := ⟨_, fl⟩) h2) (Async.run_toArray h1 h2)⟩

section Examples
attribute [local instance] exact

-- C90: N = 16, two levels of recursion, three repetitions, arbitrary contents of the memory
example (junk : Nat → Nat) : Async.single_matrix_multiply junk 16 (rect 16 16 fun i j => i + j)
    (rect 16 16 fun i j => i * j) true 5 8 3 = ND.pure (rowMajor 16 fun i j =>
      submatrixEntry 16 (fun i j => i + j) (fun i j => i * j) true 8 4 i j) :=
  C90_single_product junk 16 2 4 _ _ _ _ true 5 8 3 (holds_rect 16 16 _) (holds_rect 16 16 _) rfl
    (by omega)
    (fun d hd => by have : d = 0 ∨ d = 1 := by omega
                    rcases this with rfl | rfl <;> decide)
    (fun _ _ _ => ⟨⟨1, rfl⟩, ⟨2, rfl⟩⟩) (by omega)

-- C90: N = 8 with blocks of size 1: three levels, 64 leaves
example (junk : Nat → Nat) : Async.single_matrix_multiply junk (2 ^ 3)
    (rect (2 ^ 3) (2 ^ 3) fun i j => i + j) (rect (2 ^ 3) (2 ^ 3) fun i j => i * j) false 1 0 1 =
    ND.pure (rowMajor (2 ^ 3) fun i j => ∑ k ∈ Finset.range (2 ^ 3), (i + k) * (k * j)) :=
  C90_single_pow2_exact junk 3 _ _ (fun i j => i + j) (fun i j => i * j) false 1 0 1
    (holds_rect _ _ _) (holds_rect _ _ _) (by omega) (.inl rfl) (by omega)

-- C90: outside of the domain of C10 too, here `block_result = 0` (C12)
example (junk : Nat → Nat) : Async.single_matrix_multiply junk 6 (rect 6 6 fun i j => i + j)
    (rect 6 6 fun i j => i * j) false 0 0 1 = ND.pure (rowMajor 6 fun _ _ => 0) :=
  (C90_single junk 6 _ _ _ false 0 0 1 (by rw [C12_block_result_zero]; rfl)).1

-- C90: work packages, N = 12, four localities
example (junk : Nat → Nat) : Async.improved_matrix_multiply junk ⟨3, 0, fun _ _ => false⟩ 12
    (rect 12 12 fun i j => i + j) (rect 12 12 fun i j => i * j) true 0 4 2 4 =
    ND.pure (rowMajor 12 fun i j => dot 12 (fun k => i + k) (fun k => j * k)) :=
  C90_improved_product junk _ 12 2 3 _ _ _ _ true 4 0 2 4 (holds_rect 12 12 _)
    (holds_rect 12 12 _) rfl (by decide) (by omega) (by omega) (by omega) (.inr rfl)

-- C91
example : EveryRun (Mem.ofArray (zeros (5 * 5)))
    (Naive.tree 5 (rect 5 5 fun i j => i + j) (rect 5 5 fun i j => i * j)) (fun c =>
      toArray (5 * 5) c = rowMajor 5 fun i j => dot 5 (fun k => i + k) (fun k => k * j)) :=
  C91_naive 5 _ _ (fun i j => i + j) (fun i j => i * j) (holds_rect 5 5 _) (holds_rect 5 5 _)

-- C91: a run that is not finished; it has a next step
example : ¬ AtEnd (Mem.ofArray (zeros (1 * 1)))
    (Tree.par [Tree.act (Act.wr 0 (1 : Nat) (Act.ret ()))]) := by
  intro h
  exact h ⟨_, _, .parStep 0 rfl .wr⟩
end Examples

end Verif.Props
