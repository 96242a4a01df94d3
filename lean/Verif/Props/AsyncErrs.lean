import Verif.Proof.AsyncErrs
import Verif.Props.Async
import Verif.Props.ScheduleDrop
import Verif.Props.Domain
/-
Property C95: the recursive multiplication with all tasks in flight has, for all inputs, the same
single outcome as level by level; and the remaining cases of C90 and C91.
-/
set_option linter.unusedSectionVars false
namespace Verif.Props
open Verif.Kernel Verif.Recursive Verif.StaticImproved
variable {α : Type} [Arith α]

/-! ### C95 -/

/-- **C95.** For all inputs, also those that lead to undefined behaviour, and for all contents of
uninitialised memory, `single::matrix_multiply` with all tasks of all levels in flight has exactly
the outcome of the level by level execution. -/
theorem C95_single (junk : Nat → α) (N : Nat) (A B : Array α) (transposed : Bool)
    (br bi reps : Nat) :
    Async.single_matrix_multiply junk N A B transposed br bi reps =
      single_matrix_multiply N A B transposed br bi reps := by
  obtain ⟨o, ho, _⟩ := C94_single N A B transposed br bi reps
  have ho' : single_matrix_multiply N A B transposed br bi reps = ND.ofM o :=
    funext fun o' => propext (ho o')
  cases o with
  | ok C =>
    rw [(C90_single junk N A B C transposed br bi reps ((ho _).2 rfl)).1, ho']
    rfl
  | error e =>
    have hr : 0 < reps := by
      rcases Nat.eq_zero_or_pos reps with rfl | hr
      · unfold single_matrix_multiply at ho'
        rw [forStep_nil (Nat.le_refl _)] at ho'
        have : (ND.ofM (.error e) : ND (Array α)) (.error e) := rfl
        rw [← ho'] at this
        cases this
      · exact hr
    rw [ho']
    unfold single_matrix_multiply at ho'
    rw [nd_repeat _ _ _ hr] at ho'
    obtain rfl := Async.levels_error ho'
    unfold Async.single_matrix_multiply Async.single_tasks
    refine stuck_run (.seq (List.mem_replicate.2 ⟨by omega, rfl⟩)
      (Async.distribute_stuck _ _ _ _ _ ho')) (.seq fun t ht => ?_) _ _ _
    rw [(List.mem_replicate.1 ht).2]
    exact Async.distribute_errs _ _ _ _ _ _

/-- **C95.** Its only error is an access out of bounds. -/
theorem C95_single_error (N : Nat) (A B : Array α) (transposed : Bool) (br bi reps : Nat) (e : Err)
    (h : single_matrix_multiply N A B transposed br bi reps (.error e)) :
    e = .oob ∧ transposed = true := by
  obtain ⟨o, ho, ht⟩ := C94_single N A B transposed br bi reps
  have ho' : single_matrix_multiply N A B transposed br bi reps = ND.ofM o :=
    funext fun o' => propext (ho o')
  obtain rfl := (ho _).1 h
  refine ⟨?_, ?_⟩
  · rcases Nat.eq_zero_or_pos reps with rfl | hr
    · unfold single_matrix_multiply at h
      rw [forStep_nil (Nat.le_refl _)] at h
      cases h
    · unfold single_matrix_multiply at ho'
      rw [nd_repeat _ _ _ hr] at ho'
      exact Async.levels_error ho'
  · cases transposed with
    | true => rfl
    | false => obtain ⟨C, h', _⟩ := ht rfl; cases h'

/-- What happens if `static_improved::matrix_multiply` does not return. -/
theorem improved_error {p : Params} {N : Nat} {A B : Array α} {transposed : Bool}
    {bi br reps L : Nat} (hL : 0 < L) {e : Err}
    (h : matrix_multiply p N A B transposed bi br reps L (.error e)) :
    0 < reps ∧ ∃ aw, create_schedule p N (if 1 < L then L - 1 else L) = .ok aw ∧
      ∃ w ∈ aw.flatten, Recursive.distribute_recursively
        (calculate_submatrix ⟨N, A, B, transposed, bi⟩) br w.x w.y w.N = ND.ofM (.error e) := by
  unfold matrix_multiply at h
  simp only at h
  generalize hc : (if 1 < L then L - 1 else L) = cl at h ⊢
  have hcl : 0 < cl := by rw [← hc]; split <;> omega
  obtain ⟨⟨aw, haw, _⟩, _⟩ := C15_schedule_terminates p N cl hcl
  rw [haw, ND.ofM_ok, ND.pure_bind'] at h
  obtain ⟨hin, hap⟩ := schedule_packages haw
  have hr : 0 < reps := by
    rcases Nat.eq_zero_or_pos reps with rfl | hr
    · rw [forStep_nil (Nat.le_refl _)] at h; cases h
    · exact hr
  refine ⟨hr, aw, haw, ?_⟩
  rcases Async.packages_cases ⟨N, A, B, transposed, bi⟩ br aw.flatten with
    ⟨subs, hs⟩ | ⟨w, hw, e', he', hs⟩
  · have hok := computePackages_ok (s := ⟨N, A, B, transposed, bi⟩) (br := br) (ws := aw.flatten)
      (subs := subs) (by rw [hs]; rfl)
    rw [hs] at h
    obtain ⟨o, h4, h5⟩ := nd_repeat_det (n := reps) (z := zeros (N * N))
      (body := fun _ C => ND.ofM (.ok subs) >>= fun subs =>
        ND.runOn C (.par (subs.map fun ws => .act (insert_submatrix N ws.2 ws.1))))
      (I := fun C : Array α => C.size = N * N) (ok := True) (by simp [zeros])
      (fun i C hC => by
        obtain ⟨C', h6, h7⟩ := insert_det hC hok.2 (by rw [hok.1]; exact hin)
          (by rw [hok.1]; exact hap)
        exact ⟨.ok C', by rw [ND.ofM_ok, ND.pure_bind']; exact h6,
          fun _ h => by cases h; exact h7, fun _ => ⟨C', rfl⟩⟩)
    rw [h4] at h
    obtain ⟨C, rfl, _⟩ := h5 trivial
    cases h
  · refine ⟨w, hw, ?_⟩
    rw [hs, Async.repeat_error hr fun _ _ => Async.ofM_bind_error _] at h
    cases h
    exact he'

/-- **C95** for `static_improved::matrix_multiply` on any number of localities. -/
theorem C95_improved (junk : Nat → α) (p : Params) (N : Nat) (A B : Array α) (transposed : Bool)
    (bi br reps L : Nat) (hL : 0 < L) :
    Async.improved_matrix_multiply junk p N A B transposed bi br reps L =
      matrix_multiply p N A B transposed bi br reps L := by
  obtain ⟨o, ho, _⟩ := C94_pseudodynamic p N A B transposed br bi reps L hL
  unfold pseudodynamic_matrix_multiply at ho
  have ho' : matrix_multiply p N A B transposed bi br reps L = ND.ofM o :=
    funext fun o' => propext (ho o')
  cases o with
  | ok C =>
    rw [(C90_improved junk p N A B C transposed bi br reps L ((ho _).2 rfl)).1, ho']
    rfl
  | error e =>
    obtain ⟨hr, aw, haw, w, hw, he⟩ := improved_error hL ((ho _).2 rfl)
    obtain rfl := Async.levels_error he
    rw [ho']
    unfold Async.improved_matrix_multiply Async.improved_tasks
    simp only
    rw [haw]
    refine (ND.pure_bind aw _).trans ?_
    obtain ⟨t, ht, hs⟩ := Async.package_tasks_stuck (N := N) he _ hw (N * N)
    refine stuck_run (.seq (List.mem_replicate.2 ⟨by omega, rfl⟩) (.par ht hs))
      (.seq fun t ht => ?_) _ _ _
    rw [(List.mem_replicate.1 ht).2]
    exact .par (Async.package_tasks_errs _ _ _ _ _)

/-- **C95.** The only error of the distributed multiplication is an access out of bounds. -/
theorem C95_pseudodynamic_error (p : Params) (N : Nat) (A B : Array α) (transposed : Bool)
    (br bi reps L : Nat) (hL : 0 < L) (e : Err)
    (h : pseudodynamic_matrix_multiply p N A B transposed br bi reps L (.error e)) :
    e = .oob ∧ transposed = true := by
  refine ⟨?_, ?_⟩
  · obtain ⟨_, aw, _, w, _, he⟩ := improved_error hL h
    exact Async.levels_error he
  · obtain ⟨o, ho, ht⟩ := C94_pseudodynamic p N A B transposed br bi reps L hL
    obtain rfl := (ho _).1 h
    cases transposed with
    | true => rfl
    | false => obtain ⟨C, h', _⟩ := ht rfl; cases h'

/-! ### C90, C91 in the whole domain of C22 -/

/-- **C90**, work packages with the cache-blocked kernel: every entry is computed as in the package
it lies in. -/
theorem C90_improved_entries (junk : Nat → α) (p : Params) (N e q : Nat) (A B : Array α)
    (a b : Nat → Nat → α) (transposed : Bool) (br bi reps L : Nat) (hA : Holds A N N a)
    (hB : Holds B N N b) (hN : N = 2 ^ e * q) (hq : q ≤ p.min_work_size) (hbr : q ≤ br)
    (hL : 0 < L) (hr : 0 < reps)
    (hdiv : transposed = true → bi ≠ 0 → bi ∣ N ∧ ∀ d, d ≤ e → 4 ≤ 2 ^ d * q → 4 ∣ 2 ^ d * q) :
    ∃ G, Async.improved_matrix_multiply junk p N A B transposed bi br reps L =
        ND.pure (rowMajor N G) ∧
      ∀ i, i < N → ∀ j, j < N → ∃ d, d ≤ e ∧
        G i j = submatrixEntry N a b transposed bi (2 ^ d * q) i j := by
  rw [C95_improved junk p N A B transposed bi br reps L hL]
  exact C22_pseudodynamic_entries p N e q A B a b transposed br bi reps L hA hB hN hq hbr hL hr hdiv

/-- **C90**, exact arithmetic, the whole domain of C22. -/
theorem C90_improved_exact {R : Type} [Semiring R] (junk : Nat → R) (p : Params) (N e q : Nat)
    (A B : Array R) (a b : Nat → Nat → R) (transposed : Bool) (br bi reps L : Nat)
    (hA : Holds A N N a) (hB : Holds B N N b) (hN : N = 2 ^ e * q) (hq : q ≤ p.min_work_size)
    (hbr : q ≤ br) (hL : 0 < L) (hr : 0 < reps)
    (hdiv : transposed = true → bi ≠ 0 → bi ∣ N ∧ ∀ d, d ≤ e → 4 ≤ 2 ^ d * q → 4 ∣ 2 ^ d * q) :
    @Async.improved_matrix_multiply R (exact R) junk p N A B transposed bi br reps L =
      ND.pure (rowMajor N fun i j =>
        ∑ k ∈ Finset.range N, a i k * (if transposed then b j k else b k j)) := by
  rw [@C95_improved R (exact R) junk p N A B transposed bi br reps L hL]
  exact C22_pseudodynamic_exact p N e q A B a b transposed br bi reps L hA hB hN hq hbr hL hr hdiv

/-- **C91**, `static_improved::matrix_multiply` with any result: it is reached in every complete
run. -/
theorem C91_improved_any (junk : Nat → α) (fl : Nat → Bool) (p : Params) (N : Nat)
    (A B C : Array α) (transposed : Bool) (bi br reps L : Nat)
    (h : matrix_multiply p N A B transposed bi br reps L (.ok C)) :
    ∃ aw, create_schedule p N (if 1 < L then L - 1 else L) = .ok aw ∧
      EveryRun ⟨Async.startMem (N * N) junk, fl⟩
        (Async.improved_tasks ⟨N, A, B, transposed, bi⟩ N br reps aw.flatten)
        (fun c => toArray (N * N) c = C) := by
  obtain ⟨aw, haw, h1, h2⟩ := improved_key junk p N A B C transposed bi br reps L h
  exact ⟨aw, haw, C91_run (WP.raceFree (m := ⟨_, fl⟩) h2) (Async.run_toArray h1 h2)⟩

/-- **C91**, `static_improved::matrix_multiply`, exact arithmetic, the whole domain of C22. -/
theorem C91_improved_exact {R : Type} [Semiring R] (junk : Nat → R) (fl : Nat → Bool) (p : Params)
    (N e q : Nat) (A B : Array R) (a b : Nat → Nat → R) (transposed : Bool) (br bi reps L : Nat)
    (hA : Holds A N N a) (hB : Holds B N N b) (hN : N = 2 ^ e * q) (hq : q ≤ p.min_work_size)
    (hbr : q ≤ br) (hL : 0 < L) (hr : 0 < reps)
    (hdiv : transposed = true → bi ≠ 0 → bi ∣ N ∧ ∀ d, d ≤ e → 4 ≤ 2 ^ d * q → 4 ∣ 2 ^ d * q) :
    ∃ aw, create_schedule p N (if 1 < L then L - 1 else L) = .ok aw ∧
      EveryRun ⟨@Async.startMem R (exact R) (N * N) junk, fl⟩
        (@Async.improved_tasks R (exact R) ⟨N, A, B, transposed, bi⟩ N br reps aw.flatten)
        (fun c => toArray (N * N) c = rowMajor N fun i j =>
          ∑ k ∈ Finset.range N, a i k * (if transposed then b j k else b k j)) :=
  @C91_improved_any R (exact R) junk fl p N A B _ transposed bi br reps L (by
    have := C22_pseudodynamic_exact p N e q A B a b transposed br bi reps L hA hB hN hq hbr hL hr
      hdiv
    unfold pseudodynamic_matrix_multiply at this
    rw [this]; rfl)

section Examples
attribute [local instance] exact

-- C95: a leaf of size 5 makes every execution of the tasks fail
example (junk : Nat → Nat) : Async.single_matrix_multiply junk 10 (rect 10 10 fun i j => i + j)
    (rect 10 10 fun i j => i * j) true 5 5 2 = ND.fail .oob := by
  rw [C95_single]
  exact C59_single_ub 10 1 5 _ _ 5 5 2 (by simp [rect]) (by norm_num) (by omega)
    (fun d hd => by have : d = 0 := by omega
                    subst this; decide) (by omega) (by omega) (by decide) (by omega)

-- C95: hypotheses of the error theorem are met by the same program
example : single_matrix_multiply 10 (rect 10 10 fun i j => i + j)
    (rect 10 10 fun i j => i * j) true 5 5 2 (.error .oob) := by
  rw [C59_single_ub 10 1 5 _ _ 5 5 2 (by simp [rect]) (by norm_num) (by omega)
    (fun d hd => by have : d = 0 := by omega
                    subst this; decide) (by omega) (by omega) (by decide) (by omega)]
  rfl

-- C90, C91: cache-blocked kernel, N = 24, packages of sizes 12·2^d
example (junk : Nat → Nat) : Async.improved_matrix_multiply junk ⟨12, 0, fun _ _ => false⟩ 24
    (rect 24 24 fun i j => i + j) (rect 24 24 fun i j => i * j) true 8 12 2 4 =
    ND.pure (rowMajor 24 fun i j => ∑ k ∈ Finset.range 24, (i + k) * (j * k)) :=
  C90_improved_exact junk _ 24 1 12 _ _ (fun i j => i + j) (fun i j => i * j) true 12 8 2 4
    (holds_rect 24 24 fun i j => i + j) (holds_rect 24 24 fun i j => i * j) rfl (by decide)
    (by omega) (by omega) (by omega)
    (fun _ _ => ⟨⟨3, rfl⟩, fun d hd _ => by
      have : d = 0 ∨ d = 1 := by omega
      rcases this with rfl | rfl <;> decide⟩)
end Examples

end Verif.Props
