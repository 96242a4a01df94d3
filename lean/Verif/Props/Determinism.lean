import Verif.Props.Driver
import Verif.Props.ScheduleDrop
import Verif.Props.Algorithms
import Verif.Props.Semi
import Verif.Props.Combined
import Verif.Props.KernelTest
import Verif.Props.KernelTiled
/-
C114: the program computes a function of its input.
-/
set_option linter.unusedSectionVars false
namespace Verif.Props
open Driver
variable {α : Type} [Arith α]

/-- All executions end in the same way, with the same result. -/
def OneOutcome {R : Type} (p : ND R) : Prop := ∃ o, ∀ o', p o' ↔ o' = o

private theorem one_pure {R : Type} (r : R) : OneOutcome (ND.pure r) := ⟨.ok r, fun _ => Iff.rfl⟩
private theorem one_fail {R : Type} (e : Err) : OneOutcome (ND.fail e : ND R) :=
  ⟨.error e, fun _ => Iff.rfl⟩
private theorem one_ofM {R : Type} (m : M R) : OneOutcome (ND.ofM m) := ⟨m, fun _ => Iff.rfl⟩

private theorem one_of_all {R : Type} {p : ND R} {o : Except Err R} (h : ∃ o, p o)
    (h' : ∀ o', p o' → o' = o) : OneOutcome p :=
  ⟨o, fun o' => ⟨h' o', fun e => by obtain ⟨x, hx⟩ := h; rw [e, ← h' x hx]; exact hx⟩⟩

private theorem algorithms_empty (A B : Array α) (bi br : Nat) :
    Algorithms.matrix_multiply 0 A B bi br = Algorithms.matrix_multiply 0 A B 1 br := by
  have : ∀ bi, Algorithms.tree 0 A B bi br = .par [] := by
    intro bi
    simp [Algorithms.tree, Algorithms.result_blocks]
  unfold Algorithms.matrix_multiply
  rw [this, this]

private theorem semi_empty {A B : Array α} {a b : Nat → Nat → α} (hA : Holds A 0 0 a)
    (hB : Holds B 0 0 b) (bi : Nat) :
    Semi.matrix_multiply 0 A B bi = Semi.matrix_multiply 0 A B 1 := by
  have : ∀ bi, Semi.tree 0 (rowMajor 0 a) (rowMajor 0 b) bi
      ⟨3, [([4, 2, bi], [false, false, false])]⟩ = .seq [] := by
    intro bi
    rw [Semi.tree_eq, IndexIterator.loop_nest, IndexIterator.execute_looped,
      if_neg (by simp), if_neg (by simp)]
    simp [steps, IndexIterator.Calls.toTree, ceilDiv]
  rw [semi_mm_eq hA hB, semi_mm_eq hA hB, this, this]

private theorem one_bind {R S : Type} {p : ND R} {f : R → ND S} (hp : OneOutcome p)
    (hf : ∀ r, OneOutcome (f r)) : OneOutcome (p >>= f) := by
  obtain ⟨o, ho⟩ := hp
  have hp : p = ND.ofM o := by funext o'; exact propext (ho o')
  cases o with
  | error e =>
    rw [hp, show (ND.ofM (.error e) : ND R) = ND.fail e from rfl, ND.fail_bind]
    exact one_fail e
  | ok r =>
    rw [hp, ND.ofM_ok, ND.pure_bind']
    exact hf r

private theorem one_printIf (v : Nat) (p : Util.Print α Unit) : OneOutcome (printIf v p) := by
  unfold printIf printed
  split
  · exact one_ofM _
  · exact one_pure _

/-- The only case in which the kind of undefined behaviour may depend on the schedule (see
`C114_unsettled`). -/
def Unsettled (o : Opts) : Prop :=
  o.algorithm = "kernel_test" ∧ 1 ≤ o.repetitions ∧ ¬ SafeSize o.N

/-- **C114.** Whatever algorithm and parameters are chosen, on whatever matrices: all executions of
the multiplication end in the same way, with the same result to the last bit, or with the same
error. -/
theorem C114_algorithm (e : Env α) (o : Opts) (P : ND (Array α)) (h : Requested e o P)
    (hL : 0 < e.localities) (hu : ¬ Unsettled o) : OneOutcome P := by
  have hA : Holds (vecA e o.N) o.N o.N (entryA e o.N) := holds_rect _ _ _
  have hB : Holds (vecB e o.N) o.N o.N (entryB e) := holds_rect _ _ _
  have hsA : (vecA e o.N).size = o.N * o.N := rect_size _ _ _
  cases h with
  | single _ _ =>
    obtain ⟨x, hx, _⟩ := C94_single o.N (vecA e o.N) (vecB e o.N) o.transposed o.block_result
      o.block_input o.repetitions
    exact ⟨x, hx⟩
  | single_none _ _ => exact one_pure _
  | pseudodynamic _ =>
    obtain ⟨x, hx, _⟩ := C94_pseudodynamic ⟨o.min_work_size, o.max_work_difference, e.relOk⟩ o.N
      (vecA e o.N) (vecB e o.N) o.transposed o.block_result o.block_input o.repetitions
      e.localities hL
    exact ⟨x, hx⟩
  | algorithms _ _ =>
    rcases Nat.eq_zero_or_pos o.block_result with hbr | hbr
    · rw [hbr, C25_zero_block_result]
      exact one_fail _
    · rcases Nat.eq_zero_or_pos o.N with hN | hN
      · rw [hN, algorithms_empty, C24_algorithms 0 _ _ _ _ (hN ▸ hA) (hN ▸ hB) 1 _ Nat.one_pos hbr
          (Nat.dvd_zero _) (Nat.dvd_zero _)]
        exact one_pure _
      · rcases Nat.eq_zero_or_pos o.block_input with hbi | hbi
        · rw [hbi]
          exact one_of_all (C25_outcome _ _ _ _ _ hbr) (C25_zero_block_input _ _ _ _ hN hbr)
        · by_cases hd : o.block_input ∣ o.N ∧ o.block_result ∣ o.N
          · rw [C24_algorithms _ _ _ _ _ hA hB _ _ hbi hbr hd.1 hd.2]
            exact one_pure _
          · exact one_of_all (C25_outcome _ _ _ _ _ hbr)
              (C25_nondividing _ _ _ _ _ hsA hN hbi hbr hd)
  | looped _ _ => exact one_ofM _
  | semi _ _ =>
    rcases Nat.eq_zero_or_pos o.N with hN | hN
    · have hA : Holds (vecA e 0) 0 0 (entryA e 0) := holds_rect _ _ _
      have hB : Holds (vecB e 0) 0 0 (entryB e) := holds_rect _ _ _
      rw [hN, semi_empty hA hB, C32_semi 0 _ _ _ _ hA hB 1 (Nat.dvd_zero _) Nat.one_pos
        (Nat.dvd_zero _)]
      exact one_pure _
    · rcases Nat.eq_zero_or_pos o.block_input with hbi | hbi
      · rw [hbi]
        exact ⟨_, C33_zero_block _ _ _ _ _ hA hB hN⟩
      · by_cases hd : 4 ∣ o.N ∧ o.block_input ∣ o.N
        · rw [C32_semi _ _ _ _ _ hA hB _ hd.1 hbi hd.2]
          exact one_pure _
        · exact ⟨_, C33_oob _ _ _ _ _ hA hB _ hN hbi hd⟩
  | combined _ _ =>
    rw [C35_combined _ Combined.valid _ _ _ _ _ hA hB]
    exact one_pure _
  | proposal _ => exact one_ofM _
  | kernel_test hk =>
    rcases Nat.eq_zero_or_pos o.repetitions with hr | hr
    · rw [hr, C39_kernel_test_zero _ _ _ _ _ hA hB]
      exact one_pure _
    · rw [C39_kernel_test _ (not_not.1 fun hs => hu ⟨hk, hr, hs⟩) _ _ _ _ hA hB _ _ hr]
      exact one_pure _
  | kernel_tiled _ =>
    rw [C37_kernel_tiled _ KernelTiled.valid _ _ _ _ _ hA hB]
    exact one_pure _

/-- **C114.** The program: for all options, all random numbers and any number of localities, every
execution ends with the same report (exit status, result to the last bit, verdict of the check) or
with the same error. -/
theorem C114_program (e : Env α) (o : Opts) (hL : 0 < e.localities) (hu : ¬ Unsettled o) :
    OneOutcome (main e o) := by
  cases hh : o.help with
  | true =>
    by_cases h1 : o.algorithm = "kernel_test"
    · rcases Nat.eq_zero_or_pos o.N with hN | hN
      · unfold main hpx_main
        rw [if_pos hh, ND.pure_bind']
        unfold after_hpx kernels
        have hE : Holds (#[] : Array α) o.N o.N fun _ _ => Arith.zero := fun i hi => by omega
        rw [if_pos h1]
        refine one_bind (one_bind ?_ fun C => one_bind (one_printIf _ _) fun _ => one_pure _)
          fun r => ?_
        · show OneOutcome (KernelTest.matrix_multiply o.N #[] #[] o.transposed o.repetitions)
          rcases Nat.eq_zero_or_pos o.repetitions with hr | hr
          · rw [hr, C39_kernel_test_zero _ _ _ _ _ hE hE]
            exact one_pure _
          rw [C39_kernel_test _ (.inl hN) _ _ _ _ hE hE _ _ hr]
          exact one_pure _
        · cases r with
          | none => exact one_pure _
          | some C => exact one_bind (one_pure _) fun _ => one_pure _
      · rw [C61_help_kernel_test e o hh h1 hN]
        exact one_fail _
    · by_cases h2 : o.algorithm = "kernel_tiled"
      · rcases Nat.eq_zero_or_pos o.N with hN | hN
        · unfold main hpx_main
          rw [if_pos hh, ND.pure_bind']
          unfold after_hpx kernels
          have hE : Holds (#[] : Array α) o.N o.N fun _ _ => Arith.zero := fun i hi => by omega
          rw [if_neg h1, if_pos h2]
          refine one_bind (one_bind ?_ fun C => one_bind (one_printIf _ _) fun _ => one_pure _)
            fun r => ?_
          · show OneOutcome (KernelTiled.matrix_multiply KernelTiled.blocking o.N #[] #[] o.transposed
              o.repetitions)
            rw [C37_kernel_tiled _ KernelTiled.valid _ _ _ _ _ hE hE]
            exact one_pure _
          · cases r with
            | none => exact one_pure _
            | some C => exact one_bind (one_pure _) fun _ => one_pure _
        · rw [C61_help_kernel_tiled e o hh h2 hN]
          exact one_fail _
      · rw [C61_help e o hh h1 h2]
        exact one_pure _
  | false =>
    rcases C50_cases e o with ⟨h, _, _⟩ | ⟨_, h, _⟩ | ⟨_, _, P, h, _⟩
    · rw [C50_unknown e o hh h]
      exact one_pure _
    · obtain ⟨msg, h⟩ := C50_rejected e o hh h
      rw [h]
      exact one_fail _
    · obtain ⟨x, hx⟩ := C114_algorithm e o P h hL hu
      cases x with
      | error x =>
        refine ⟨.error x, fun o' => ?_⟩
        cases o' with
        | error y =>
          rw [C50_errors e o P hh h y, hx]
          constructor
          · rintro (h | ⟨_, _, C, hC, _⟩)
            · exact congrArg _ (Except.error.inj h)
            · rw [hx] at hC; cases hC
          · exact fun h => .inl (congrArg _ (Except.error.inj h))
        | ok rep =>
          rw [C50_returns e o P hh h rep, hx]
          constructor
          · rintro ⟨h, _⟩; cases h
          · intro h; cases h
      | ok C =>
        by_cases hs : 2 ≤ o.verbose ∧ C.size < o.N * o.N
        · refine ⟨.error .outOfRange, fun o' => ?_⟩
          cases o' with
          | error y =>
            rw [C50_errors e o P hh h y, hx]
            constructor
            · rintro (h | ⟨rfl, _⟩)
              · cases h
              · rfl
            · intro h
              cases h
              exact .inr ⟨rfl, hs.1, C, (hx _).2 rfl, hs.2⟩
          | ok rep =>
            rw [C50_returns e o P hh h rep, hx]
            constructor
            · rintro ⟨h, _, _, h', _⟩
              have := Except.ok.inj h
              rw [this] at h'
              exact absurd (h' hs.1) (by omega)
            · intro h; cases h
        · classical
          refine ⟨.ok ⟨0, false, if e.root = true ∧ o.check = true then
            some (decide (Accepts e o.N C)) else none, C⟩, fun o' => ?_⟩
          cases o' with
          | error y =>
            rw [C50_errors e o P hh h y, hx]
            constructor
            · rintro (h | ⟨_, h1, C', hC', h2⟩)
              · cases h
              · rw [hx] at hC'
                cases hC'
                exact absurd ⟨h1, h2⟩ hs
            · intro h; cases h
          | ok rep =>
            rw [C50_returns e o P hh h rep, hx]
            obtain ⟨st, inv, chk, C'⟩ := rep
            constructor
            · rintro ⟨h1, rfl, rfl, _, h5⟩
              have h1 := Except.ok.inj h1
              simp only at h1 h5
              subst h1
              rcases h5 with ⟨hr, hc, b, hb, hb'⟩ | ⟨hn, hb⟩
              · rw [if_pos ⟨hr, hc⟩, hb]
                by_cases ha : Accepts e o.N C'
                · rw [hb'.2 ha, decide_eq_true ha]
                · rw [decide_eq_false ha, Bool.eq_false_iff.2 fun h => ha (hb'.1 h)]
              · rw [if_neg hn, hb]
            · intro h
              have h := Except.ok.inj h
              simp only [Report.mk.injEq] at h
              obtain ⟨rfl, rfl, rfl, rfl⟩ := h
              refine ⟨rfl, rfl, rfl, fun hv => not_lt.1 fun h => hs ⟨hv, h⟩, ?_⟩
              by_cases hrc : e.root = true ∧ o.check = true
              · exact .inl ⟨hrc.1, hrc.2, decide (Accepts e o.N C'), if_pos hrc, by simp⟩
              · exact .inr ⟨hrc, if_neg hrc⟩

/-- **C114.** In the remaining case every execution ends with undefined behaviour. -/
theorem C114_unsettled (e : Env α) (o : Opts) (hh : o.help = false) (hu : Unsettled o)
    (r : Except Err (Report α)) (h : main e o r) : r = .error .oob ∨ r = .error .misaligned := by
  obtain ⟨_, hP⟩ := C39_kernel_test_ub o.N hu.2.2 (vecA e o.N) (vecB e o.N) o.transposed
    o.repetitions hu.2.1
  have hreq := Requested.kernel_test (e := e) hu.1
  cases r with
  | error x =>
    rcases (C50_errors e o _ hh hreq x).1 h with h | ⟨_, _, C, h, _⟩
    · rcases hP _ h with h | h
      · exact .inl (congrArg _ (Except.error.inj h))
      · exact .inr (congrArg _ (Except.error.inj h))
    · rcases hP _ h with h | h <;> cases h
  | ok rep =>
    rcases hP _ ((C50_returns e o _ hh hreq rep).1 h).1 with h | h <;> cases h

/-- **C114.** The number of localities matters only for "pseudodynamic". -/
theorem C114_localities (e : Env α) (o : Opts) (L : Nat) (h : o.algorithm ≠ "pseudodynamic") :
    main { e with localities := L } o = main e o := by
  have hd : ∀ A B, dispatch { e with localities := L } o A B = dispatch e o A B := by
    intro A B
    unfold dispatch
    simp only [if_neg h]
  have hm : hpx_main { e with localities := L } o = hpx_main e o := by
    unfold hpx_main
    simp only [hd]
    rfl
  unfold main
  rw [hm]
  rfl

section Examples
attribute [local instance] exact

private def someEnv : Env Int where
  one := 1
  rand := fun n => n
  close := fun a b => decide (a = b)
  absDiff := fun a b => |a - b|
  root := true
  localities := 5
  relOk := fun _ _ => false
  junk := fun _ => #[0, 0]

-- the defaults (an access out of bounds) and a size that is not a power of two
example : OneOutcome (main someEnv {}) :=
  C114_program _ _ (by decide) fun h => absurd h.1 (by decide)

example : OneOutcome (main someEnv { N := 100, algorithm := "pseudodynamic", check := true }) :=
  C114_program _ _ (by decide) fun h => absurd h.1 (by simp)

example : Unsettled { N := 6, algorithm := "kernel_test" } :=
  ⟨rfl, Nat.le_refl 1, by unfold SafeSize; decide⟩

end Examples

end Verif.Props
