import Verif.Proof.Driver
import Verif.Props.Agree
import Verif.Props.Proposal
import Verif.Props.Domain
/-
Properties of the driver program: C50, C51, C52, C59, C60, C61, C62.
-/
namespace Verif.Props
open Driver
variable {α : Type} [Arith α]

/-! ### C50: selection of the algorithm -/

/-- Lemma for the theorems below: what the program does with the requested algorithm. -/
theorem driver_requested (e : Env α) (o : Opts) (P : ND (Array α)) (hh : o.help = false)
    (h : Requested e o P) : main e o = P >>= finish e o := by
  cases h with
  | single ha hr =>
    refine main_hpx e o _ hh (by rw [ha]; decide) (by rw [ha]; decide) ?_
    rw [dispatch, if_pos ha, single_eq o _ _ hr]
    rfl
  | single_none ha hr =>
    refine main_hpx e o _ hh (by rw [ha]; decide) (by rw [ha]; decide) ?_
    rw [dispatch, if_pos ha, single_zero o _ _ hr]
    rfl
  | pseudodynamic ha =>
    refine main_hpx e o _ hh (by rw [ha]; decide) (by rw [ha]; decide) ?_
    rw [dispatch, if_neg (by rw [ha]; decide), if_pos ha]
    rfl
  | algorithms ha ht =>
    refine main_hpx e o _ hh (by rw [ha]; decide) (by rw [ha]; decide) ?_
    rw [dispatch, if_neg (by rw [ha]; decide), if_neg (by rw [ha]; decide), if_pos ha,
      if_neg (by simp [ht])]
    rfl
  | looped ha ht =>
    refine main_hpx e o _ hh (by rw [ha]; decide) (by rw [ha]; decide) ?_
    rw [dispatch, if_neg (by rw [ha]; decide), if_neg (by rw [ha]; decide),
      if_neg (by rw [ha]; decide), if_pos ha, if_neg (by simp [ht])]
    rfl
  | semi ha ht =>
    refine main_hpx e o _ hh (by rw [ha]; decide) (by rw [ha]; decide) ?_
    rw [dispatch, if_neg (by rw [ha]; decide), if_neg (by rw [ha]; decide),
      if_neg (by rw [ha]; decide), if_neg (by rw [ha]; decide), if_pos ha, if_neg (by simp [ht])]
    rfl
  | combined ha ht =>
    refine main_hpx e o _ hh (by rw [ha]; decide) (by rw [ha]; decide) ?_
    rw [dispatch, if_neg (by rw [ha]; decide), if_neg (by rw [ha]; decide),
      if_neg (by rw [ha]; decide), if_neg (by rw [ha]; decide), if_neg (by rw [ha]; decide),
      if_pos ha, if_neg (by simp [ht])]
    rfl
  | proposal ha =>
    refine main_hpx e o _ hh (by rw [ha]; decide) (by rw [ha]; decide) ?_
    rw [dispatch, if_neg (by rw [ha]; decide), if_neg (by rw [ha]; decide),
      if_neg (by rw [ha]; decide), if_neg (by rw [ha]; decide), if_neg (by rw [ha]; decide),
      if_neg (by rw [ha]; decide), if_pos ha]
    rfl
  | kernel_test ha =>
    rw [main_late e o hh]
    · refine after_kernel e o _ ?_
      rw [kernels, if_pos ha]
      rfl
    · rw [dispatch, if_neg (by rw [ha]; decide), if_neg (by rw [ha]; decide),
        if_neg (by rw [ha]; decide), if_neg (by rw [ha]; decide), if_neg (by rw [ha]; decide),
        if_neg (by rw [ha]; decide), if_neg (by rw [ha]; decide)]
  | kernel_tiled ha =>
    rw [main_late e o hh]
    · refine after_kernel e o _ ?_
      rw [kernels, if_neg (by rw [ha]; decide), if_pos ha]
      rfl
    · rw [dispatch, if_neg (by rw [ha]; decide), if_neg (by rw [ha]; decide),
        if_neg (by rw [ha]; decide), if_neg (by rw [ha]; decide), if_neg (by rw [ha]; decide),
        if_neg (by rw [ha]; decide), if_neg (by rw [ha]; decide)]

/-- **C50.** Every combination of options without `--help` is of exactly one of three kinds: the
name is unknown, the flag contradicts the algorithm, or there is exactly one requested program. -/
theorem C50_cases (e : Env α) (o : Opts) :
    (o.algorithm ∉ names ∧ ¬ Rejected o ∧ ¬ ∃ P, Requested e o P) ∨
    (o.algorithm ∈ names ∧ Rejected o ∧ ¬ ∃ P, Requested e o P) ∨
    (o.algorithm ∈ names ∧ ¬ Rejected o ∧ ∃ P, Requested e o P ∧ ∀ P', Requested e o P' → P' = P) := by
  obtain ⟨N, t, r, v, br, bi, c, alg, mw, md, h⟩ := o
  have uniq : ∀ P P', Requested e ⟨N, t, r, v, br, bi, c, alg, mw, md, h⟩ P →
      Requested e ⟨N, t, r, v, br, bi, c, alg, mw, md, h⟩ P' → P' = P := by
    intro P P' h1 h2
    cases h1 <;> cases h2 <;> simp_all
  by_cases hn : alg ∈ names
  · right
    have hx : (∃ P, Requested e ⟨N, t, r, v, br, bi, c, alg, mw, md, h⟩ P) ↔
        ¬ Rejected ⟨N, t, r, v, br, bi, c, alg, mw, md, h⟩ := by
      simp only [names, List.mem_cons, List.not_mem_nil, or_false] at hn
      constructor
      · rintro ⟨P, hP⟩
        unfold Rejected needsTransposed
        cases hP <;> simp_all
      · intro hr
        unfold Rejected needsTransposed at hr
        rcases hn with rfl | rfl | rfl | rfl | rfl | rfl | rfl | rfl | rfl
        · rcases Nat.eq_zero_or_pos r with rfl | h0
          · exact ⟨_, .single_none rfl rfl⟩
          · exact ⟨_, .single rfl h0⟩
        · exact ⟨_, .pseudodynamic rfl⟩
        · exact ⟨_, .algorithms rfl (by simpa using hr)⟩
        · exact ⟨_, .looped rfl (by simpa using hr)⟩
        · exact ⟨_, .semi rfl (by simpa using hr)⟩
        · exact ⟨_, .combined rfl (by simpa using hr)⟩
        · exact ⟨_, .proposal rfl⟩
        · exact ⟨_, .kernel_test rfl⟩
        · exact ⟨_, .kernel_tiled rfl⟩
    by_cases hr : Rejected ⟨N, t, r, v, br, bi, c, alg, mw, md, h⟩
    · exact .inl ⟨hn, hr, fun h => hx.1 h hr⟩
    · obtain ⟨P, hP⟩ := hx.2 hr
      exact .inr ⟨hn, hr, P, hP, fun P' h' => uniq P P' hP h'⟩
  · left
    refine ⟨hn, ?_, ?_⟩
    · unfold Rejected needsTransposed
      simp only [names, List.mem_cons, List.not_mem_nil, or_false] at hn ⊢
      tauto
    · rintro ⟨P, hP⟩
      apply hn
      cases hP <;> simp_all [names]

/-- **C50.** An unknown name: exit status 1, the message, no check and no result; no other outcome.
Whatever the other options are. -/
theorem C50_unknown (e : Env α) (o : Opts) (hh : o.help = false) (h : o.algorithm ∉ names) :
    main e o = ND.pure ⟨1, true, none, #[]⟩ := by
  simp only [names, List.mem_cons, List.not_mem_nil, or_false, not_or] at h
  obtain ⟨h1, h2, h3, h4, h5, h6, h7, h8, h9⟩ := h
  rw [main_late e o hh]
  · unfold after_hpx kernels
    rw [if_neg h8, if_neg h9, if_pos rfl, ND.pure_bind']
    rfl
  · rw [dispatch, if_neg h1, if_neg h2, if_neg h3, if_neg h4, if_neg h5, if_neg h6, if_neg h7]

/-- **C50.** A flag that contradicts the algorithm: the program ends with an exception, whatever the
other options are. -/
theorem C50_rejected (e : Env α) (o : Opts) (hh : o.help = false) (h : Rejected o) :
    ∃ msg, main e o = ND.fail (.exception msg) := by
  unfold Rejected needsTransposed at h
  simp only [List.mem_cons, List.not_mem_nil, or_false] at h
  rcases h with ⟨ha | ha | ha, ht⟩ | ⟨ha, ht⟩
  · refine ⟨_, main_throws e o (.exception "algorithm \"algorithms\" requires B to be transposed") hh
      ?_⟩
    rw [dispatch, if_neg (by rw [ha]; decide), if_neg (by rw [ha]; decide), if_pos ha,
      if_pos (by simp [ht])]
    rfl
  · refine ⟨_, main_throws e o (.exception "algorithm \"looped\" requires B to be transposed") hh ?_⟩
    rw [dispatch, if_neg (by rw [ha]; decide), if_neg (by rw [ha]; decide),
      if_neg (by rw [ha]; decide), if_pos ha, if_pos (by simp [ht])]
    rfl
  · refine ⟨_, main_throws e o (.exception "algorithm \"semi\" requires B to be transposed") hh ?_⟩
    rw [dispatch, if_neg (by rw [ha]; decide), if_neg (by rw [ha]; decide),
      if_neg (by rw [ha]; decide), if_neg (by rw [ha]; decide), if_pos ha, if_pos (by simp [ht])]
    rfl
  · refine ⟨_, main_throws e o
      (.exception "algorithm \"combined\" doens't allow B to be transposed") hh ?_⟩
    rw [dispatch, if_neg (by rw [ha]; decide), if_neg (by rw [ha]; decide),
      if_neg (by rw [ha]; decide), if_neg (by rw [ha]; decide), if_neg (by rw [ha]; decide),
      if_pos ha, if_pos (by simp [ht])]
    rfl

/-- **C50.** The messages of these exceptions name the algorithm and the flag. -/
theorem C50_messages (e : Env α) (o : Opts) (hh : o.help = false) :
    (o.transposed = false →
      (o.algorithm = "algorithms" →
        main e o = ND.fail (.exception "algorithm \"algorithms\" requires B to be transposed")) ∧
      (o.algorithm = "looped" →
        main e o = ND.fail (.exception "algorithm \"looped\" requires B to be transposed")) ∧
      (o.algorithm = "semi" →
        main e o = ND.fail (.exception "algorithm \"semi\" requires B to be transposed"))) ∧
    (o.transposed = true → o.algorithm = "combined" →
      main e o = ND.fail (.exception "algorithm \"combined\" doens't allow B to be transposed")) := by
  refine ⟨fun ht => ⟨fun ha => ?_, fun ha => ?_, fun ha => ?_⟩, fun ht ha => ?_⟩
  all_goals
    refine main_throws e o _ hh ?_
    rw [dispatch, if_neg (by rw [ha]; decide), if_neg (by rw [ha]; decide)]
  · rw [if_pos ha, if_pos (by simp [ht])]; rfl
  · rw [if_neg (by rw [ha]; decide), if_pos ha, if_pos (by simp [ht])]; rfl
  · rw [if_neg (by rw [ha]; decide), if_neg (by rw [ha]; decide), if_pos ha, if_pos (by simp [ht])]; rfl
  · rw [if_neg (by rw [ha]; decide), if_neg (by rw [ha]; decide), if_neg (by rw [ha]; decide), if_pos ha,
      if_pos (by simp [ht])]
    rfl

/-- **C50.** Normal ends of the program: exit status 0, `C` is a result of the requested program,
and nothing but a missing result with `verbose ≥ 2` keeps a result from being reported. -/
theorem C50_returns (e : Env α) (o : Opts) (P : ND (Array α)) (hh : o.help = false)
    (h : Requested e o P) (rep : Report α) :
    main e o (.ok rep) ↔ P (.ok rep.C) ∧ rep.status = 0 ∧ rep.invalid = false ∧
      (2 ≤ o.verbose → o.N * o.N ≤ rep.C.size) ∧
      ((e.root = true ∧ o.check = true ∧
          ∃ b, rep.check = some b ∧ (b = true ↔ Accepts e o.N rep.C)) ∨
        (¬ (e.root = true ∧ o.check = true) ∧ rep.check = none)) := by
  have hacc : ∀ C, std_equal e.close C (reference e o.N) = true ↔ Accepts e o.N C :=
    fun C => std_equal_iff e.close o.N C _
  rw [driver_requested e o P hh h]
  constructor
  · rintro (⟨x, _, h'⟩ | ⟨C, hC, hf⟩)
    · cases h'
    · unfold finish at hf
      split at hf
      · cases hf
      · next hv =>
        cases hf
        refine ⟨hC, rfl, rfl, fun h2 => ?_, ?_⟩
        · simp only [not_and] at hv
          exact Nat.le_of_not_lt (hv h2)
        · by_cases hb : e.root = true ∧ o.check = true
          · left
            refine ⟨hb.1, hb.2, _, ?_, hacc C⟩
            simp only [hb.1, hb.2, Bool.and_self, if_true]
          · right
            refine ⟨hb, ?_⟩
            rw [← Bool.and_eq_true] at hb
            simp only [hb]
            rfl
  · rintro ⟨hC, h0, hi, hv, hb⟩
    refine .inr ⟨rep.C, hC, ?_⟩
    unfold finish
    rw [if_neg (fun h => absurd (hv h.1) (Nat.not_le_of_lt h.2))]
    obtain ⟨st, inv, ck, C⟩ := rep
    simp only at h0 hi hb hC
    subst h0 hi
    show Except.ok _ = Except.ok _
    refine congrArg Except.ok ?_
    rcases hb with ⟨h1, h2, b, rfl, hb⟩ | ⟨h1, rfl⟩
    · simp only [h1, h2, Bool.and_self, if_true]
      have : b = std_equal e.close C (reference e o.N) := by
        rw [Bool.eq_iff_iff, hb, hacc C]
      rw [this]
    · rw [← Bool.and_eq_true] at h1
      simp only [h1]
      rfl

/-- **C50.** Abnormal ends of the program: an error of the requested program, or printing a result
that is too short. -/
theorem C50_errors (e : Env α) (o : Opts) (P : ND (Array α)) (hh : o.help = false)
    (h : Requested e o P) (x : Err) :
    main e o (.error x) ↔ P (.error x) ∨
      (x = .outOfRange ∧ 2 ≤ o.verbose ∧ ∃ C, P (.ok C) ∧ C.size < o.N * o.N) := by
  rw [driver_requested e o P hh h]
  constructor
  · rintro (⟨x', hx, h'⟩ | ⟨C, hC, hf⟩)
    · cases h'
      exact .inl hx
    · unfold finish at hf
      split at hf
      · next hv =>
        cases hf
        exact .inr ⟨rfl, hv.1, C, hC, hv.2⟩
      · cases hf
  · rintro (hx | ⟨rfl, hv, C, hC, hs⟩)
    · exact .inl ⟨x, hx, rfl⟩
    · refine .inr ⟨C, hC, ?_⟩
      unfold finish
      rw [if_pos ⟨hv, hs⟩]
      rfl

/-- **C50.** The localities that do not run `hpx_main` do nothing. -/
theorem C50_worker (e : Env α) : main_worker e = ND.pure ⟨0, false, none, #[]⟩ := by
  unfold main_worker after_hpx kernels
  rw [if_neg (by simp [Globals.init]), if_neg (by simp [Globals.init]),
    if_neg (by simp [Globals.init]), ND.pure_bind']
  show check e _ _ >>= _ = _
  unfold check
  rw [if_neg (by simp [Globals.init]), ND.pure_bind']
  rfl

/-! ### C51: the check -/

/-- **C51.** A check that is made passes if and only if `C` has `N * N` elements, each close to
that of the product. -/
theorem C51_check (e : Env α) (o : Opts) (rep : Report α) (hh : o.help = false)
    (h : main e o (.ok rep)) (hn : o.algorithm ∈ names) (hroot : e.root = true)
    (hc : o.check = true) :
    (rep.check = some true ↔ Accepts e o.N rep.C) ∧
      (rep.check = some false ↔ ¬ Accepts e o.N rep.C) := by
  rcases C50_cases e o with h1 | h1 | h1
  · exact absurd hn h1.1
  · obtain ⟨msg, hm⟩ := C50_rejected e o hh h1.2.1
    rw [hm] at h
    cases h
  · obtain ⟨_, _, P, hP, _⟩ := h1
    obtain ⟨_, _, _, _, h2 | h2⟩ := (C50_returns e o P hh hP rep).1 h
    · obtain ⟨_, _, b, hb, hacc⟩ := h2
      rw [hb]
      cases b <;> simp_all
    · exact absurd ⟨hroot, hc⟩ h2.1

/-- **C51.** Without `--check`, or not on the root locality, nothing is checked. -/
theorem C51_no_check (e : Env α) (o : Opts) (rep : Report α) (hh : o.help = false)
    (h : main e o (.ok rep)) (hc : ¬ (e.root = true ∧ o.check = true)) : rep.check = none := by
  rcases C50_cases e o with h1 | h1 | h1
  · rw [C50_unknown e o hh h1.1] at h
    cases h
    rfl
  · obtain ⟨msg, hm⟩ := C50_rejected e o hh h1.2.1
    rw [hm] at h
    cases h
  · obtain ⟨_, _, P, hP, _⟩ := h1
    obtain ⟨_, _, _, _, h2 | h2⟩ := (C50_returns e o P hh hP rep).1 h
    · exact absurd ⟨h2.1, h2.2.1⟩ hc
    · exact h2.2

/-- **C51.** `single` without repetitions leaves no result; for `N > 0` the check fails (and with
`verbose ≥ 2` printing the result raises before that). -/
theorem C51_missing_result (e : Env α) (o : Opts) (hh : o.help = false) (ha : o.algorithm = "single")
    (hr : o.repetitions = 0) (hN : 0 < o.N) (hroot : e.root = true) (hc : o.check = true) :
    main e o = if 2 ≤ o.verbose then ND.fail .outOfRange
      else ND.pure ⟨0, false, some false, #[]⟩ := by
  have hpos : 0 < o.N * o.N := Nat.mul_pos hN hN
  rw [driver_requested e o _ hh (.single_none ha hr)]
  refine (ND.pure_bind _ _).trans ?_
  unfold finish
  by_cases hv : 2 ≤ o.verbose
  · rw [if_pos ⟨hv, hpos⟩, if_pos hv]
  · rw [if_neg (fun h => hv h.1), if_neg hv]
    refine congrArg ND.pure ?_
    simp only [hroot, hc, Bool.and_self, if_true]
    congr 2
    rw [← Bool.not_eq_true]
    intro h
    have := ((std_equal_iff e.close o.N #[] _).1 h).1
    simp at this
    omega

/-- **C51.** A result with an element that is not close to anything (a NaN) never passes. -/
theorem C51_nan (e : Env α) (o : Opts) (rep : Report α) (hh : o.help = false)
    (h : main e o (.ok rep)) (hn : o.algorithm ∈ names) (hroot : e.root = true)
    (hc : o.check = true) (p : Nat) (c : α) (hp : rep.C[p]? = some c)
    (hnan : ∀ y, e.close c y = false) : rep.check = some false := by
  refine (C51_check e o rep hh h hn hroot hc).2.2 fun hacc => ?_
  have hlt : p < o.N * o.N := by
    rw [← hacc.1]
    exact (Array.getElem?_eq_some_iff.1 hp).1
  have hN : 0 < o.N := Nat.pos_of_ne_zero fun h0 => by rw [h0] at hlt; omega
  obtain ⟨c', hc', hcl⟩ := hacc.2 (p / o.N) (Nat.div_lt_of_lt_mul hlt) (p % o.N) (Nat.mod_lt _ hN)
  rw [Nat.div_add_mod' p o.N, hp] at hc'
  cases hc'
  rw [hnan] at hcl
  cases hcl

/-- **C62.** The exit status does not depend on the check: it is 0 for every known algorithm that
returns, 1 for an unknown name.  A failed check is only visible in the output. -/
theorem C62_exit_status (e : Env α) (o : Opts) (rep : Report α) (hh : o.help = false)
    (h : main e o (.ok rep)) : (o.algorithm ∈ names → rep.status = 0 ∧ rep.invalid = false) ∧
      (o.algorithm ∉ names → rep.status = 1 ∧ rep.invalid = true) := by
  rcases C50_cases e o with h1 | h1 | h1
  · rw [C50_unknown e o hh h1.1] at h
    cases h
    exact ⟨fun hn => absurd hn h1.1, fun _ => ⟨rfl, rfl⟩⟩
  · obtain ⟨msg, hm⟩ := C50_rejected e o hh h1.2.1
    rw [hm] at h
    cases h
  · obtain ⟨hn, _, P, hP, _⟩ := h1
    obtain ⟨_, h2, h3, _⟩ := (C50_returns e o P hh hP rep).1 h
    exact ⟨fun _ => ⟨h2, h3⟩, fun hn' => absurd hn hn'⟩

/-! ### C52: the check cannot detect a wrong transposition -/

/-- **C52.** The two references the driver may compare with are the same program outcome, bit for
bit, for every arithmetic. -/
theorem C52_references (e : Env α) (N : Nat) :
    Naive.naive_matrix_multiply_transposed N (vecA e N) (vecB e N) =
      Naive.naive_matrix_multiply N (vecA e N) (vecB e N) :=
  (ref_eq e N true).trans (ref_eq e N false).symm

/-- **C52.** In exact arithmetic the check compares the result with `A` itself, whatever the flag
`transposed` is. -/
theorem C52_check_is_A {R : Type} [Semiring R] (e : Env R) (h1 : e.one = 1) (N : Nat)
    (C : Array R) :
    @Accepts R (exact R) e N C ↔ C.size = N * N ∧ ∀ i, i < N → ∀ j, j < N →
      ∃ c, C[i * N + j]? = some c ∧ e.close c (e.rand (i * N + j)) = true := by
  have hB : @entryB R (exact R) e = idMat := by
    funext i j
    simp only [entryB, idMat, h1]
    rfl
  unfold Accepts
  refine and_congr_right fun _ => ?_
  have he : ∀ i j, i < N → j < N →
      @mulSpec R (exact R) N (@entryA R e N) (@entryB R (exact R) e) i j = e.rand (i * N + j) := by
    intro i j hi hj
    rw [mulSpec_exact, hB]
    exact (C49_neutral N _ i j hi hj).1
  constructor
  · intro h i hi j hj
    obtain ⟨c, hc, hcl⟩ := h i hi j hj
    exact ⟨c, hc, he i j hi hj ▸ hcl⟩
  · intro h i hi j hj
    obtain ⟨c, hc, hcl⟩ := h i hi j hj
    exact ⟨c, hc, (he i j hi hj).symm ▸ hcl⟩

/-- The report of a run whose check, if it is made, passes. -/
def passed (e : Env α) (o : Opts) (C : Array α) : Report α :=
  ⟨0, false, if e.root && o.check then some true else none, C⟩

private theorem run_passed {R : Type} [Semiring R] (e : Env R) (h1 : e.one = 1)
    (hcl : ∀ x, e.close x x = true) (o : Opts) (hh : o.help = false) (P : ND (Array R))
    (hreq : @Requested R (exact R) e o P)
    (hP : P = ND.pure (rowMajor o.N (matProd o.N (entryA e o.N) idMat))) :
    @main R (exact R) e o = ND.pure (passed e o (rowMajor o.N (entryA e o.N))) := by
  rw [@driver_requested R (exact R) e o P hh hreq, hP, rowMajor_mul_id]
  refine (ND.pure_bind _ _).trans ?_
  unfold finish
  rw [if_neg (by simp [rect])]
  refine congrArg ND.pure ?_
  unfold passed
  have hacc : @Accepts R (exact R) e o.N (rowMajor o.N (entryA e o.N)) := by
    rw [C52_check_is_A e h1]
    exact ⟨by simp [rect], fun i hi j hj => ⟨_, holds_rect _ _ _ i hi j hj, hcl _⟩⟩
  have : @std_equal R e.close (rowMajor o.N (entryA e o.N)) (@reference R (exact R) e o.N)
      = true := (@std_equal_iff R (exact R) e.close o.N _ _).2 hacc
  rw [this]

private theorem entryB_exact {R : Type} [Semiring R] (e : Env R) (h1 : e.one = 1) :
    @entryB R (exact R) e = idMat := by
  funext i j
  simp only [entryB, idMat, h1]
  rfl

private theorem holdsB {R : Type} [Semiring R] (e : Env R) (h1 : e.one = 1) (N : Nat) :
    Holds (@vecB R (exact R) e N) N N idMat := by
  unfold vecB
  rw [entryB_exact e h1]
  exact holds_rect _ _ _

/-- **C52.** `kernel_tiled` ignores the flag (C38), yet for every size, both values of the flag and
all random numbers the check passes, and the result is the same for both values. -/
theorem C52_undetected {R : Type} [Semiring R] (e : Env R) (h1 : e.one = 1)
    (hcl : ∀ x, e.close x x = true) (o : Opts) (hh : o.help = false)
    (ha : o.algorithm = "kernel_tiled") (hr : 1 ≤ o.repetitions) :
    @main R (exact R) e o = ND.pure (passed e o (rowMajor o.N (entryA e o.N))) :=
  run_passed e h1 hcl o hh _ (@Requested.kernel_tiled R (exact R) e o ha)
    (C37_kernel_tiled_exact o.N _ _ _ _ (holds_rect _ _ _) (holdsB e h1 o.N) o.transposed _ hr)

/-! ### C60: the check passes on the domain of every algorithm -/

/-- The parameters for which the algorithm is known to be correct. -/
inductive Admissible (e : Env α) (o : Opts) : Prop
  | single : o.algorithm = "single" → (∃ k, o.N = 2 ^ k) → 1 ≤ o.block_result →
      (o.block_input = 0 ∨ o.block_input ∣ o.N) → 1 ≤ o.repetitions → Admissible e o
  | pseudodynamic : o.algorithm = "pseudodynamic" → (∃ k, o.N = 2 ^ k) → 1 ≤ o.block_result →
      (o.block_input = 0 ∨ o.block_input ∣ o.N) → 1 ≤ o.repetitions → 1 ≤ o.min_work_size →
      1 ≤ e.localities → Admissible e o
  | algorithms : o.algorithm = "algorithms" → o.transposed = true → 0 < o.block_input →
      0 < o.block_result → o.block_input ∣ o.N → o.block_result ∣ o.N → Admissible e o
  | looped : o.algorithm = "looped" → o.transposed = true → 0 < o.block_input →
      0 < o.block_result → o.block_input ∣ o.N → o.block_result ∣ o.N → Admissible e o
  | semi : o.algorithm = "semi" → o.transposed = true → 0 < o.block_input →
      o.block_input ∣ o.N → 4 ∣ o.N → Admissible e o
  | combined : o.algorithm = "combined" → o.transposed = false → o.repetitions = 1 → Admissible e o
  | kernel_tiled : o.algorithm = "kernel_tiled" → 1 ≤ o.repetitions → Admissible e o
  | kernel_test : o.algorithm = "kernel_test" → SafeSize o.N → 1 ≤ o.repetitions → Admissible e o

/-- **C60.** In exact arithmetic every run with admissible parameters ends with status 0 and the
matrix `A` as result, and the check, if requested, passes; there is no other outcome. -/
theorem C60_check_passes {R : Type} [Semiring R] (e : Env R) (h1 : e.one = 1)
    (hcl : ∀ x, e.close x x = true) (o : Opts) (hh : o.help = false) (h : Admissible e o) :
    @main R (exact R) e o = ND.pure (passed e o (rowMajor o.N (entryA e o.N))) := by
  have hA : Holds (vecA e o.N) o.N o.N (entryA e o.N) := holds_rect _ _ _
  have hB := holdsB e h1 o.N
  have hif : ∀ t : Bool, (fun i j => ∑ k ∈ Finset.range o.N,
      entryA e o.N i k * (if t then (idMat : Nat → Nat → R) j k else idMat k j)) =
      matProd o.N (entryA e o.N) idMat := by
    intro t
    funext i j
    unfold matProd
    refine Finset.sum_congr rfl fun k _ => ?_
    cases t with
    | false => rfl
    | true => rw [if_pos rfl, show (idMat j k : R) = idMat k j from congrFun (congrFun idMat_tr k) j]
  cases h with
  | single ha hN hbr hbi hr =>
    obtain ⟨k, hk⟩ := hN
    refine run_passed e h1 hcl o hh _ (@Requested.single R (exact R) e o ha hr) ?_
    have := C10_single_pow2_exact k (vecA e o.N) (@vecB R (exact R) e o.N) (entryA e o.N) idMat
      o.transposed o.block_result o.block_input o.repetitions (hk ▸ hA) (hk ▸ hB) hbr (hk ▸ hbi) hr
    rw [← hk] at this
    rw [this, hif]
  | pseudodynamic ha hN hbr hbi hr hm hl =>
    obtain ⟨k, hk⟩ := hN
    refine run_passed e h1 hcl o hh _ (@Requested.pseudodynamic R (exact R) e o ha) ?_
    have := C22_pseudodynamic_pow2 ⟨o.min_work_size, o.max_work_difference, e.relOk⟩ k (vecA e o.N)
      (@vecB R (exact R) e o.N) (entryA e o.N) idMat o.transposed o.block_result o.block_input
      o.repetitions e.localities (hk ▸ hA) (hk ▸ hB) hm hbr hl hr (hk ▸ hbi)
    rw [← hk] at this
    rw [this, hif]
  | algorithms ha ht hbi hbr hdi hdr =>
    refine run_passed e h1 hcl o hh _ (@Requested.algorithms R (exact R) e o ha ht) ?_
    rw [C24_algorithms_exact o.N _ _ _ _ hA hB _ _ hbi hbr hdi hdr]
    exact congrArg (fun f => ND.pure (rowMajor o.N f)) (hif true)
  | looped ha ht hbi hbr hdi hdr =>
    refine run_passed e h1 hcl o hh _ (@Requested.looped R (exact R) e o ha ht) ?_
    rw [C26_looped_exact o.N _ _ _ _ hA hB _ _ hbr hbi hdr hdi]
    exact congrArg (fun f => ND.pure (rowMajor o.N f)) (hif true)
  | semi ha ht hbi hdi h4 =>
    refine run_passed e h1 hcl o hh _ (@Requested.semi R (exact R) e o ha ht) ?_
    rw [C32_semi_exact o.N _ _ _ _ hA hB _ h4 hbi hdi]
    exact congrArg (fun f => ND.pure (rowMajor o.N f)) (hif true)
  | combined ha ht hr =>
    refine run_passed e h1 hcl o hh _ (@Requested.combined R (exact R) e o ha ht) ?_
    rw [hr, C34_combined o.N _ _ _ _ hA hB]
  | kernel_tiled ha hr => exact C52_undetected e h1 hcl o hh ha hr
  | kernel_test ha hs hr =>
    exact run_passed e h1 hcl o hh _ (@Requested.kernel_test R (exact R) e o ha)
      (C39_kernel_test_exact o.N hs _ _ _ _ hA hB _ _ hr)

/-- **C60.** `combined` with `r` repetitions: the result is `r • A`, so the check passes exactly if
`r • a` is close to `a` for all elements `a` of `A`. -/
theorem C60_combined_repetitions {R : Type} [Semiring R] (e : Env R) (h1 : e.one = 1) (o : Opts)
    (hh : o.help = false) (ha : o.algorithm = "combined") (ht : o.transposed = false)
    (hroot : e.root = true) (hc : o.check = true) :
    ∃ b, @main R (exact R) e o = ND.pure ⟨0, false, some b,
        rowMajor o.N fun i j => o.repetitions • entryA e o.N i j⟩ ∧
      (b = true ↔ ∀ p, p < o.N * o.N → e.close (o.repetitions • e.rand p) (e.rand p) = true) := by
  have hA : Holds (vecA e o.N) o.N o.N (entryA e o.N) := holds_rect _ _ _
  have hB := holdsB e h1 o.N
  refine ⟨@std_equal R e.close (rowMajor o.N fun i j => o.repetitions • entryA e o.N i j)
    (@reference R (exact R) e o.N), ?_, ?_⟩
  · rw [@driver_requested R (exact R) e o _ hh
      (@Requested.combined R (exact R) e o ha ht),
      C35_combined_exact o.N _ _ _ _ hA hB]
    have : (rowMajor o.N fun i j => o.repetitions •
        ∑ k ∈ Finset.range o.N, entryA e o.N i k * idMat k j) =
        rowMajor o.N fun i j => o.repetitions • entryA e o.N i j :=
      rect_congr fun i hi j hj => congrArg _ (C49_neutral o.N _ i j hi hj).1
    rw [this]
    refine (ND.pure_bind _ _).trans ?_
    unfold finish
    rw [if_neg (by simp [rect])]
    simp only [hroot, hc, Bool.and_self, if_true]
  · refine ((@std_equal_iff R (exact R) e.close o.N _ _).trans
      (C52_check_is_A e h1 o.N (rowMajor o.N fun i j => o.repetitions • entryA e o.N i j))).trans ?_
    constructor
    · rintro ⟨_, h⟩ p hp
      have hN : 0 < o.N := Nat.pos_of_ne_zero fun h0 => by rw [h0] at hp; omega
      have hi : p / o.N < o.N := Nat.div_lt_of_lt_mul hp
      have hj : p % o.N < o.N := Nat.mod_lt _ hN
      obtain ⟨c, hc, hcl⟩ := h _ hi _ hj
      rw [holds_rect _ _ _ _ hi _ hj] at hc
      cases hc
      unfold entryA at hcl
      rw [Nat.div_add_mod' p o.N] at hcl
      exact hcl
    · intro h
      exact ⟨by simp [rect], fun i hi j hj => ⟨_, holds_rect _ _ _ i hi j hj, h _ (idx_lt hi hj)⟩⟩

/-! ### C59: the default options -/

/-- **C59.** Algorithm `single` with `B` transposed (both are the defaults), `4 ≤ N ≤ block_result`
and a `block_input` that does not divide `N`: the program accesses memory out of bounds, for all
random numbers and whatever else is requested. -/
theorem C59_driver_ub (e : Env α) (o : Opts) (hh : o.help = false) (ha : o.algorithm = "single")
    (ht : o.transposed = true) (h4 : 4 ≤ o.N) (hbr : o.N ≤ o.block_result)
    (hbi : o.block_input ≠ 0) (hd : ¬ o.block_input ∣ o.N) (hr : 1 ≤ o.repetitions) :
    main e o = ND.fail .oob := by
  rw [driver_requested e o _ hh (.single ha hr), ht,
    C59_single_ub o.N 0 o.N (vecA e o.N) (vecB e o.N) o.block_result o.block_input o.repetitions
      (by simp [vecA, rect]) (by simp) hbr (fun d h => by omega) hbi h4 (fun h => hd h.2) hr]
  exact ND.fail_bind _ _

/-- **C59.** In particular the program without any options has undefined behaviour. -/
theorem C59_default_options (e : Env α) : main e {} = ND.fail .oob :=
  C59_driver_ub e {} rfl rfl rfl (by decide) (by decide) (by decide) (by decide) (by decide)

/-! ### C61: help -/

/-- **C61.** `--help` does nothing else, unless the algorithm is one that runs after HPX. -/
theorem C61_help (e : Env α) (o : Opts) (hh : o.help = true) (h1 : o.algorithm ≠ "kernel_test")
    (h2 : o.algorithm ≠ "kernel_tiled") : main e o = ND.pure ⟨0, false, none, #[]⟩ := by
  unfold main hpx_main
  rw [if_pos hh, ND.pure_bind']
  unfold after_hpx kernels
  rw [if_neg h1, if_neg h2, if_neg (by simp [Globals.init]), ND.pure_bind']
  show check e _ _ >>= _ = _
  unfold check
  rw [if_neg (by simp [Globals.init]), ND.pure_bind']
  rfl

/-- **C61.** `--help --algorithm kernel_tiled` runs the kernel on vectors that were never created: it
ends with `std::out_of_range` for every `N > 0`. -/
theorem C61_help_kernel_tiled (e : Env α) (o : Opts) (hh : o.help = true)
    (ha : o.algorithm = "kernel_tiled") (hN : 0 < o.N) : main e o = ND.fail .outOfRange := by
  unfold main hpx_main
  rw [if_pos hh, ND.pure_bind']
  unfold after_hpx kernels
  rw [if_neg (by show o.algorithm ≠ _; rw [ha]; decide), if_pos ha]
  show (KernelTiled.matrix_multiply KernelTiled.blocking o.N #[] #[] o.transposed o.repetitions
    >>= _) >>= _ = _
  rw [kernel_tiled_short KernelTiled.valid (Nat.mul_pos hN hN), ND.fail_bind, ND.fail_bind]

/-- **C61.** `--help --algorithm kernel_test` reads out of bounds for every `N > 0`. -/
theorem C61_help_kernel_test (e : Env α) (o : Opts) (hh : o.help = true)
    (ha : o.algorithm = "kernel_test") (hN : 0 < o.N) : main e o = ND.fail .oob := by
  unfold main hpx_main
  rw [if_pos hh, ND.pure_bind']
  unfold after_hpx kernels
  rw [if_pos ha]
  show (KernelTest.matrix_multiply o.N #[] #[] o.transposed o.repetitions >>= _) >>= _ = _
  rw [kernel_test_short (Nat.mul_pos hN hN), ND.fail_bind, ND.fail_bind]

section Examples
attribute [local instance] exact

/-- an environment: one locality, the numbers 3, 10, 17, … as random numbers, tolerance 0 -/
private def env : Env Int where
  one := 1
  rand k := 7 * k + 3
  close x y := x == y
  absDiff x y := (x - y).natAbs
  root := true
  localities := 1
  relOk _ _ := true
  junk _ := #[]

example : main env { algorithm := "Single" } = ND.pure ⟨1, true, none, #[]⟩ :=
  C50_unknown env _ rfl (by decide)

example : ∃ msg, main env { algorithm := "semi", transposed := false } = ND.fail (.exception msg) :=
  C50_rejected env _ rfl (.inl ⟨by decide, rfl⟩)

-- a normal run exists for which the premises of C50, C51 hold, and its check passes
example : ∃ (o : Opts) (P : ND (Array Int)) (rep : Report Int), o.help = false ∧
    Requested env o P ∧ main env o (.ok rep) ∧ rep.check = some true := by
  refine ⟨{ algorithm := "kernel_tiled", N := 3, check := true }, _,
    ⟨0, false, some true, rowMajor 3 (entryA env 3)⟩, rfl, .kernel_tiled rfl, ?_, rfl⟩
  rw [C52_undetected env rfl (fun x => by simp [env]) _ rfl rfl (by decide)]
  rfl

-- without repetitions the check fails
example : main env { repetitions := 0, check := true } = ND.pure ⟨0, false, some false, #[]⟩ :=
  C51_missing_result env _ rfl rfl rfl (by decide) rfl rfl

-- a comparison for which some number is close to nothing
example : ∃ (close : Option Int → Option Int → Bool) (c : Option Int), (∀ y, close c y = false) ∧
    close (some 1) (some 1) = true :=
  ⟨fun x y => x.isSome && y.isSome && x == y, none, fun _ => rfl, by decide⟩

-- admissible runs
example : main env { N := 128, check := true } =
    ND.pure (passed env { N := 128, check := true } (rowMajor 128 (entryA env 128))) :=
  C60_check_passes env rfl (fun x => by simp [env]) _ rfl
    (.single rfl ⟨7, rfl⟩ (by decide) (.inr ⟨1, rfl⟩) (by decide))

-- two repetitions of `combined` fail the check
example : ∃ C, main env { algorithm := "combined", transposed := false, repetitions := 2, check := true } =
    ND.pure ⟨0, false, some false, C⟩ := by
  obtain ⟨b, h, hb⟩ := C60_combined_repetitions env rfl
    { algorithm := "combined", transposed := false, repetitions := 2, check := true } rfl rfl rfl rfl rfl
  cases b with
  | false => exact ⟨_, h⟩
  | true => exact absurd (hb.1 rfl 0 (by decide)) (by decide)

example : main env { help := true } = ND.pure ⟨0, false, none, #[]⟩ :=
  C61_help env _ rfl (by decide) (by decide)

example : main env { help := true, algorithm := "kernel_tiled" } = ND.fail .outOfRange :=
  C61_help_kernel_tiled env _ rfl rfl (by decide)

example : main env { help := true, algorithm := "kernel_test" } = ND.fail .oob :=
  C61_help_kernel_test env _ rfl rfl (by decide)

end Examples
end Verif.Props
