import Verif.Model.TestSession
import Verif.Props.Double
import Verif.Props.DoubleUse
import Verif.Props.TestsTiles
import Verif.Proof.Driver
/-
C122: the tests do not influence each other; what a run of the whole test program does.
-/
namespace Verif.Props
open Verif.Tests Verif.TestSession Verif.MemoryLayout Verif.IEEE
variable {α : Type} [Arith α]

/-- A test case of its own, as in C74, C88 and C89, without any state. -/
def alone (e : TestSession.Env α) : Test → ND (List Bool)
  | .inverse c => apply_inverse (e.single (e.inverse_check c)) e.lit c
  | .identity c => fixed_matrices (e.single e.close10) c #[e.lit 2 0, e.lit 5 0, e.lit 1 0, e.lit 3 0]
      #[e.lit 1 0, e.lit 0 0, e.lit 0 0, e.lit 1 0] #[e.lit 2 0, e.lit 5 0, e.lit 1 0, e.lit 3 0]
  | .random c => random_matrices (e.single e.small8) c
  | .naive N => apply_inverse_naive (e.single e.small5) e.lit N
  | .view => ND.ofM (test_tile_view ⟨e.cast, e.close15, e.junk⟩)
  | .iterate => ND.ofM (test_iterate_tiles ⟨e.cast, e.equal, e.junk⟩)

/-- Programs one after another, until one of them fails. -/
def inOrder {R : Type} : List (ND R) → ND (List R)
  | [] => ND.pure []
  | x :: xs => x.bind fun r => (inOrder xs).bind fun rs => ND.pure (r :: rs)

private theorem bind_congr {R S : Type} {x : ND R} {f g : R → ND S} (h : ∀ r, f r = g r) :
    x.bind f = x.bind g := congrArg _ (funext h)

private theorem elapsed_bind {R : Type} (x : ND R) (f : α → ND R) (h : ∀ t, f t = x) :
    (elapsed : ND α).bind f = x := by
  funext o
  apply propext
  constructor
  · rintro (⟨e, ⟨t, ht⟩, _⟩ | ⟨r, _, hr⟩)
    · cases ht
    · rwa [h] at hr
  · intro ho
    exact .inr ⟨Arith.zero, ⟨_, rfl⟩, by rwa [h]⟩

/-- What the test case `hpx_main` computes depends only on the variables it reads. -/
private theorem multiply_eq (e : TestSession.Env α) (hrel : ∀ d m, e.relOk Arith.zero d m = false)
    (close : α → α → Bool) (c : Case) (g : Globals α) (hN : g.N = c.N) :
    multiply e (set_parameters c g) = Tests.hpx_main (e.single close) c g.A g.B g.C := by
  have h : e.relOk Arith.zero = fun _ _ => false := funext fun d => funext fun m => hrel d m
  unfold multiply Tests.hpx_main set_parameters
  simp only [hN, h]
  rfl

private theorem hpx_main_bind {R : Type} (e : TestSession.Env α)
    (hrel : ∀ d m, e.relOk Arith.zero d m = false) (close : α → α → Bool) (c : Case) (g : Globals α)
    (hN : g.N = c.N) (f : Globals α → ND R) (k : Array α → ND R)
    (h : ∀ C t, f { set_parameters c g with C := C, duration := t } = k C) :
    (TestSession.hpx_main e (set_parameters c g)).bind f =
      (Tests.hpx_main (e.single close) c g.A g.B g.C).bind k := by
  unfold TestSession.hpx_main
  rw [multiply_eq e hrel close c g hN]
  refine (ND.bind_assoc _ _ _).trans (bind_congr fun C => ?_)
  refine (ND.bind_assoc _ _ _).trans (elapsed_bind _ _ fun t => ?_)
  exact (ND.pure_bind _ _).trans (h C t)

private theorem ofM_bind {R S T : Type} (x : M R) (f : R → M S) (g : S → ND T) :
    (ND.ofM (x >>= f)).bind g = (ND.ofM x).bind fun r => (ND.ofM (f r)).bind g := by
  cases x with
  | error er => exact (ND.fail_bind er g).trans (ND.fail_bind er _).symm
  | ok r => exact (ND.pure_bind r fun r => (ND.ofM (f r)).bind g).symm

/-- The state after a test case, as far as it can influence later ones. -/
private def Leaves (t : Test) (s s' : State α) : Prop :=
  (t ≠ .view → s'.view_counter = s.view_counter) ∧ (t ≠ .iterate → s'.iterate_counter = s.iterate_counter)

/-- The part of the tests with constant matrices after `B` is known. -/
private theorem fixed_bind {R : Type} (e : TestSession.Env α) (hrel : ∀ d m, e.relOk Arith.zero d m = false)
    (close : α → α → Bool) (c : Case) (s : State α) (A B Cref : Array α) (set : M (Globals α))
    (G : Array α → Globals α)
    (hset : set = (if c.transposed then Util.transpose_matrix c.N B else pure B) >>= fun B =>
      pure (set_parameters c (G B)))
    (hG : ∀ B, (G B).N = c.N ∧ (G B).C = #[] ∧ (G B).A = A ∧ (G B).B = B ∧ (G B).C_reference = Cref)
    (f : List Bool × State α → ND R) (k : List Bool → ND R) (h : ∀ l g, f (l, { s with g := g }) = k l) :
    (((ND.ofM set).bind fun g => (TestSession.hpx_main e g).bind fun g =>
      (ND.ofM (checks (e.single close) g.N g.C g.C_reference)).bind fun l =>
        ND.pure (l, { s with g := g })).bind f) = (fixed_matrices (e.single close) c A B Cref).bind k := by
  unfold fixed_matrices
  rw [hset, ofM_bind]
  refine (ND.bind_assoc _ _ _).trans (Eq.trans (bind_congr fun B => ?_) (ND.bind_assoc _ _ _).symm)
  obtain ⟨h1, h2, h3, h4, h5⟩ := hG B
  refine (congrArg (fun x => ND.bind x f) (ND.pure_bind _ _)).trans ?_
  refine (ND.bind_assoc _ _ _).trans (Eq.trans ?_ (ND.bind_assoc _ _ _).symm)
  refine (hpx_main_bind e hrel close c (G B) h1 _
    (fun C => (ND.ofM (checks (e.single close) c.N C Cref)).bind k) fun C t => ?_).trans ?_
  swap
  · rw [h2, h3, h4]
    rfl
  · show ((ND.ofM (checks (e.single close) (G B).N C (G B).C_reference)).bind _).bind f = _
    rw [h1, h5]
    exact (ND.bind_assoc _ _ _).trans (bind_congr fun l => (ND.pure_bind _ _).trans (h _ _))

/-- A test case does the same in every state, as far as what follows does not look at the globals. -/
private theorem run_bind {R : Type} (e : TestSession.Env α) (hrel : ∀ d m, e.relOk Arith.zero d m = false)
    (t : Test) (s : State α) (hv : t = .view → s.view_counter = 0)
    (hi : t = .iterate → s.iterate_counter = 0) (f : List Bool × State α → ND R) (k : List Bool → ND R)
    (h : ∀ l s', Leaves t s s' → f (l, s') = k l) : (run e t s).bind f = (alone e t).bind k := by
  cases t with
  | inverse c =>
    have hid := C49_identity (e.lit 1 0) c.N
    simp only [alone]
    unfold apply_inverse
    rw [hid]
    refine Eq.trans ?_ (congrArg (fun x => ND.bind x k) (ND.pure_bind _ _)).symm
    refine fixed_bind e hrel _ c s _ _ _ _
      (fun B => { s.g with
        N := c.N, A := inverse_vecA e.lit c.N, B := B, C := #[],
        C_reference := rowMajor c.N fun i j => if i = j then e.lit 1 0 else Arith.zero }) ?_
      (fun _ => ⟨rfl, rfl, rfl, rfl, rfl⟩) f k fun l g => h _ _ ⟨fun _ => rfl, fun _ => rfl⟩
    unfold set_inverse transpose_B
    cases c.transposed
    · simp only [Bool.false_eq_true, if_false]
      show (Util.create_identity_matrix _ _ >>= _) = _
      simp only [hid]
      rfl
    · simp only [if_true]
      cases Util.transpose_matrix c.N (inverse_vecB e.lit c.N)
      · rfl
      · show (Util.create_identity_matrix _ _ >>= _) = _
        simp only [hid]
        rfl
  | identity c =>
    refine fixed_bind e hrel _ c s _ _ _ _
      (fun B => { s.g with
        N := c.N, A := #[e.lit 2 0, e.lit 5 0, e.lit 1 0, e.lit 3 0], B := B, C := #[],
        C_reference := #[e.lit 2 0, e.lit 5 0, e.lit 1 0, e.lit 3 0] }) ?_
      (fun _ => ⟨rfl, rfl, rfl, rfl, rfl⟩) f k fun l g => h _ _ ⟨fun _ => rfl, fun _ => rfl⟩
    unfold set_identity transpose_B
    cases c.transposed
    · rfl
    · simp only [if_true]
      cases Util.transpose_matrix c.N #[e.lit 1 0, e.lit 0 0, e.lit 0 0, e.lit 1 0] <;> rfl
  | random c =>
    simp only [alone, run]
    unfold random_matrices set_random
    have hr := C49_random e.rand c.N
    rw [show Util.create_random_matrix (e.single e.small8).rand c.N = _ from hr]
    simp only [hr]
    refine Eq.trans ?_ (congrArg (fun x => ND.bind x k) (ND.pure_bind _ _)).symm
    refine Eq.trans ?_ (congrArg (fun x => ND.bind x k) (ND.pure_bind _ _)).symm
    refine (congrArg (fun x => ND.bind x f) (ND.pure_bind _ _)).trans ?_
    refine (ND.bind_assoc _ _ _).trans (Eq.trans ?_ (ND.bind_assoc _ _ _).symm)
    refine hpx_main_bind e hrel e.small8 c { s.g with
        N := c.N, A := rowMajor c.N fun i j => e.rand (i * c.N + j),
        B := rowMajor c.N fun i j => e.rand (i * c.N + j), C := #[], C_reference := #[] } rfl _ _
      fun C t => ?_
    refine (ND.bind_assoc _ _ _).trans (Eq.trans ?_ (ND.bind_assoc _ _ _).symm)
    unfold set_reference
    refine (ND.bind_assoc _ _ _).trans (bind_congr fun Cr => ?_)
    refine (ND.pure_bind _ _).trans ?_
    exact (ND.bind_assoc _ _ _).trans (bind_congr fun l => (ND.pure_bind _ _).trans
      (h _ _ ⟨fun _ => rfl, fun _ => rfl⟩))
  | naive N => exact (ND.bind_assoc _ _ _).trans (bind_congr fun l => (ND.pure_bind _ _).trans
      (h _ _ ⟨fun _ => rfl, fun _ => rfl⟩))
  | view =>
    simp only [alone, run]
    unfold test_tile_view
    rw [hv rfl]
    generalize counting (⟨e.cast, e.close15, e.junk⟩ : TileEnv α) 0 (256 * 256) = x
    refine (ND.bind_assoc _ _ _).trans (Eq.trans ?_ (ofM_bind _ _ _).symm)
    refine bind_congr fun r => ?_
    exact (ND.bind_assoc _ _ _).trans (bind_congr fun l => (ND.pure_bind _ _).trans
      (h _ _ ⟨fun hn => absurd rfl hn, fun _ => rfl⟩))
  | iterate =>
    simp only [alone, run]
    unfold test_iterate_tiles
    rw [hi rfl]
    generalize counting (⟨e.cast, e.equal, e.junk⟩ : TileEnv α) 0 (256 * 256) = x
    refine (ND.bind_assoc _ _ _).trans (Eq.trans ?_ (ofM_bind _ _ _).symm)
    refine bind_congr fun r => ?_
    exact (ND.bind_assoc _ _ _).trans (bind_congr fun l => (ND.pure_bind _ _).trans
      (h _ _ ⟨fun _ => rfl, fun hn => absurd rfl hn⟩))

/-- **C122.** The tests do not influence each other: in whatever order the test program runs the test
cases, and whatever the global variables contain before, the outcomes of the checks are those of the test
cases run on their own.  The tests of the tiled layout run at most once. -/
theorem C122_isolated (e : TestSession.Env α) (hrel : ∀ d m, e.relOk Arith.zero d m = false)
    (ts : List Test) (s : State α) (hv : .view ∈ ts → s.view_counter = 0)
    (hi : .iterate ∈ ts → s.iterate_counter = 0) (hv1 : ts.count .view ≤ 1) (hi1 : ts.count .iterate ≤ 1) :
    session e ts s = inOrder (ts.map (alone e)) := by
  induction ts generalizing s with
  | nil => rfl
  | cons t ts ih =>
    refine run_bind e hrel t s (fun h => hv (h ▸ List.mem_cons_self ..))
      (fun h => hi (h ▸ List.mem_cons_self ..)) _ _ fun l s' hs => ?_
    show (session e ts s').bind _ = _
    rw [ih s']
    · rfl
    · intro hm
      by_cases ht : t = .view
      · subst ht
        rw [List.count_cons_self] at hv1
        exact absurd (List.count_pos_iff.2 hm) (by omega)
      · rw [hs.1 ht]
        exact hv (List.mem_cons_of_mem _ hm)
    · intro hm
      by_cases ht : t = .iterate
      · subst ht
        rw [List.count_cons_self] at hi1
        exact absurd (List.count_pos_iff.2 hm) (by omega)
      · rw [hs.2 ht]
        exact hi (List.mem_cons_of_mem _ hm)
    · exact (List.count_le_count_cons ..).trans hv1
    · exact (List.count_le_count_cons ..).trans hi1

/-- **C122.** A test case of the tiled layout that runs a second time in the same process fails: its
static counter goes on from `256 * 256`.  The state left by the first run is any state with this counter. -/
theorem C122_second_run (e : TestSession.Env α) (hj : ∀ k, (e.junk k).size = 2) (s : State α) :
    (e.close15 (e.cast s.view_counter) (e.cast 0) = false →
      ∃ l, run e .view s = ND.pure (l, { s with view_counter := s.view_counter + 65536 }) ∧ false ∈ l) ∧
    (e.equal (e.cast s.iterate_counter) (e.cast 0) = false →
      ∃ l, run e .iterate s =
        ND.pure (l, { s with iterate_counter := s.iterate_counter + 65536 }) ∧ false ∈ l) := by
  constructor
  · intro hc
    obtain ⟨l, h1, h2⟩ := C89_tile_view_counter ⟨e.cast, e.close15, e.junk⟩ hj _ hc
    refine ⟨l, ?_, h2⟩
    simp only [run]
    rw [counting_ok]
    refine (ND.pure_bind _ _).trans ?_
    simp only [h1]
    exact ND.pure_bind _ _
  · intro hc
    obtain ⟨l, h1, h2⟩ := C89_iterate_tiles_counter ⟨e.cast, e.equal, e.junk⟩ hj _ hc
    refine ⟨l, ?_, h2⟩
    simp only [run]
    rw [counting_ok]
    refine (ND.pure_bind _ _).trans ?_
    simp only [h1]
    exact ND.pure_bind _ _

/-- The number of checks of a test case. -/
def checkCount : Test → Nat
  | .inverse c => c.N * c.N
  | .identity c => c.N * c.N
  | .random c => c.N * c.N
  | .naive N => N * N
  | .view => 64
  | .iterate => 8260

/-- The test cases of test_semi.cpp with 2 × 2 matrices. -/
def Semi2 : Test → Prop
  | .inverse c => c.algorithm = "semi" ∧ c.N = 2
  | .identity c => c.algorithm = "semi" ∧ c.N = 2
  | .random c => c.algorithm = "semi" ∧ c.N = 2
  | _ => False

instance : DecidablePred Semi2 := fun t => by
  cases t <;> unfold Semi2 <;> infer_instance

/-- The test program with IEEE doubles: what is assumed about its environment. -/
structure DoubleEnv (rel : Double → Double → Bool) (e : TestSession.Env Double) : Prop where
  rand : ∀ k, (e.rand k).finite ∧ |(e.rand k).value| ≤ 1
  small8 : e.small8 = Double.small (Double.lit 1 8)
  small5 : e.small5 = Double.small (Double.lit 1 5)
  close10 : e.close10 = Double.close rel
  close15 : ∀ n, n < 65536 → e.close15 (e.cast n) (e.cast n) = true
  equal : ∀ n, n < 65536 → e.equal (e.cast n) (e.cast n) = true
  localities : e.localities = 1
  junk : ∀ k, (e.junk k).size = 2
  lit : e.lit = Double.lit
  relOk : e.relOk = IEEE.relOk

private theorem mem_all {t : Test} (h : t ∈ all_tests) :
    (∃ c, c ∈ fixed_cases ∧ t = .inverse c) ∨ (∃ c, c ∈ random_cases ∧ t = .random c) ∨
    t = .identity ⟨"semi", 2, true, 1, 1, 1, 0, 0⟩ ∨ (∃ N, (N = 2 ∨ N = 4 ∨ N = 8) ∧ t = .naive N) ∨
    t = .view ∨ t = .iterate := by
  unfold all_tests at h
  simp only [List.mem_append, List.mem_map, List.mem_cons, List.not_mem_nil, or_false] at h
  rcases h with (⟨c, h, rfl⟩ | ⟨c, h, rfl⟩) | h | h | h | h | h | h
  · exact .inl ⟨c, h, rfl⟩
  · exact .inr (.inl ⟨c, h, rfl⟩)
  · exact .inr (.inr (.inl h))
  · exact .inr (.inr (.inr (.inl ⟨2, .inl rfl, h⟩)))
  · exact .inr (.inr (.inr (.inl ⟨4, .inr (.inl rfl), h⟩)))
  · exact .inr (.inr (.inr (.inl ⟨8, .inr (.inr rfl), h⟩)))
  · exact .inr (.inr (.inr (.inr (.inl h))))
  · exact .inr (.inr (.inr (.inr (.inr h))))

private theorem alone_passes (fuse : Double → Double → Double → Bool) {rel : Double → Double → Bool}
    {e : TestSession.Env Double} (he : DoubleEnv rel e) {t : Test} (ht : t ∈ all_tests) (hs : ¬ Semi2 t) :
    @alone Double (Double.arith fuse) e t = ND.pure (List.replicate (checkCount t) true) := by
  rcases mem_all ht with ⟨c, hm, rfl⟩ | ⟨c, hm, rfl⟩ | rfl | ⟨N, hN, rfl⟩ | rfl | rfl
  · show @apply_inverse Double (Double.arith fuse) _ e.lit c = _
    rw [he.lit]
    refine C97_inverse fuse rel _ he.localities c hm hs ?_
    show e.inverse_check c = _ ∨ _ ∧ e.inverse_check c = _
    unfold TestSession.Env.inverse_check
    split
    · next h => exact .inr ⟨h.1, he.close10⟩
    · exact .inl he.small8
  · exact C97_all_random fuse (e.single e.small8) he.rand he.small8 he.localities c hm hs
  · exact absurd ⟨rfl, rfl⟩ hs
  · show @apply_inverse_naive Double (Double.arith fuse) _ e.lit N = _
    rw [he.lit]
    exact C97_naive fuse _ N hN he.small5
  · show ND.ofM (@test_tile_view Double (Double.arith fuse) _) = _
    rw [@C89_tile_view Double (Double.arith fuse) _ he.close15 he.junk]
    rfl
  · show ND.ofM (@test_iterate_tiles Double (Double.arith fuse) _) = _
    rw [@C89_iterate_tiles Double (Double.arith fuse) _ he.equal he.junk]
    rfl

private theorem semi_oob (e : TestSession.Env α) {t : Test} (ht : t ∈ all_tests) (hs : Semi2 t) :
    alone e t = ND.fail .oob := by
  have tr1 : ∀ c ∈ fixed_cases, c.algorithm = "semi" → c.transposed = true ∧ 0 < c.block_input := by decide
  have tr2 : ∀ c ∈ random_cases, c.algorithm = "semi" → c.transposed = true ∧ 0 < c.block_input := by decide
  have h4 : ∀ n, n = 2 → ¬ 4 ∣ n ∧ 0 < n := by rintro n rfl; decide
  rcases mem_all ht with ⟨c, hm, rfl⟩ | ⟨c, hm, rfl⟩ | rfl | ⟨N, hN, rfl⟩ | rfl | rfl
  · obtain ⟨h1, h2⟩ := tr1 c hm hs.1
    obtain ⟨h3, h5⟩ := h4 _ hs.2
    show apply_inverse _ e.lit c = _
    unfold apply_inverse
    rw [C49_identity]
    refine (ND.pure_bind _ _).trans ((C74_semi_ub _ c hs.1 h1 h3 h5 h2).2 _ _ _ ?_ ?_)
    · rw [hs.2]; simp [inverse_vecA, inverse_A]
    · rw [hs.2]; simp [inverse_vecB, inverse_B]
  · obtain ⟨h1, h2⟩ := tr2 c hm hs.1
    obtain ⟨h3, h5⟩ := h4 _ hs.2
    exact (C74_semi_ub _ c hs.1 h1 h3 h5 h2).1
  · exact (C74_semi_ub _ ⟨"semi", 2, true, 1, 1, 1, 0, 0⟩ rfl rfl (by decide) (by decide) (by decide)).2
      _ _ _ rfl rfl
  · exact hs.elim
  · exact hs.elim
  · exact hs.elim

/-- **C122.** With IEEE doubles every run of the test program without the 2 × 2 tests of
test_semi.cpp passes: any selection of the test cases in any order, all checks hold. -/
theorem C122_passes (fuse : Double → Double → Double → Bool) (rel : Double → Double → Bool)
    (e : TestSession.Env Double) (he : DoubleEnv rel e) (ts : List Test) (hts : ∀ t ∈ ts, t ∈ all_tests)
    (hn : ts.Nodup) (hs : ∀ t ∈ ts, ¬ Semi2 t) (s : State Double) (hv : s.view_counter = 0)
    (hi : s.iterate_counter = 0) :
    @session Double (Double.arith fuse) e ts s =
      ND.pure (ts.map fun t => List.replicate (checkCount t) true) := by
  let _ := Double.arith fuse
  rw [C122_isolated e (fun d m => by
      rw [he.relOk]
      exact C98_relative_zero Double.zero (.inr ⟨trivial, le_rfl⟩) d m) ts s (fun _ => hv) (fun _ => hi)
    (List.nodup_iff_count_le_one.1 hn _) (List.nodup_iff_count_le_one.1 hn _)]
  clear hn
  induction ts with
  | nil => rfl
  | cons t ts ih =>
    show (alone e t).bind _ = _
    rw [alone_passes fuse he (hts t (List.mem_cons_self ..)) (hs t (List.mem_cons_self ..))]
    refine (ND.pure_bind _ _).trans ?_
    rw [ih (fun t h => hts t (List.mem_cons_of_mem _ h)) fun t h => hs t (List.mem_cons_of_mem _ h)]
    exact ND.pure_bind _ _

/-- **C122.** … and every run with one of them, in particular every run of all tests, reads out of
bounds. -/
theorem C122_semi (fuse : Double → Double → Double → Bool) (rel : Double → Double → Bool)
    (e : TestSession.Env Double) (he : DoubleEnv rel e) (ts : List Test) (hts : ∀ t ∈ ts, t ∈ all_tests)
    (hn : ts.Nodup) (hs : ∃ t ∈ ts, Semi2 t) (s : State Double) (hv : s.view_counter = 0)
    (hi : s.iterate_counter = 0) :
    @session Double (Double.arith fuse) e ts s = ND.fail .oob := by
  let _ := Double.arith fuse
  rw [C122_isolated e (fun d m => by
      rw [he.relOk]
      exact C98_relative_zero Double.zero (.inr ⟨trivial, le_rfl⟩) d m) ts s (fun _ => hv) (fun _ => hi)
    (List.nodup_iff_count_le_one.1 hn _) (List.nodup_iff_count_le_one.1 hn _)]
  clear hn
  induction ts with
  | nil => obtain ⟨t, h, _⟩ := hs; cases h
  | cons t ts ih =>
    show (alone e t).bind _ = _
    by_cases h : Semi2 t
    · rw [semi_oob e (hts t (List.mem_cons_self ..)) h]
      exact ND.fail_bind _ _
    · rw [alone_passes fuse he (hts t (List.mem_cons_self ..)) h]
      refine (ND.pure_bind _ _).trans ?_
      rw [ih (fun t h => hts t (List.mem_cons_of_mem _ h))]
      · exact ND.fail_bind _ _
      · obtain ⟨t', h1, h2⟩ := hs
        rcases List.mem_cons.1 h1 with rfl | h1
        · exact absurd h2 h
        · exact ⟨t', h1, h2⟩

section Examples

/-- doubles: the numbers drawn are 0.5, the arrays on the stack contain anything -/
private def env : TestSession.Env Double where
  rand _ := Double.lit 5 1
  small8 := Double.small (Double.lit 1 8)
  small5 := Double.small (Double.lit 1 5)
  close10 := Double.close fun _ _ => false
  close15 := Double.close fun _ _ => false
  equal := Double.close fun _ _ => false
  localities := 1
  junk k := #[k + 1000, 77]
  lit := Double.lit
  cast n := Double.lit n 0
  relOk := IEEE.relOk

/-- what an aborted test could leave behind -/
private def state : State Double where
  g := ⟨#[], #[Double.zero], #[Double.zero, Double.zero], #[], 77, "combined", 3, false, true, 0, 9,
    Double.lit 4 0, 0, true, 5, 6, Double.lit 5 2⟩
  view_counter := 0
  iterate_counter := 0

private theorem cast_close (n : Nat) (hn : n < 65536) :
    Double.close (fun _ _ => false) (Double.lit n 0) (Double.lit n 0) = true := by
  rw [lit_int]
  have hf : (Double.ofInt 0 (n : Int)).finite := by
    rw [Double.finite_iff, Double.ext_ofInt (by rw [abs_of_nonneg (by omega)]; omega) (by norm_num) (by norm_num)]
    split <;> trivial
  obtain ⟨s, h⟩ := sub_self_zero hf
  unfold Double.close
  rw [h]

private theorem env_ok : DoubleEnv (fun _ _ => false) env where
  rand _ := show (Double.lit 5 1).finite ∧ |(Double.lit 5 1).value| ≤ 1 by decide +kernel
  small8 := rfl
  small5 := rfl
  close10 := rfl
  close15 := cast_close
  equal := cast_close
  localities := rfl
  junk _ := rfl
  lit := rfl
  relOk := rfl

/-- all tests but the 2 × 2 ones of test_semi.cpp, in reverse order, after an aborted one -/
example (fuse : Double → Double → Double → Bool) :
    @session Double (Double.arith fuse) env (all_tests.reverse.filter fun t => ¬ Semi2 t) state =
      ND.pure ((all_tests.reverse.filter fun t => ¬ Semi2 t).map
        fun t => List.replicate (checkCount t) true) :=
  C122_passes fuse _ env env_ok _ (fun t h => List.mem_reverse.1 (List.mem_of_mem_filter h))
    (by decide) (fun t h => by simpa using (List.mem_filter.1 h).2) state rfl rfl

/-- these are 75 test cases -/
example : (all_tests.reverse.filter fun t => ¬ Semi2 t).length = 75 ∧ all_tests.length = 78 := by decide

/-- all tests -/
example (fuse : Double → Double → Double → Bool) :
    @session Double (Double.arith fuse) env all_tests state = ND.fail .oob :=
  C122_semi fuse _ env env_ok _ (fun t h => h) (by decide) ⟨.random ⟨"semi", 2, true, 1, 1, 1, 0, 0⟩, by decide, rfl, rfl⟩
    state rfl rfl

/-- the second run of `view` -/
example (fuse : Double → Double → Double → Bool) :
    ∃ l, @run Double (Double.arith fuse) env .view { state with view_counter := 65536 } =
      ND.pure (l, { state with view_counter := 131072 }) ∧ false ∈ l :=
  (@C122_second_run Double (Double.arith fuse) env (fun _ => rfl) { state with view_counter := 65536 }).1
    (by decide +kernel)

end Examples

end Verif.Props
