import Verif.Proof.Ends
import Verif.Props.Async
import Verif.Props.Algorithms
import Verif.Props.Semi
import Verif.Props.KernelTiled
import Verif.Props.KernelTest
import Verif.Props.Combined
/-
Property C132: every execution ends.
-/
namespace Verif.Props
variable {α : Type}

/-- An execution that goes on forever. -/
def Endless (m : Mem α) (t : Tree α) : Prop :=
  ∃ f : Nat → Mem α × Tree α, f 0 = (m, t) ∧
    ∀ n, PStep (f n).1 (f n).2 (f (n + 1)).1 (f (n + 1)).2

/-- An execution that has come to a state in which no task can make a step. -/
def Stops (m : Mem α) (t : Tree α) (m' : Mem α) (t' : Tree α) : Prop :=
  PSteps m t m' t' ∧ ∀ m'' t'', ¬ PStep m' t' m'' t''

/-- Whatever the scheduler does, after finitely many steps all tasks have returned and the
memory satisfies `Q`. -/
def AlwaysFinishes (m : Mem α) (t : Tree α) (Q : Mem α → Prop) : Prop :=
  ¬ Endless m t ∧ (∃ m' t', Stops m t m' t') ∧ ∀ m' t', Stops m t m' t' → Done t' ∧ Q m'

/-- **C132.** No scheduler can keep a fork/join program running forever. -/
theorem C132_finite (m : Mem α) (t : Tree α) : ¬ Endless m t := by
  rintro ⟨f, h0, h⟩
  exact not_endless f 0 rfl fun k _ => h k

/-- **C132.** No deadlock: where no task can make a step, all tasks have returned, or one of
them has failed. -/
theorem C132_no_deadlock {m m' : Mem α} {t t' : Tree α} (h : Stops m t m' t') :
    Done t' ∨ ∃ e, Failed e t' := by
  rcases progress m' t' with h1 | h1 | ⟨m'', t'', h1⟩
  · exact .inl h1
  · exact .inr h1
  · exact absurd h1 (h.2 _ _)

theorem psteps_trans {m m' m'' : Mem α} {t t' t'' : Tree α} (h : PSteps m t m' t')
    (h' : PSteps m' t' m'' t'') : PSteps m t m'' t'' := by
  induction h with
  | refl => exact h'
  | step hs _ ih => exact .step hs (ih h')

/-- **C132.** Whatever has been done so far, the execution can be completed, and all ways of
completing it are ends of the whole program. -/
theorem C132_completed {m m' : Mem α} {t t' : Tree α} (h : PSteps m t m' t') :
    (∃ m'' t'', Stops m' t' m'' t'') ∧ ∀ m'' t'', Stops m' t' m'' t'' → Stops m t m'' t'' := by
  refine ⟨?_, fun m'' t'' hs => ⟨psteps_trans h hs.1, hs.2⟩⟩
  obtain ⟨m'', t'', h1, h2⟩ := stops t' m'
  exact ⟨m'', t'', h1, h2⟩

/-- A program with one outcome, a normal return: every execution comes to this end. -/
theorem always_run {c : Nat → α} {fl : Nat → Bool} {t : Tree α} {n : Nat} {C : Array α}
    (h : ND.bind (ND.run c fl t) (fun c => ND.pure (toArray n c)) = ND.pure C) :
    AlwaysFinishes ⟨c, fl⟩ t (fun m => toArray n m.cell = C) := by
  refine ⟨C132_finite _ _, ?_, fun m' t' hs => ?_⟩
  · obtain ⟨m', t', h1, h2⟩ := stops t ⟨c, fl⟩
    exact ⟨m', t', h1, h2⟩
  · rcases C132_no_deadlock hs with hd | ⟨e, he⟩
    · refine ⟨hd, ?_⟩
      have : ND.bind (ND.run c fl t) (fun c => ND.pure (toArray n c)) (.ok (toArray n m'.cell)) :=
        .inr ⟨_, .inl ⟨m', t', hs.1, hd, rfl⟩, rfl⟩
      rw [h] at this
      cases this
      rfl
    · have : ND.bind (ND.run c fl t) (fun c => ND.pure (toArray n c)) (.error e) :=
        .inl ⟨e, .inr ⟨m', t', e, hs.1, he, rfl⟩, rfl⟩
      rw [h] at this
      cases this

variable [Arith α]

theorem always_runOn {a : Array α} {t : Tree α} {C : Array α} (h : ND.runOn a t = ND.pure C) :
    AlwaysFinishes (Mem.ofArray a) t (fun m => toArray a.size m.cell = C) :=
  always_run h

/-- **C132.** naive.hpp: every schedule of the row tasks ends, with the product in `C`. -/
theorem C132_naive (N : Nat) (A B : Array α) (a b : Nat → Nat → α) (hA : Holds A N N a)
    (hB : Holds B N N b) :
    AlwaysFinishes (Mem.ofArray (zeros (N * N))) (Naive.tree N A B) fun m =>
      toArray (N * N) m.cell = rowMajor N fun i j => dot N (a i) (fun k => b k j) := by
  have := always_runOn (C01_naive N A B a b hA hB)
  rwa [zeros_size] at this

/-- **C132.** The variant for a transposed second matrix. -/
theorem C132_naive_transposed (N : Nat) (A Bt : Array α) (a b : Nat → Nat → α)
    (hA : Holds A N N a) (hB : Holds Bt N N b) :
    AlwaysFinishes (Mem.ofArray (zeros (N * N))) (Naive.treeT N A Bt) fun m =>
      toArray (N * N) m.cell = rowMajor N fun i j => dot N (a i) (fun k => b j k) := by
  have := always_runOn (C02_naive_transposed N A Bt a b hA hB)
  rwa [zeros_size] at this

/-- **C132.** algorithms.hpp. -/
theorem C132_algorithms (N : Nat) (A Bt : Array α) (a b : Nat → Nat → α) (hA : Holds A N N a)
    (hB : Holds Bt N N b) (bi br : Nat) (hbi : 0 < bi) (hbr : 0 < br) (hdi : bi ∣ N)
    (hdr : br ∣ N) :
    AlwaysFinishes (Mem.ofArray (zeros (N * N))) (Algorithms.tree N A Bt bi br) fun m =>
      toArray (N * N) m.cell = rowMajor N fun i j => bdot bi (N / bi) (a i) (b j) := by
  have h := C24_algorithms N A Bt a b hA hB bi br hbi hbr hdi hdr
  unfold Algorithms.matrix_multiply at h
  rw [if_neg (by omega)] at h
  have := always_runOn h
  rwa [zeros_size] at this

/-- **C132.** `single`: the recursion with its futures ends under every schedule of the
asynchronous tasks. -/
theorem C132_single (junk : Nat → α) (N : Nat) (A B C : Array α) (transposed : Bool)
    (br bi reps : Nat) (h : Recursive.single_matrix_multiply N A B transposed br bi reps (.ok C)) :
    AlwaysFinishes ⟨Async.startMem (N * N) junk, fun _ => true⟩
      (Async.single_tasks N A B transposed br bi reps) fun m => toArray (N * N) m.cell = C :=
  always_run (C90_single junk N A B C transposed br bi reps h).1

/-- **C132.** `pseudodynamic`: every schedule of the packages ends. -/
theorem C132_pseudodynamic (junk : Nat → α) (p : StaticImproved.Params) (N : Nat)
    (A B C : Array α) (transposed : Bool) (bi br reps L : Nat)
    (h : StaticImproved.matrix_multiply p N A B transposed bi br reps L (.ok C)) :
    ∃ aw, StaticImproved.create_schedule p N (if 1 < L then L - 1 else L) = .ok aw ∧
      AlwaysFinishes ⟨Async.startMem (N * N) junk, fun _ => true⟩
        (Async.improved_tasks ⟨N, A, B, transposed, bi⟩ N br reps aw.flatten)
        fun m => toArray (N * N) m.cell = C := by
  obtain ⟨aw, haw, h1, h2⟩ := improved_key junk p N A B C transposed bi br reps L h
  exact ⟨aw, haw, always_run (Async.run_toArray h1 h2)⟩

/-- **C132.** `semi`: the iteration with the policy of semi.cpp. -/
theorem C132_semi (N : Nat) (A B : Array α) (a b : Nat → Nat → α) (hA : Holds A N N a)
    (hB : Holds B N N b) (bi : Nat) (h4 : 4 ∣ N) (hbi : 0 < bi) (hd : bi ∣ N) :
    ∃ pol, Semi.policy bi = .ok pol ∧
      AlwaysFinishes (Mem.ofArray (zeros (N * N))) (Semi.tree N A B bi pol) fun m =>
        toArray (N * N) m.cell = rowMajor N fun i j => bdot bi (N / bi) (a i) (b j) := by
  refine ⟨⟨3, [([4, 2, bi], [false, false, false])]⟩, rfl, ?_⟩
  have := always_runOn (Semi.tree_result hA hB h4 hbi hd)
  rwa [zeros_size] at this

open Tiled in
/-- The tiles made by the constructor and by the copies before the kernels. -/
theorem tiles_of_setup {b : Blocking} (hb : b.Valid) {N : Nat} {A B : Array α}
    {f g : Nat → Nat → α} (hA : Holds A N N f) (hB : Holds B N N g) :
    ∃ p At Bp QX QY QK, setup b N A B = .ok p ∧ tileA b p = .ok At ∧ tileB b p = .ok Bp ∧
      p.X_size = QX * b.L1_X ∧ p.Y_size = QY * b.L1_Y ∧ p.K_size = QK * b.L1_K_STEP ∧
      b.L3_X ∣ QX * b.L1_X ∧ b.L3_Y ∣ QY * b.L1_Y ∧ b.L3_K_STEP ∣ QK * b.L1_K_STEP ∧
      HoldsTiled At QK QX b.L1_K_STEP b.L1_X (fun k i => pad N f i k) ∧
      HoldsTiled Bp QK QY b.L1_K_STEP b.L1_Y (pad N g) := by
  obtain ⟨QX, hX⟩ := X_eq hb N
  obtain ⟨QY, hY⟩ := Y_eq hb N
  obtain ⟨QK, hK⟩ := K_eq hb N
  obtain ⟨At', eA, _, hA'⟩ := tileA_ok (b := b) (p := ⟨X b N, Y b N, K b N,
    rect (X b N) (K b N) (pad N f), rect (K b N) (Y b N) (pad N g)⟩) hX hK
    hb.x1 hb.k1 (holds_rect _ _ _)
  obtain ⟨Bp', eB, _, hB'⟩ := tileB_ok (b := b) (p := ⟨X b N, Y b N, K b N,
    rect (X b N) (K b N) (pad N f), rect (K b N) (Y b N) (pad N g)⟩) hY hK
    hb.y1 hb.k1 (holds_rect _ _ _)
  exact ⟨_, At', Bp', QX, QY, QK, setup_ok hb hA hB, eA, eB, hX, hY, hK, hX ▸ Nat.dvd_mul_left _ _, hY ▸ Nat.dvd_mul_left _ _,
    hK ▸ Nat.dvd_mul_left _ _, hA', hB'⟩

/-- **C132.** `kernel_tiled`: whatever `C` contains, the parallel loops end with all tasks
finished. -/
theorem C132_kernel_tiled {b : Tiled.Blocking} (hb : b.Valid) {N : Nat} {A B : Array α}
    {f g : Nat → Nat → α} (hA : Holds A N N f) (hB : Holds B N N g) (C : Array α) :
    ∃ p At Bp, Tiled.setup b N A B = .ok p ∧ Tiled.tileA b p = .ok At ∧ Tiled.tileB b p = .ok Bp ∧
      AlwaysFinishes (Mem.ofArray C) (KernelTiled.tree b p.X_size p.Y_size p.K_size At Bp)
        fun _ => True := by
  obtain ⟨p, At, Bp, QX, QY, QK, hp, hAt, hBp, hX, hY, hK, dX, dY, dK, hA', hB'⟩ :=
    tiles_of_setup hb hA hB
  refine ⟨p, At, Bp, hp, hAt, hBp, ?_⟩
  have h := (KernelTiled.tree_does (A := false) hb dX dY dK hA' hB').runOn C
  rw [← hX, ← hY, ← hK] at h
  obtain ⟨h1, h2, h3⟩ := always_runOn h
  exact ⟨h1, h2, fun m t hs => ⟨(h3 m t hs).1, trivial⟩⟩

/-- **C132.** `combined`: whatever earlier repetitions have left in `C`, the iteration with its
parallel blocks ends with all tasks finished. -/
theorem C132_combined {b : Tiled.Blocking} (hb : b.Valid) {N : Nat} {A B : Array α}
    {f g : Nat → Nat → α} (hA : Holds A N N f) (hB : Holds B N N g) (C : Array α) :
    ∃ p At Bp pol, Tiled.setup b N A B = .ok p ∧ Tiled.tileA b p = .ok At ∧
      Tiled.tileB b p = .ok Bp ∧ Combined.policy b = .ok pol ∧
      AlwaysFinishes (Mem.ofArray C) (Combined.tree b pol p.X_size p.Y_size p.K_size At Bp)
        fun _ => True := by
  obtain ⟨p, At, Bp, QX, QY, QK, hp, hAt, hBp, hX, hY, hK, dX, dY, dK, hA', hB'⟩ :=
    tiles_of_setup hb hA hB
  refine ⟨p, At, Bp, Combined.pol b, hp, hAt, hBp, Combined.policy_ok b, ?_⟩
  have h := (Combined.tree_does hb dX dY dK hA' hB').runOn C
  rw [← hX, ← hY, ← hK] at h
  obtain ⟨h1, h2, h3⟩ := always_runOn h
  exact ⟨h1, h2, fun m t hs => ⟨(h3 m t hs).1, trivial⟩⟩

/-- **C132.** `kernel_test`, for the sizes that stay inside the padding. -/
theorem C132_kernel_test {N : Nat} {A B : Array α} {f g : Nat → Nat → α} (hA : Holds A N N f)
    (hB : Holds B N N g) (h4 : 4 ∣ N) (hN : ceilDiv N 512 * 512 < N + 64) (C : Array α) :
    ∃ At Bp, KernelTest.transA N A = .ok At ∧ KernelTest.padB N B = .ok Bp ∧
      AlwaysFinishes (Mem.ofArray C) (KernelTest.tree N At Bp) fun _ => True := by
  refine ⟨_, _, KernelTest.transA_ok hA, KernelTest.padB_ok hB, ?_⟩
  have hAt : Holds (rect (N + 64) (N + 64) (Tiled.pad N (Verif.tr f))) (N + 64) (N + 64)
      (fun k i => Tiled.pad N f i k) := by
    intro i hi j hj
    rw [holds_rect _ _ _ i hi j hj]
    unfold Tiled.pad Verif.tr
    simp only [and_comm]
  have h := (KernelTest.tree_does (A := false) hAt (holds_rect _ _ (Tiled.pad N g)) h4 hN).runOn C
  obtain ⟨h1, h2, h3⟩ := always_runOn h
  exact ⟨h1, h2, fun m t hs => ⟨(h3 m t hs).1, trivial⟩⟩

section Examples

/-- Two tasks that write the same cell, a race: all executions end nevertheless. -/
example (m : Mem Nat) : ¬ Endless m
    (.par [.act (.wr 0 1 (.ret ())), .act (.wr 0 2 (.ret ()))]) := C132_finite _ _

/-- A task fails, the other one is not waited for by anybody: the execution stops, in a state
that has not returned. -/
example (m : Mem Nat) : ∃ m' t',
    Stops m (.seq [.par [.act (.fail .outOfRange), .act (.wr 0 2 (.ret ()))], .act (.ret ())]) m' t' ∧
      Failed .outOfRange t' ∧ ¬ Done t' := by
  refine ⟨m.set 0 2, .seq [.par [.act (.fail .outOfRange), .act (.ret ())], .act (.ret ())],
    ⟨.step (.seqStep (.parStep 1 rfl .wr)) .refl, ?_⟩, .seq (.par List.mem_cons_self .act), ?_⟩
  · intro m'' t'' h
    cases h with
    | seqStep h =>
      cases h with
      | parStep n h1 h2 =>
        match n, h1 with
        | 0, h1 => cases h1; cases h2
        | 1, h1 => cases h1; cases h2
    | seqNext h =>
      cases h with
      | par h => cases h _ List.mem_cons_self
  · intro h
    cases h

attribute [local instance] exact

/-- the product of two 2×2 matrices -/
example : AlwaysFinishes (Mem.ofArray (zeros 4)) (Naive.tree 2 #[1, 2, 3, 4] #[5, 6, 7, 8])
    fun m => toArray 4 m.cell = (#[19, 22, 43, 50] : Array Int) := by
  have h := C132_naive 2 #[1, 2, 3, 4] #[5, 6, 7, 8] (fun i j => (2 * i + j + 1 : Int))
    (fun i j => (2 * i + j + 5 : Int)) (by unfold Holds; decide) (by unfold Holds; decide)
  rw [show (rowMajor 2 fun i j => dot 2 (fun j => (2 * i + j + 1 : Int))
    (fun k => (2 * k + j + 5 : Int))) = #[19, 22, 43, 50] by decide] at h
  exact h

example : AlwaysFinishes (Mem.ofArray (zeros 4)) (Naive.treeT 2 #[1, 2, 3, 4] #[5, 7, 6, 8])
    fun m => toArray 4 m.cell = (#[19, 22, 43, 50] : Array Int) := by
  have h := C132_naive_transposed 2 #[1, 2, 3, 4] #[5, 7, 6, 8] (fun i j => (2 * i + j + 1 : Int))
    (fun i j => (2 * j + i + 5 : Int)) (by unfold Holds; decide) (by unfold Holds; decide)
  rw [show (rowMajor 2 fun i j => dot 2 (fun j => (2 * i + j + 1 : Int))
    (fun k => (2 * k + j + 5 : Int))) = #[19, 22, 43, 50] by decide] at h
  exact h

/-- blocks of the sizes 2 and 3 -/
example : AlwaysFinishes (Mem.ofArray (zeros (12 * 12)))
    (Algorithms.tree 12 (rowMajor 12 fun i j => (i + j : Int)) (rowMajor 12 fun i j => (i * j : Int)) 2 3)
    fun m => toArray (12 * 12) m.cell =
      rowMajor 12 fun i j => bdot 2 6 (fun k => ((i + k : Nat) : Int)) (fun k => ((j * k : Nat) : Int)) := by
  have := C132_algorithms 12 (rowMajor 12 fun i j => (i + j : Int))
    (rowMajor 12 fun i j => (i * j : Int)) (fun i j => (i + j : Int)) (fun i j => (i * j : Int))
    (holds_rect _ _ _) (holds_rect _ _ _) 2 3 (by decide) (by decide) (by decide) (by decide)
  simpa using this

/-- `single`, 64×64 in blocks of 16 -/
example (junk : Nat → Int) (f g : Nat → Nat → Int) :
    ∃ C, AlwaysFinishes ⟨Async.startMem (64 * 64) junk, fun _ => true⟩
      (Async.single_tasks 64 (rowMajor 64 f) (rowMajor 64 g) true 16 32 2)
        fun m => toArray (64 * 64) m.cell = C := by
  have h := C10_single_pow2_exact 6 (rowMajor 64 f) (rowMajor 64 g) f g true 16 32 2
    (holds_rect _ _ _) (holds_rect _ _ _) (by decide) (.inr (by decide)) (by decide)
  exact ⟨_, C132_single junk (2 ^ 6) _ _ _ true 16 32 2 (by rw [h]; exact rfl)⟩

/-- `pseudodynamic` on three localities -/
example (p : StaticImproved.Params) (junk : Nat → Int) (f g : Nat → Nat → Int) (C : Array Int)
    (h : StaticImproved.matrix_multiply p 64 (rowMajor 64 f) (rowMajor 64 g) false 32 16 2 3 (.ok C)) :
    ∃ aw, StaticImproved.create_schedule p 64 2 = .ok aw ∧
      AlwaysFinishes ⟨Async.startMem (64 * 64) junk, fun _ => true⟩
        (Async.improved_tasks ⟨64, rowMajor 64 f, rowMajor 64 g, false, 32⟩ 64 16 2 aw.flatten)
        fun m => toArray (64 * 64) m.cell = C :=
  C132_pseudodynamic junk p 64 _ _ C false 32 16 2 3 h

/-- `semi`, 12×12 with 6 columns at a time -/
example (f g : Nat → Nat → Int) : ∃ pol, Semi.policy 6 = .ok pol ∧
    AlwaysFinishes (Mem.ofArray (zeros (12 * 12))) (Semi.tree 12 (rowMajor 12 f) (rowMajor 12 g) 6 pol)
      fun m => toArray (12 * 12) m.cell = rowMajor 12 fun i j => bdot 6 (12 / 6) (f i) (g j) :=
  C132_semi 12 _ _ f g (holds_rect _ _ _) (holds_rect _ _ _) 6 (by decide) (by decide) (by decide)

/-- the blocks of the programs, a size that has to be padded, any contents of `C` -/
example (f g : Nat → Nat → Int) (C : Array Int) := C132_kernel_tiled KernelTiled.valid
  (holds_rect 300 300 f) (holds_rect 300 300 g) C

example (f g : Nat → Nat → Int) (C : Array Int) := C132_combined Combined.valid
  (holds_rect 300 300 f) (holds_rect 300 300 g) C

/-- 460 is a multiple of 4, and 512 is inside the padding -/
example (f g : Nat → Nat → Int) (C : Array Int) := C132_kernel_test (holds_rect 460 460 f)
  (holds_rect 460 460 g) (by decide) (by decide) C

end Examples
end Verif.Props
