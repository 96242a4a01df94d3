import Verif.Props.AsyncErrs
import Verif.Props.ExperimentsRuns
import Verif.Proof.MemoryRuns
/-
Property C102: the parallel programs in the memory model of C++, where reads yield the values of visible
side effects instead of the last value written in an interleaving.
-/
set_option linter.unusedSectionVars false
namespace Verif.Props
open Verif.Kernel Verif.Recursive Verif.StaticImproved Verif.Experiments
variable {α : Type}

/-! ### the two semantics -/

/-- **C102.** The behaviour of a fork/join program is undefined in the C++ memory model if and only if
some interleaving of its accesses reaches a data race. -/
theorem C102_defined_iff (m : Mem α) (t : Tree α) : ¬ Undefined m t ↔ RaceFree m t :=
  raceFree_iff_defined.symm

/-- **C102.** If it is defined, the memories after its complete executions are those after its complete
interleavings. -/
theorem C102_memories (m m' : Mem α) (t : Tree α) (h : ¬ Undefined m t) :
    (∃ x t', Exec t x t' ∧ Consistent m x ∧ Done t' ∧ Final m x m') ↔
      ∃ t', PSteps m t m' t' ∧ Done t' := by
  have hr := (C102_defined_iff m t).1 h
  constructor
  · rintro ⟨x, t', h1, h2, h3, h4⟩
    have hn := hr.not_racy h1 h2
    obtain ⟨m'', h5, h6⟩ := h1.replay h2 hn
    rw [h4.unique h6 hn]
    exact ⟨t', h5, h3⟩
  · rintro ⟨t', h1, h2⟩
    rcases h1.exec with h' | ⟨x, h3, h4, h5⟩
    · exact absurd h' h
    · exact ⟨x, t', h3, h4, h2, h5⟩

/-- **C102.** Errors appear in executions of a defined program if and only if they appear in
interleavings. -/
theorem C102_errors (m : Mem α) (t : Tree α) (h : ¬ Undefined m t) (e : Err) :
    (∃ x t', Exec t x t' ∧ Consistent m x ∧ Failed e t') ↔ ∃ m' t', PSteps m t m' t' ∧ Failed e t' := by
  have hr := (C102_defined_iff m t).1 h
  constructor
  · rintro ⟨x, t', h1, h2, h3⟩
    obtain ⟨m', h4, _⟩ := h1.replay h2 (hr.not_racy h1 h2)
    exact ⟨m', t', h4, h3⟩
  · rintro ⟨m', t', h1, h2⟩
    rcases h1.exec with h' | ⟨x, h3, h4, _⟩
    · exact absurd h' h
    · exact ⟨x, t', h3, h4, h2⟩

variable [Arith α]

/-- **C102.** All complete runs under interleaving are as required if and only if all executions in the
C++ memory model are. -/
theorem C102_runs_iff (m : Mem α) (t : Tree α) (P : (Nat → α) → Prop) :
    CppRuns m t P ↔ EveryRun m t P := by
  refine ⟨fun h => ⟨C91_finite m t, (C102_defined_iff m t).1 h.defined, fun m' t' hs he => ?_⟩,
    EveryRun.cpp⟩
  rcases hs.exec with h' | ⟨x, h1, h2, h3⟩
  · exact absurd h' h.defined
  · rcases C91_end m' t' he with hd | ⟨e, hf⟩
    · exact ⟨hd, h.result x t' m' h1 h2 hd h3⟩
    · exact absurd hf (h.noError x t' e h1 h2)

/-! ### the programs -/

/-- **C102**, the reference multiplication. -/
theorem C102_naive (N : Nat) (A B : Array α) (a b : Nat → Nat → α) (hA : Holds A N N a)
    (hB : Holds B N N b) :
    CppRuns (Mem.ofArray (zeros (N * N))) (Naive.tree N A B) (fun c =>
      toArray (N * N) c = rowMajor N fun i j => dot N (a i) (fun k => b k j)) :=
  (C91_naive N A B a b hA hB).cpp

/-- **C102**, the reference multiplication with the second matrix transposed. -/
theorem C102_naive_transposed (N : Nat) (A Bt : Array α) (a b : Nat → Nat → α)
    (hA : Holds A N N a) (hB : Holds Bt N N b) :
    CppRuns (Mem.ofArray (zeros (N * N))) (Naive.treeT N A Bt) (fun c =>
      toArray (N * N) c = rowMajor N fun i j => dot N (a i) (b j)) :=
  (C91_naive_transposed N A Bt a b hA hB).cpp

/-- **C102**, variant `algorithms`. -/
theorem C102_algorithms (N : Nat) (A Bt : Array α) (a b : Nat → Nat → α) (hA : Holds A N N a)
    (hB : Holds Bt N N b) (bi br : Nat) (hbi : 0 < bi) (hbr : 0 < br) (hdi : bi ∣ N)
    (hdr : br ∣ N) :
    CppRuns (Mem.ofArray (zeros (N * N))) (Algorithms.tree N A Bt bi br) (fun c =>
      toArray (N * N) c = rowMajor N fun i j => bdot bi (N / bi) (a i) (b j)) :=
  (C91_algorithms N A Bt a b hA hB bi br hbi hbr hdi hdr).cpp

/-- **C102**, `single::matrix_multiply`, all tasks of all repetitions. -/
theorem C102_single (junk : Nat → α) (fl : Nat → Bool) (N e s : Nat) (A B : Array α)
    (a b : Nat → Nat → α) (transposed : Bool) (br bi reps : Nat) (hA : Holds A N N a)
    (hB : Holds B N N b) (hN : N = 2 ^ e * s) (hs : s ≤ br)
    (he : ∀ d, d < e → br < 2 ^ (d + 1) * s)
    (hdiv : transposed = true → bi ≠ 0 → 4 ≤ s → 4 ∣ s ∧ bi ∣ N) (hr : 0 < reps) :
    CppRuns ⟨Async.startMem (N * N) junk, fl⟩ (Async.single_tasks N A B transposed br bi reps)
      (fun c => toArray (N * N) c =
        rowMajor N fun i j => submatrixEntry N a b transposed bi s i j) :=
  (C91_single junk fl N e s A B a b transposed br bi reps hA hB hN hs he hdiv hr).cpp

/-- **C102**, `static_improved::matrix_multiply`, all tasks of all repetitions. -/
theorem C102_improved (junk : Nat → α) (fl : Nat → Bool) (p : Params) (N e q : Nat) (A B : Array α)
    (a b : Nat → Nat → α) (transposed : Bool) (br bi reps L : Nat) (hA : Holds A N N a)
    (hB : Holds B N N b) (hN : N = 2 ^ e * q) (hq : q ≤ p.min_work_size) (hbr : q ≤ br)
    (hL : 0 < L) (hr : 0 < reps) (hbi : transposed = false ∨ bi = 0) :
    ∃ aw, create_schedule p N (if 1 < L then L - 1 else L) = .ok aw ∧
      CppRuns ⟨Async.startMem (N * N) junk, fl⟩
        (Async.improved_tasks ⟨N, A, B, transposed, bi⟩ N br reps aw.flatten) (fun c =>
          toArray (N * N) c = rowMajor N fun i j =>
            dot N (a i) (fun k => if transposed then b j k else b k j)) := by
  obtain ⟨aw, h1, h⟩ :=
    C91_improved junk fl p N e q A B a b transposed br bi reps L hA hB hN hq hbr hL hr hbi
  exact ⟨_, h1, h.cpp⟩

/-- **C102**, `static_improved::matrix_multiply` whenever it returns a vector. -/
theorem C102_improved_any (junk : Nat → α) (fl : Nat → Bool) (p : Params) (N : Nat)
    (A B C : Array α) (transposed : Bool) (bi br reps L : Nat)
    (h : matrix_multiply p N A B transposed bi br reps L (.ok C)) :
    ∃ aw, create_schedule p N (if 1 < L then L - 1 else L) = .ok aw ∧
      CppRuns ⟨Async.startMem (N * N) junk, fl⟩
        (Async.improved_tasks ⟨N, A, B, transposed, bi⟩ N br reps aw.flatten)
        (fun c => toArray (N * N) c = C) := by
  obtain ⟨aw, h1, h⟩ :=
    C91_improved_any junk fl p N A B C transposed bi br reps L h
  exact ⟨_, h1, h.cpp⟩

/-- **C102**, `static_improved::matrix_multiply`, exact arithmetic, the whole domain of C22. -/
theorem C102_improved_exact {R : Type} [Semiring R] (junk : Nat → R) (fl : Nat → Bool) (p : Params)
    (N e q : Nat) (A B : Array R) (a b : Nat → Nat → R) (transposed : Bool) (br bi reps L : Nat)
    (hA : Holds A N N a) (hB : Holds B N N b) (hN : N = 2 ^ e * q) (hq : q ≤ p.min_work_size)
    (hbr : q ≤ br) (hL : 0 < L) (hr : 0 < reps)
    (hdiv : transposed = true → bi ≠ 0 → bi ∣ N ∧ ∀ d, d ≤ e → 4 ≤ 2 ^ d * q → 4 ∣ 2 ^ d * q) :
    ∃ aw, create_schedule p N (if 1 < L then L - 1 else L) = .ok aw ∧
      CppRuns ⟨@Async.startMem R (exact R) (N * N) junk, fl⟩
        (@Async.improved_tasks R (exact R) ⟨N, A, B, transposed, bi⟩ N br reps aw.flatten)
        (fun c => toArray (N * N) c = rowMajor N fun i j =>
          ∑ k ∈ Finset.range N, a i k * (if transposed then b j k else b k j)) := by
  obtain ⟨aw, h1, h⟩ :=
    C91_improved_exact junk fl p N e q A B a b transposed br bi reps L hA hB hN hq hbr hL hr hdiv
  exact ⟨_, h1, h.cpp⟩

/-- **C102**, `multNaive`: the parallel rows. -/
theorem C102_multNaive (n : Nat) (A B C : Array α) (a b c : Nat → Nat → α) (hA : Holds A n n a)
    (hB : Holds B n n b) (hC : Holds C n n c) (hs : C.size = n * n) :
    CppRuns (Mem.ofArray C) (naiveTree n A B (n * n)) (fun m =>
      toArray (n * n) m =
        rowMajor n fun i j => dotFrom (c i j) (List.range n) (a i) (fun k => b k j)) :=
  (C96_naive n A B C a b c hA hB hC hs).cpp

/-- **C102**, `multCounter`. -/
theorem C102_multCounter (n : Nat) (A B C : Array α) (a b : Nat → Nat → α) (hA : Holds A n n a)
    (hB : Holds B n n b) (hs : C.size = n * n) :
    CppRuns (Mem.ofArray C) (counterTree n A B (n * n)) (fun m =>
      toArray (n * n) m = rowMajor n fun i j => dot n (a i) (b j)) :=
  (C96_counter n A B C a b hA hB hs).cpp

/-- **C102**, `multBlocked2` for even sizes. -/
theorem C102_multBlocked2 (n : Nat) (hn : 2 ∣ n) (A B C : Array α) (a b : Nat → Nat → α)
    (hA : Holds A n n a) (hB : Holds B n n b) (hs : C.size = n * n) :
    CppRuns (Mem.ofArray C) (blocked2Tree n A B (n * n)) (fun m =>
      toArray (n * n) m = rowMajor n fun i j => dot n (a i) (b j)) :=
  (C96_blocked2 n hn A B C a b hA hB hs).cpp

/-- **C102**, `multBlocked4` for multiples of 4 (which computes every fourth product only). -/
theorem C102_multBlocked4 (n : Nat) (hn : 4 ∣ n) (A B C : Array α) (a b : Nat → Nat → α)
    (hA : Holds A n n a) (hB : Holds B n n b) (hs : C.size = n * n) :
    CppRuns (Mem.ofArray C) (blocked4Tree n A B (n * n)) (fun m =>
      toArray (n * n) m = rowMajor n fun i j =>
        dot (n / 4) (fun t => a i (4 * t)) (fun t => b j (4 * t))) :=
  (C96_blocked4 n hn A B C a b hA hB hs).cpp

/-- **C102**, `multExchanged`. -/
theorem C102_multExchanged (n : Nat) (hn : 128 ∣ n) (st : Stack α) (hst : st.Sized 128 128)
    (A B C : Array α) (a b : Nat → Nat → α) (hA : Holds A n n a) (hB : Holds B n n b)
    (hC : C.size = n * n) :
    CppRuns (Mem.ofArray C) (exchangedTree 128 128 st A B (n * n) n) (fun m =>
      toArray (n * n) m = rowMajor n (mulSpec n a b)) :=
  (C96_exchanged n hn st hst A B C a b hA hB hC).cpp

/-- **C102**, `multGPU`. -/
theorem C102_multGPU (n : Nat) (hn : 128 ∣ n) (st : Stack α) (hst : st.Sized 128 128)
    (A B C : Array α) (a b : Nat → Nat → α) (hA : Holds A n n a) (hB : Holds B n n b)
    (hC : C.size = n * n) :
    CppRuns (Mem.ofArray C) (gpuTree 128 128 st A B (n * n) n) (fun m =>
      toArray (n * n) m = rowMajor n fun i j => quarterBlocksDot n 128 (a i) (b j)) :=
  (C96_gpu n hn st hst A B C a b hA hB hC).cpp

/-- **C102**, `multGPUASM` with `__FMA__` and aligned stack arrays. -/
theorem C102_multGPUASM (oA oB : Nat) (hoA : oA % 4 = 0) (hoB : oB % 4 = 0) (n : Nat)
    (hn : 256 ∣ n) (st : Stack α) (hst : st.Sized 256 256)
    (A B C : Array α) (a b : Nat → Nat → α) (hA : Holds A n n a) (hB : Holds B n n b)
    (hC : C.size = n * n) :
    CppRuns (Mem.ofArray C) (gpuasmTree true oA oB 256 256 st A B (n * n) n) (fun m =>
      toArray (n * n) m = rowMajor n fun i j => quarterBlocksDot n 256 (a i) (b j)) :=
  (C96_gpuasm oA oB hoA hoB n hn st hst A B C a b hA hB hC).cpp

/-- **C102**, `multRegister` with `__FMA__` and aligned stack arrays. -/
theorem C102_multRegister (oR oB : Nat) (hoR : oR % 4 = 0) (hoB : oB % 4 = 0) (n : Nat)
    (hn : 256 ∣ n) (st : Stack α) (hst : st.Sized 256 64)
    (A B C : Array α) (a b : Nat → Nat → α) (hA : Holds A n n a) (hB : Holds B n n b)
    (hC : C.size = n * n) :
    CppRuns (Mem.ofArray C) (registerTree true oR oB 256 64 st A B (n * n) n) (fun m =>
      toArray (n * n) m = rowMajor n (mulSpec n a b)) :=
  (C96_register oR oB hoR hoB n hn st hst A B C a b hA hB hC).cpp

/-- **C102**, `multIntrinLoop` with aligned matrices. -/
theorem C102_multIntrinLoop (oA oB oC : Nat) (hoA : oA % 4 = 0) (hoB : oB % 4 = 0) (hoC : oC % 4 = 0)
    (n : Nat) (hn : 128 ∣ n) (st : Stack α) (hst : st.Sized 128 128)
    (A B C : Array α) (a b : Nat → Nat → α) (hA : Holds A n n a) (hB : Holds B n n b)
    (hC : C.size = n * n) :
    CppRuns (Mem.ofArray C) (ilTree oA oB oC 128 128 st A B (n * n) n) (fun m =>
      toArray (n * n) m = rowMajor n (mulSpec n a b)) :=
  (C96_intrinLoop oA oB oC hoA hoB hoC n hn st hst A B C a b hA hB hC).cpp

/-- **C102**, `multASM` with a new compiler and aligned matrices. -/
theorem C102_multASM (gnuc oA oB : Nat) (hg : 4 < gnuc) (hoA : oA % 4 = 0) (hoB : oB % 4 = 0) (n : Nat)
    (hn : 4 ∣ n) (hn' : n < 2 ^ 31) (A B C : Array α) (a b : Nat → Nat → α) (hA : Holds A n n a)
    (hB : Holds B n n b) (hC : C.size = n * n) :
    CppRuns (Mem.ofArray C) (asmTree gnuc oA oB A B (n * n) n) (fun m =>
      toArray (n * n) m = rowMajor n fun i j => addQuarters n (a i) (b j) Arith.zero) :=
  (C96_asm gnuc oA oB hg hoA hoB n hn hn' A B C a b hA hB hC).cpp

/-- **C102**, one repetition of `kernel_tiled`, for all block sizes that fit together: its parallel
loop ends with padded results from which the product is extracted. -/
theorem C102_kernel_tiled (b : Tiled.Blocking) (hb : b.Valid) (N : Nat) (A B : Array α)
    (f g : Nat → Nat → α) (hA : Holds A N N f) (hB : Holds B N N g) :
    ∃ p At Bp, Tiled.setup b N A B = .ok p ∧ Tiled.tileA b p = .ok At ∧
      Tiled.tileB b p = .ok Bp ∧
      CppRuns (Mem.ofArray (zeros (p.X_size * p.Y_size)))
        (KernelTiled.tree b p.X_size p.Y_size p.K_size At Bp) (fun m =>
          Tiled.extract b N p.X_size p.Y_size (toArray (p.X_size * p.Y_size) m) =
            .ok (rowMajor N fun i j =>
              bdot b.L1_K_STEP (ceilDiv N b.L3_K_STEP * b.L3_K_STEP / b.L1_K_STEP)
                (fun k => Tiled.pad N f i k) (fun k => Tiled.pad N g k j))) := by
  obtain ⟨p, At, Bp, h1, h2, h3, h⟩ :=
    C96_kernel_tiled b hb N A B f g hA hB
  exact ⟨_, _, _, h1, h2, h3, h.cpp⟩

/-- **C102**, one repetition of `kernel_test` for the sizes it is defined for. -/
theorem C102_kernel_test (N : Nat) (hN : SafeSize N) (A B : Array α) (f g : Nat → Nat → α)
    (hA : Holds A N N f) (hB : Holds B N N g) :
    ∃ At Bp, KernelTest.transA N A = .ok At ∧ KernelTest.padB N B = .ok Bp ∧
      CppRuns (Mem.ofArray (zeros ((N + 64) * (N + 64)))) (KernelTest.tree N At Bp) (fun m =>
        KernelTest.extract N (toArray ((N + 64) * (N + 64)) m) = .ok (rowMajor N fun i j =>
          bdot 16 (ceilDiv N 512 * 512 / 16) (fun k => Tiled.pad N f i k)
            (fun k => Tiled.pad N g k j))) := by
  obtain ⟨At, Bp, h1, h2, h⟩ :=
    C96_kernel_test N hN A B f g hA hB
  exact ⟨_, _, h1, h2, h.cpp⟩

/-- **C102**, one repetition of `combined` for `N ≤ 256`, where it has no data race. -/
theorem C102_combined (N : Nat) (hN : N ≤ 256) (A B : Array α) (f g : Nat → Nat → α)
    (hA : Holds A N N f) (hB : Holds B N N g) :
    ∃ p At Bp pl, Tiled.setup Combined.blocking N A B = .ok p ∧
      Tiled.tileA Combined.blocking p = .ok At ∧ Tiled.tileB Combined.blocking p = .ok Bp ∧
      Combined.policy Combined.blocking = .ok pl ∧
      CppRuns (Mem.ofArray (zeros (p.X_size * p.Y_size)))
        (Combined.tree Combined.blocking pl p.X_size p.Y_size p.K_size At Bp) (fun m =>
          Tiled.extract Combined.blocking N p.X_size p.Y_size
            (toArray (p.X_size * p.Y_size) m) = .ok (rowMajor N fun i j =>
              bdot 64 (ceilDiv N 256 * 256 / 64) (fun k => Tiled.pad N f i k)
                (fun k => Tiled.pad N g k j))) := by
  obtain ⟨p, At, Bp, pl, h1, h2, h3, h4, h⟩ :=
    C96_combined N hN A B f g hA hB
  exact ⟨_, _, _, _, h1, h2, h3, h4, h.cpp⟩


/-- **C102**, `combined` for `N > 256`: its behaviour is undefined, whatever the matrices. -/
theorem C102_combined_undefined (N : Nat) (hN : 256 < N) (A B : Array α) (f g : Nat → Nat → α)
    (hA : Holds A N N f) (hB : Holds B N N g) :
    ∃ p At Bp pl, Tiled.setup Combined.blocking N A B = .ok p ∧
      Tiled.tileA Combined.blocking p = .ok At ∧ Tiled.tileB Combined.blocking p = .ok Bp ∧
      Combined.policy Combined.blocking = .ok pl ∧
      ∀ C : Array α, Undefined (Mem.ofArray C)
        (Combined.tree Combined.blocking pl p.X_size p.Y_size p.K_size At Bp) := by
  obtain ⟨p, At, Bp, pl, h1, h2, h3, h4, _⟩ := C36_race N hN A B f g hA hB #[]
  refine ⟨p, At, Bp, pl, h1, h2, h3, h4, fun C => ?_⟩
  obtain ⟨p', At', Bp', pl', h1', h2', h3', h4', m, t, hs, hr⟩ := C36_race N hN A B f g hA hB C
  rw [h1] at h1'
  cases h1'
  rw [h2] at h2'
  cases h2'
  rw [h3] at h3'
  cases h3'
  rw [h4] at h4'
  cases h4'
  refine Classical.byContradiction fun h => ?_
  exact (C102_defined_iff _ _).1 h m t hs (race_iff.2 ⟨_, hr⟩)

section Examples

/-- two tasks that write one cell each and then read the other one -/
private def crossed : Tree Nat :=
  .par [.act (.wr 0 1 (.rd 1 fun v => .wr 2 v (.ret ()))),
    .act (.wr 1 1 (.rd 0 fun v => .wr 3 v (.ret ())))]

/-- an execution in which both tasks read the old values, which no interleaving does -/
private def bothOld : Execution Nat :=
  .par [.seq ([.wr 0 1, .rd 1 0, .wr 2 0].map .event), .seq ([.wr 1 1, .rd 0 0, .wr 3 0].map .event)]

private theorem bothOld_at {p e} (h : bothOld.at p = some e) :
    (p = [.par 0, .seq 0] ∧ e = .wr 0 1) ∨ (p = [.par 0, .seq 1] ∧ e = .rd 1 0) ∨
    (p = [.par 0, .seq 2] ∧ e = .wr 2 0) ∨ (p = [.par 1, .seq 0] ∧ e = .wr 1 1) ∨
    (p = [.par 1, .seq 1] ∧ e = .rd 0 0) ∨ (p = [.par 1, .seq 2] ∧ e = .wr 3 0) := by
  obtain ⟨n, x, p', rfl, hx, hp⟩ := at_par.1 h
  match n, hx with
  | 0, hx =>
    cases hx
    obtain ⟨k, rfl, hk⟩ := at_events.1 hp
    match k, hk with
    | 0, hk => cases hk; simp
    | 1, hk => cases hk; simp
    | 2, hk => cases hk; simp
  | 1, hx =>
    cases hx
    obtain ⟨k, rfl, hk⟩ := at_events.1 hp
    match k, hk with
    | 0, hk => cases hk; simp
    | 1, hk => cases hk; simp
    | 2, hk => cases hk; simp

-- the executions are more than the interleavings
example : Consistent ⟨fun _ => 0, fun _ => true⟩ bothOld ∧
    Exec crossed bothOld (.par [.act (.ret ()), .act (.ret ())]) := by
  refine ⟨fun p e hp he => ?_, .par rfl rfl fun n t x t' ht hx ht' => ?_⟩
  · refine .inr ⟨?_, ?_⟩
    · rintro q ⟨w, hq, hw, hl⟩ hb
      rcases bothOld_at hp with ⟨rfl, rfl⟩ | ⟨rfl, rfl⟩ | ⟨rfl, rfl⟩ | ⟨rfl, rfl⟩ | ⟨rfl, rfl⟩ |
        ⟨rfl, rfl⟩ <;> rcases bothOld_at hq with ⟨rfl, rfl⟩ | ⟨rfl, rfl⟩ | ⟨rfl, rfl⟩ | ⟨rfl, rfl⟩ |
        ⟨rfl, rfl⟩ | ⟨rfl, rfl⟩ <;> simp_all [HB, Event.isWrite, Event.loc]
    · rcases bothOld_at hp with ⟨rfl, rfl⟩ | ⟨rfl, rfl⟩ | ⟨rfl, rfl⟩ | ⟨rfl, rfl⟩ | ⟨rfl, rfl⟩ |
        ⟨rfl, rfl⟩ <;> simp_all [Event.isWrite, Event.loc, Event.val, Mem.val]
  · match n, ht, hx, ht' with
    | 0, ht, hx, ht' => cases ht; cases hx; cases ht'; exact .act (.wr (.rd (.wr .refl)))
    | 1, ht, hx, ht' => cases ht; cases hx; cases ht'; exact .act (.wr (.rd (.wr .refl)))

-- its behaviour is undefined
example : Undefined ⟨fun _ => 0, fun _ => true⟩ crossed := by
  refine Classical.byContradiction fun h => ?_
  exact (C102_defined_iff _ _).1 h _ _ (.step (.parStep 0 rfl .wr) .refl)
    (.here 1 0 (by decide) rfl rfl .wr .rd)

attribute [local instance] exact

-- the matrices of the examples of C91 and C96
example : CppRuns (Mem.ofArray (zeros (5 * 5)))
    (Naive.tree 5 (rect 5 5 fun i j => i + j) (rect 5 5 fun i j => i * j)) (fun c =>
      toArray (5 * 5) c = rowMajor 5 fun i j => dot 5 (fun k => i + k) (fun k => k * j)) :=
  C102_naive 5 _ _ (fun i j => i + j) (fun i j => i * j) (holds_rect 5 5 _) (holds_rect 5 5 _)
example := C102_naive_transposed 5 _ _ (fun i j => i + j) (fun i j => i * j)
  (holds_rect 5 5 _) (holds_rect 5 5 _)
example := C102_algorithms 12 _ _ (fun i j => i + j) (fun i j => i * j)
  (holds_rect 12 12 _) (holds_rect 12 12 _) 3 4 (by omega) (by omega) ⟨4, rfl⟩ ⟨3, rfl⟩
example (junk : Nat → Nat) (fl : Nat → Bool) := C102_single junk fl 16 2 4 _ _ (fun i j => i + j)
  (fun i j => i * j) true 5 8 3 (holds_rect 16 16 _) (holds_rect 16 16 _) rfl (by omega)
  (fun d hd => by have : d = 0 ∨ d = 1 := by omega
                  rcases this with rfl | rfl <;> decide)
  (fun _ _ _ => ⟨⟨1, rfl⟩, ⟨2, rfl⟩⟩) (by omega)
example (junk : Nat → Nat) (fl : Nat → Bool) := C102_improved junk fl ⟨3, 0, fun _ _ => false⟩ 12 2 3
  _ _ (fun i j => i + j) (fun i j => i * j) true 4 0 2 4 (holds_rect 12 12 _)
    (holds_rect 12 12 _) rfl (by decide) (by omega) (by omega) (by omega) (.inr rfl)
example := C102_multNaive 5 _ _ _ (fun i j => i + j) (fun i j => i * j) (fun i _ => i)
    (holds_rect 5 5 fun i j => i + j) (holds_rect 5 5 fun i j => i * j)
    (holds_rect 5 5 fun i _ => i) (by simp [rect])
example := C102_multCounter 3 _ _ (zeros 9) (fun i j => i + j) (fun i j => i * j)
  (holds_rect 3 3 fun i j => i + j) (holds_rect 3 3 fun i j => i * j) (by simp)
example := C102_multBlocked2 6 ⟨3, rfl⟩ _ _ (zeros 36) (fun i j => i + j) (fun i j => i * j)
  (holds_rect 6 6 fun i j => i + j) (holds_rect 6 6 fun i j => i * j) (by simp)
example := C102_multBlocked4 8 ⟨2, rfl⟩ _ _ (zeros 64) (fun i j => i + j) (fun i j => i * j)
  (holds_rect 8 8 fun i j => i + j) (holds_rect 8 8 fun i j => i * j) (by simp)
example (st : Stack Nat) (hst : st.Sized 128 128) :=
  C102_multExchanged 256 ⟨2, rfl⟩ st hst _ _ (zeros (256 * 256)) (fun i j => i + j) (fun i j => i * j)
    (holds_rect 256 256 fun i j => i + j) (holds_rect 256 256 fun i j => i * j) (zeros_size _)
example (st : Stack Nat) (hst : st.Sized 128 128) :=
  C102_multGPU 256 ⟨2, rfl⟩ st hst _ _ (zeros (256 * 256)) (fun i j => i + j) (fun i j => i * j)
    (holds_rect 256 256 fun i j => i + j) (holds_rect 256 256 fun i j => i * j) (zeros_size _)
example (st : Stack Nat) (hst : st.Sized 256 256) :=
  C102_multGPUASM 4 8 rfl rfl 512 ⟨2, rfl⟩ st hst _ _ (zeros (512 * 512)) (fun i j => i + j)
    (fun i j => i * j) (holds_rect 512 512 fun i j => i + j) (holds_rect 512 512 fun i j => i * j)
    (zeros_size _)
example (st : Stack Nat) (hst : st.Sized 256 64) :=
  C102_multRegister 4 8 rfl rfl 512 ⟨2, rfl⟩ st hst _ _ (zeros (512 * 512)) (fun i j => i + j)
    (fun i j => i * j) (holds_rect 512 512 fun i j => i + j) (holds_rect 512 512 fun i j => i * j)
    (zeros_size _)
example (st : Stack Nat) (hst : st.Sized 128 128) :=
  C102_multIntrinLoop 4 8 0 rfl rfl rfl 256 ⟨2, rfl⟩ st hst _ _ (zeros (256 * 256)) (fun i j => i + j)
    (fun i j => i * j) (holds_rect 256 256 fun i j => i + j) (holds_rect 256 256 fun i j => i * j)
    (zeros_size _)
example := C102_multASM 7 0 4 (by omega) rfl rfl 8 ⟨2, rfl⟩ (by omega) _ _ (zeros 64)
  (fun i j => i + j) (fun i j => i * j) (holds_rect 8 8 fun i j => i + j)
  (holds_rect 8 8 fun i j => i * j) (by simp)
example := C102_kernel_tiled KernelTiled.blocking KernelTiled.valid 500 _ _ (fun i j => i + j)
  (fun i j => i * j) (holds_rect 500 500 fun i j => i + j) (holds_rect 500 500 fun i j => i * j)
example := C102_kernel_test 508 (by unfold SafeSize; omega) _ _ (fun i j => i + j)
  (fun i j => i * j) (holds_rect 508 508 fun i j => i + j) (holds_rect 508 508 fun i j => i * j)
example := C102_combined 200 (by omega) _ _ (fun i j => i + j)
  (fun i j => i * j) (holds_rect 200 200 fun i j => i + j) (holds_rect 200 200 fun i j => i * j)
example := C102_combined_undefined 300 (by omega) _ _ (fun i j => i + j)
  (fun i j => i * j) (holds_rect 300 300 fun i j => i + j) (holds_rect 300 300 fun i j => i * j)
end Examples

end Verif.Props
