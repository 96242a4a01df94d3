import Verif.Proof.ThreadsUse
import Verif.Props.AsyncErrs
import Verif.Props.ExperimentsRuns
import Verif.Props.Semi
/-
Properties C123 and C124: the number of threads, and the way in which the iterations of parallel
loops are handed out to them.
-/
set_option linter.unusedSectionVars false
namespace Verif.Props
open Verif.Kernel Verif.Recursive Verif.StaticImproved Verif.Experiments

section General
variable {α : Type}

/-- **C123.** A program that behaves in every interleaving behaves with every number of threads, and
with every grouping of the iterations of its parallel loops. -/
theorem C123_threads {m : Mem α} {t u : Tree α} {P : (Nat → α) → Prop} (h : EveryRun m t P)
    (hg : Grouped t u) (threads : Nat) (ht : 0 < threads) : EveryPoolRun threads m u P := by
  refine (hg.ends h.ends).pool ht fun m' w hs hr => ?_
  have h1 := hs.sound (Pool.legal_fresh u)
  rw [Pool.tree_fresh] at h1
  exact hg.raceFree h.raceFree _ _ h1.1 hr.sound

/-- **C123.** The same if no iterations are grouped. -/
theorem C123_ungrouped {m : Mem α} {t : Tree α} {P : (Nat → α) → Prop} (h : EveryRun m t P)
    (threads : Nat) (ht : 0 < threads) : EveryPoolRun threads m t P := by
  refine Ends.pool h.ends ht fun m' w hs hr => ?_
  have h1 := hs.sound (Pool.legal_fresh t)
  rw [Pool.tree_fresh] at h1
  exact h.raceFree _ _ h1.1 hr.sound

/-- **C123.** Every program can be grouped, for example into groups of single iterations. -/
theorem C123_groups (t : Tree α) : ∃ u, Grouped t u ∧ u.width = t.width := by
  have key : ∀ t : Tree α, ∃ u, Grouped t u ∧ u.width = t.width := by
    intro t
    induction t using Tree.rec
      (motive_2 := fun ts => ∃ us : List (Tree α), ts.length = us.length ∧
        (∀ (n : Nat) t u, ts[n]? = some t → us[n]? = some u → Grouped t u) ∧
          us.map Tree.width = ts.map Tree.width) with
    | act p => exact ⟨_, .act p, rfl⟩
    | seq ts ih =>
      obtain ⟨us, h1, h2, h3⟩ := ih
      exact ⟨_, .seq h1 h2, by simp only [Tree.width, h3]⟩
    | par ts ih =>
      obtain ⟨us, h1, h2, h3⟩ := ih
      refine ⟨_, .par (us.map fun u => [u]) h1 h2 ?_, ?_⟩
      · rw [List.flatten_eq_flatMap, List.flatMap_map]
        simp
      · simp only [Tree.width, List.map_map, ← h3]
        congr 1
        refine List.map_congr_left fun u _ => ?_
        simp [Tree.width]
    | nil => exact ⟨[], rfl, by simp, rfl⟩
    | cons t ts ih1 ih2 =>
      obtain ⟨u, h1, h2⟩ := ih1
      obtain ⟨us, h3, h4, h5⟩ := ih2
      refine ⟨u :: us, by simp [h3], ?_, by simp [h2, h5]⟩
      intro n t' u' ht hu
      cases n with
      | zero => simp at ht hu; subst ht hu; exact h1
      | succ n => exact h4 n t' u' (by simpa using ht) (by simpa using hu)
  exact key t

/-- **C123.** With as many threads as tasks can run at the same time, all interleavings occur: the
program behaves on these threads exactly if it behaves in every interleaving. -/
theorem C123_enough {m : Mem α} {t : Tree α} {P : (Nat → α) → Prop} {threads : Nat}
    (ht : 0 < threads) (hw : t.width ≤ threads) :
    EveryPoolRun threads m t P ↔ EveryRun m t P := by
  refine ⟨fun h => ?_, fun h => ?_⟩
  · obtain ⟨h1, h2⟩ := h.all hw
    exact ⟨C91_finite m t, h1, h2⟩
  · exact C123_ungrouped h threads ht

/-- **C123.** On one thread there are no data races, so that only the final results matter. -/
theorem C123_one {m : Mem α} {t : Tree α} {P : (Nat → α) → Prop}
    (h : ∀ m' t', PSteps m t m' t' → AtEnd m' t' → Done t' ∧ P m'.cell) :
    EveryPoolRun 1 m t P := by
  refine Ends.pool h (by decide) fun m' w hs hr => ?_
  have h1 := hs.busy (by rw [Pool.busy_fresh]; omega)
  have h2 := hr.busy
  omega

/-- **C124.** Never more threads are busy than tasks of the program can run at the same time. -/
theorem C124_width {t : Tree α} {n : Nat} (hw : t.width ≤ n) (threads : Nat) (m m' : Mem α)
    (w : Pool α) (hs : Pool.Steps threads m (.fresh t) m' w) : w.busy ≤ n := by
  have h := hs.sound (Pool.legal_fresh t)
  rw [Pool.tree_fresh] at h
  have h1 := h.2.busy_le
  have h2 := width_steps h.1
  omega

private theorem uses {t : Tree α} {n : Nat} (hw : t.width ≤ n) (h : Occupies t n) :
    UsesThreads t n := ⟨C124_width hw, h⟩

private theorem uses_acts {ι : Type} (l : List ι) (f : ι → Act α Unit) {n : Nat} (h : l.length = n) :
    UsesThreads (Tree.par (l.map fun i => .act (f i))) n := by
  subst h
  exact uses (Nat.le_of_eq (Tree.width_acts l f)) (.acts l f)

end General

variable {α : Type} [Arith α]

/-! ### C123 for the variants -/

/-- **C123**, the reference multiplication. -/
theorem C123_naive (N : Nat) (A B : Array α) (a b : Nat → Nat → α) (hA : Holds A N N a)
    (hB : Holds B N N b) {u : Tree α} (hu : Grouped (Naive.tree N A B) u) (threads : Nat)
    (ht : 0 < threads) :
    EveryPoolRun threads (Mem.ofArray (zeros (N * N))) u (fun c =>
      toArray (N * N) c = rowMajor N fun i j => dot N (a i) (fun k => b k j)) :=
  C123_threads (C91_naive N A B a b hA hB) hu threads ht

/-- **C123**, the reference multiplication with the second matrix transposed. -/
theorem C123_naive_transposed (N : Nat) (A Bt : Array α) (a b : Nat → Nat → α)
    (hA : Holds A N N a) (hB : Holds Bt N N b) {u : Tree α} (hu : Grouped (Naive.treeT N A Bt) u)
    (threads : Nat) (ht : 0 < threads) :
    EveryPoolRun threads (Mem.ofArray (zeros (N * N))) u (fun c =>
      toArray (N * N) c = rowMajor N fun i j => dot N (a i) (b j)) :=
  C123_threads (C91_naive_transposed N A Bt a b hA hB) hu threads ht

/-- **C123**, variant `algorithms`. -/
theorem C123_algorithms (N : Nat) (A Bt : Array α) (a b : Nat → Nat → α) (hA : Holds A N N a)
    (hB : Holds Bt N N b) (bi br : Nat) (hbi : 0 < bi) (hbr : 0 < br) (hdi : bi ∣ N)
    (hdr : br ∣ N) {u : Tree α} (hu : Grouped (Algorithms.tree N A Bt bi br) u) (threads : Nat)
    (ht : 0 < threads) :
    EveryPoolRun threads (Mem.ofArray (zeros (N * N))) u (fun c =>
      toArray (N * N) c = rowMajor N fun i j => bdot bi (N / bi) (a i) (b j)) :=
  C123_threads (C91_algorithms N A Bt a b hA hB bi br hbi hbr hdi hdr) hu threads ht

/-- **C123**, `single::matrix_multiply`. -/
theorem C123_single (junk : Nat → α) (fl : Nat → Bool) (N e s : Nat) (A B : Array α)
    (a b : Nat → Nat → α) (transposed : Bool) (br bi reps : Nat) (hA : Holds A N N a)
    (hB : Holds B N N b) (hN : N = 2 ^ e * s) (hs : s ≤ br)
    (he : ∀ d, d < e → br < 2 ^ (d + 1) * s)
    (hdiv : transposed = true → bi ≠ 0 → 4 ≤ s → 4 ∣ s ∧ bi ∣ N) (hr : 0 < reps) {u : Tree α}
    (hu : Grouped (Async.single_tasks N A B transposed br bi reps) u) (threads : Nat)
    (ht : 0 < threads) :
    EveryPoolRun threads ⟨Async.startMem (N * N) junk, fl⟩ u (fun c => toArray (N * N) c =
      rowMajor N fun i j => submatrixEntry N a b transposed bi s i j) :=
  C123_threads (C91_single junk fl N e s A B a b transposed br bi reps hA hB hN hs he hdiv hr) hu
    threads ht

/-- **C123**, `static_improved::matrix_multiply`. -/
theorem C123_improved (junk : Nat → α) (fl : Nat → Bool) (p : Params) (N e q : Nat)
    (A B : Array α) (a b : Nat → Nat → α) (transposed : Bool) (br bi reps L : Nat)
    (hA : Holds A N N a) (hB : Holds B N N b) (hN : N = 2 ^ e * q) (hq : q ≤ p.min_work_size)
    (hbr : q ≤ br) (hL : 0 < L) (hr : 0 < reps) (hbi : transposed = false ∨ bi = 0) :
    ∃ aw, create_schedule p N (if 1 < L then L - 1 else L) = .ok aw ∧
      ∀ u, Grouped (Async.improved_tasks ⟨N, A, B, transposed, bi⟩ N br reps aw.flatten) u →
        ∀ threads, 0 < threads →
          EveryPoolRun threads ⟨Async.startMem (N * N) junk, fl⟩ u (fun c =>
            toArray (N * N) c = rowMajor N fun i j =>
              dot N (a i) (fun k => if transposed then b j k else b k j)) := by
  obtain ⟨aw, h1, h2⟩ := C91_improved junk fl p N e q A B a b transposed br bi reps L hA hB hN hq hbr
    hL hr hbi
  exact ⟨aw, h1, fun u hu threads ht => C123_threads h2 hu threads ht⟩

/-- **C123**, the three-dimensional iteration of `semi`. -/
theorem C123_semi (N : Nat) (A B : Array α) (a b : Nat → Nat → α) (hA : Holds A N N a)
    (hB : Holds B N N b) (bi : Nat) (h4 : 4 ∣ N) (hbi : 0 < bi) (hd : bi ∣ N)
    {pl : IndexIterator.Policy} (hp : Semi.policy bi = .ok pl) {u : Tree α}
    (hu : Grouped (Semi.tree N A B bi pl) u) (threads : Nat) (ht : 0 < threads) :
    EveryPoolRun threads (Mem.ofArray (zeros (N * N))) u (fun c =>
      toArray (N * N) c = rowMajor N fun i j => bdot bi (N / bi) (a i) (b j)) := by
  rw [semi_policy] at hp
  cases hp
  have h := everyRun_of_runOn (Semi.raceFree N A B bi) (Semi.tree_result hA hB h4 hbi hd)
  rw [zeros_size] at h
  exact C123_threads h hu threads ht

/-- **C123**, one repetition of `kernel_tiled`. -/
theorem C123_kernel_tiled (b : Tiled.Blocking) (hb : b.Valid) (N : Nat) (A B : Array α)
    (f g : Nat → Nat → α) (hA : Holds A N N f) (hB : Holds B N N g) :
    ∃ p At Bp, Tiled.setup b N A B = .ok p ∧ Tiled.tileA b p = .ok At ∧
      Tiled.tileB b p = .ok Bp ∧
      ∀ u, Grouped (KernelTiled.tree b p.X_size p.Y_size p.K_size At Bp) u →
        ∀ threads, 0 < threads →
          EveryPoolRun threads (Mem.ofArray (zeros (p.X_size * p.Y_size))) u (fun m =>
            Tiled.extract b N p.X_size p.Y_size (toArray (p.X_size * p.Y_size) m) =
              .ok (rowMajor N fun i j =>
                bdot b.L1_K_STEP (ceilDiv N b.L3_K_STEP * b.L3_K_STEP / b.L1_K_STEP)
                  (fun k => Tiled.pad N f i k) (fun k => Tiled.pad N g k j))) := by
  obtain ⟨p, At, Bp, h1, h2, h3, h4⟩ := C96_kernel_tiled b hb N A B f g hA hB
  exact ⟨p, At, Bp, h1, h2, h3, fun u hu threads ht => C123_threads h4 hu threads ht⟩

/-- **C123**, one repetition of `kernel_test`. -/
theorem C123_kernel_test (N : Nat) (hN : SafeSize N) (A B : Array α) (f g : Nat → Nat → α)
    (hA : Holds A N N f) (hB : Holds B N N g) :
    ∃ At Bp, KernelTest.transA N A = .ok At ∧ KernelTest.padB N B = .ok Bp ∧
      ∀ u, Grouped (KernelTest.tree N At Bp) u → ∀ threads, 0 < threads →
        EveryPoolRun threads (Mem.ofArray (zeros ((N + 64) * (N + 64)))) u (fun m =>
          KernelTest.extract N (toArray ((N + 64) * (N + 64)) m) = .ok (rowMajor N fun i j =>
            bdot 16 (ceilDiv N 512 * 512 / 16) (fun k => Tiled.pad N f i k)
              (fun k => Tiled.pad N g k j))) := by
  obtain ⟨At, Bp, h1, h2, h3⟩ := C96_kernel_test N hN A B f g hA hB
  exact ⟨At, Bp, h1, h2, fun u hu threads ht => C123_threads h3 hu threads ht⟩

/-- The outcomes of a loop nest, whether it has data races or not. -/
private theorem ends_of_bind {R : Type} {C : Array α} {v : R} {t : Tree α} {f : Array α → M R}
    (h : ND.bind (ND.runOn C t) (fun c => ND.ofM (f c)) = ND.pure v) :
    Ends (Mem.ofArray C) t (fun c => f (toArray C.size c) = .ok v) := by
  intro m' t' hs he
  rcases C91_end m' t' he with hd | ⟨e, hf⟩
  · refine ⟨hd, ?_⟩
    have h1 : ND.runOn C t (.ok (toArray C.size m'.cell)) :=
      .inr ⟨m'.cell, .inl ⟨m', t', hs, hd, rfl⟩, rfl⟩
    have h2 : ND.bind (ND.runOn C t) (fun c => ND.ofM (f c)) (f (toArray C.size m'.cell)) :=
      .inr ⟨_, h1, rfl⟩
    rw [h] at h2
    exact h2
  · have h1 : ND.runOn C t (.error e) := .inl ⟨e, .inr ⟨m', t', e, hs, hf, rfl⟩, rfl⟩
    have h2 : ND.bind (ND.runOn C t) (fun c => ND.ofM (f c)) (.error e) := .inl ⟨e, h1, rfl⟩
    rw [h] at h2
    cases h2

/-- The iteration of `combined`, its use of threads, and its race. -/
private theorem combined_facts (b : Tiled.Blocking) (hb : b.Valid) (N : Nat) (A B : Array α)
    (f g : Nat → Nat → α) (hA : Holds A N N f) (hB : Holds B N N g) :
    ∃ p At Bp pl, Tiled.setup b N A B = .ok p ∧ Tiled.tileA b p = .ok At ∧
      Tiled.tileB b p = .ok Bp ∧ Combined.policy b = .ok pl ∧
      Ends (Mem.ofArray (zeros (p.X_size * p.Y_size)))
        (Combined.tree b pl p.X_size p.Y_size p.K_size At Bp) (fun m =>
          Tiled.extract b N p.X_size p.Y_size (toArray (p.X_size * p.Y_size) m) =
            .ok (rowMajor N fun i j =>
              bdot b.L1_K_STEP (ceilDiv N b.L3_K_STEP * b.L3_K_STEP / b.L1_K_STEP)
                (fun k => Tiled.pad N f i k) (fun k => Tiled.pad N g k j))) ∧
      (0 < N → UsesThreads (Combined.tree b pl p.X_size p.Y_size p.K_size At Bp)
        (ceilDiv N b.L3_X * ceilDiv N b.L3_Y)) ∧
      (0 < N → 2 ≤ ceilDiv N b.L3_X * ceilDiv N b.L3_Y → ∀ C : Array α, ∃ m w,
        Pool.Steps 2 (Mem.ofArray C)
          (.fresh (Combined.tree b pl p.X_size p.Y_size p.K_size At Bp)) m w ∧ w.Race) := by
  have e := C35_combined b hb N A B f g hA hB 1
  have h1 := Tiled.setup_ok hb hA hB
  obtain ⟨QX, hX⟩ := Tiled.X_eq hb N
  obtain ⟨QY, hY⟩ := Tiled.Y_eq hb N
  obtain ⟨QK, hK⟩ := Tiled.K_eq hb N
  have dX : b.L3_X ∣ QX * b.L1_X := hX ▸ Dvd.intro_left _ rfl
  have dY : b.L3_Y ∣ QY * b.L1_Y := hY ▸ Dvd.intro_left _ rfl
  have dK : b.L3_K_STEP ∣ QK * b.L1_K_STEP := hK ▸ Dvd.intro_left _ rfl
  have hXY : ceilDiv (Tiled.X b N) b.L3_X * ceilDiv (Tiled.Y b N) b.L3_Y =
      ceilDiv N b.L3_X * ceilDiv N b.L3_Y := by
    rw [Tiled.X, Tiled.Y, ceilDiv_mul _ _ hb.x3, ceilDiv_mul _ _ hb.y3]
  have hK0 : 0 < N → 0 < Tiled.K b N := fun h => Nat.lt_of_lt_of_le h (Tiled.le_padded hb.k3)
  generalize hp : (⟨Tiled.X b N, Tiled.Y b N, Tiled.K b N,
    rect (Tiled.X b N) (Tiled.K b N) (Tiled.pad N f),
    rect (Tiled.K b N) (Tiled.Y b N) (Tiled.pad N g)⟩ : Tiled.Padded α) = p at h1
  obtain ⟨w, hw⟩ := Combined.A_trans_untiled_ok (p := p) (by subst hp; exact holds_rect _ _ _)
  obtain ⟨At, h2, _, hAt⟩ := Tiled.tileA_ok (b := b) (p := p) (f := Tiled.pad N f)
    (by subst hp; exact hX) (by subst hp; exact hK) hb.x1 hb.k1 (by subst hp; exact holds_rect _ _ _)
  obtain ⟨Bp, h3, _, hBp⟩ := Tiled.tileB_ok (b := b) (p := p) (f := Tiled.pad N g)
    (by subst hp; exact hY) (by subst hp; exact hK) hb.y1 hb.k1 (by subst hp; exact holds_rect _ _ _)
  refine ⟨p, At, Bp, _, h1, h2, h3, Combined.policy_ok _, ?_, ?_, ?_⟩
  · unfold Combined.matrix_multiply at e
    rw [h1, ND.ofM_ok, ND.pure_bind', hw, h2, h3, ND.ofM_ok, ND.ofM_ok, ND.ofM_ok, ND.pure_bind',
      ND.pure_bind', ND.pure_bind'] at e
    simp only [Combined.policy_ok, ND.ofM_ok, ND.pure_bind', foldlM_one] at e
    have := ends_of_bind e
    rw [zeros_size] at this
    exact this
  · intro hN
    have hK1 := hK0 hN
    have ex : p.X_size = QX * b.L1_X := by subst hp; exact hX
    have ey : p.Y_size = QY * b.L1_Y := by subst hp; exact hY
    have ek : p.K_size = QK * b.L1_K_STEP := by subst hp; exact hK
    rw [hX, hY] at hXY
    rw [hK] at hK1
    rw [ex, ey, ek, ← hXY]
    exact uses (Combined.width hb hK1 At Bp) (Combined.occupies hb dX dY dK hK1 hAt hBp)
  · intro hN h2 C
    have hK1 := hK0 hN
    have ex : p.X_size = QX * b.L1_X := by subst hp; exact hX
    have ey : p.Y_size = QY * b.L1_Y := by subst hp; exact hY
    have ek : p.K_size = QK * b.L1_K_STEP := by subst hp; exact hK
    rw [← hXY, hX, hY] at h2
    rw [hK] at hK1
    rw [ex, ey, ek]
    exact Combined.race_pool hb dX dY dK hK1 h2 hAt hBp _ rfl

/-- **C123.** One repetition of `combined`, with the block sizes of the program: on `threads` threads
all runs are free of data races exactly if there is only one thread or `N ≤ 256`; the product is
computed in any case. -/
theorem C123_combined (N : Nat) (A B : Array α) (f g : Nat → Nat → α) (hA : Holds A N N f)
    (hB : Holds B N N g) :
    ∃ p At Bp pl, Tiled.setup Combined.blocking N A B = .ok p ∧
      Tiled.tileA Combined.blocking p = .ok At ∧ Tiled.tileB Combined.blocking p = .ok Bp ∧
      Combined.policy Combined.blocking = .ok pl ∧
      ∀ threads, 0 < threads →
        let t := Combined.tree Combined.blocking pl p.X_size p.Y_size p.K_size At Bp
        let P := fun m : Nat → α => Tiled.extract Combined.blocking N p.X_size p.Y_size
          (toArray (p.X_size * p.Y_size) m) = .ok (rowMajor N fun i j =>
            bdot 64 (ceilDiv N 256 * 256 / 64) (fun k => Tiled.pad N f i k)
              (fun k => Tiled.pad N g k j))
        (EveryPoolRun threads (Mem.ofArray (zeros (p.X_size * p.Y_size))) t P ↔
          threads = 1 ∨ N ≤ 256) ∧
        ∀ m w, Pool.Steps threads (Mem.ofArray (zeros (p.X_size * p.Y_size))) (.fresh t) m w →
          (¬ ∃ m' w', Pool.Step (w.busy < threads) m w m' w') → w.Finished ∧ P m.cell := by
  obtain ⟨p, At, Bp, pl, h1, h2, h3, h4, h5, _, h7⟩ :=
    combined_facts Combined.blocking Combined.valid N A B f g hA hB
  refine ⟨p, At, Bp, pl, h1, h2, h3, h4, fun threads ht => ⟨⟨fun h => ?_, fun h => ?_⟩, ?_⟩⟩
  · refine Classical.byContradiction fun hn => ?_
    have hN : 256 < N := Nat.lt_of_not_le fun h => hn (.inr h)
    have hth : 2 ≤ threads := by
      have : threads ≠ 1 := fun h => hn (.inl h)
      omega
    have a1 : 0 < ceilDiv N Combined.blocking.L3_X := Combined.lt_ceilDiv' Combined.valid.x3 (by omega)
    have a2 : 1 < ceilDiv N Combined.blocking.L3_Y :=
      Combined.lt_ceilDiv' Combined.valid.y3 (by show 1 * 256 < N; omega)
    obtain ⟨m, w, hs, hr⟩ := h7 (by omega) (Nat.mul_le_mul a1 a2) (zeros (p.X_size * p.Y_size))
    exact h.raceFree m w (hs.mono hth) hr
  · rcases h with rfl | h
    · exact C123_one h5
    · refine C123_ungrouped ⟨C91_finite _ _, C36_small_raceFree N h A B h1 h4 _, ?_⟩ threads ht
      exact h5
  · intro m w hs hend
    exact h5.pool_ends ht m w hs hend

/-! ### C124 for the variants -/

/-- **C124**, the reference multiplications: one thread for each row. -/
theorem C124_naive (N : Nat) (A B : Array α) :
    UsesThreads (Naive.tree N A B) N ∧ UsesThreads (Naive.treeT N A B) N :=
  ⟨uses_acts _ _ (List.length_range), uses_acts _ _ (List.length_range)⟩

/-- **C124**, variant `algorithms`: one thread for each block of the result. -/
theorem C124_algorithms (N : Nat) (A B : Array α) (bi br : Nat) (h : 0 < br) :
    UsesThreads (Algorithms.tree N A B bi br) (ceilDiv N br * ceilDiv N br) := by
  refine uses_acts _ _ ?_
  have e : Algorithms.result_blocks N br = ceilDiv N br := by
    unfold Algorithms.result_blocks ceilDiv
    have h1 := Nat.div_add_mod N br
    have h2 := Nat.mod_lt N h
    generalize N / br = q at *
    generalize N % br = r at *
    subst h1
    split
    · rw [show br * q + r + br - 1 = (r - 1) + br * (q + 1) by rw [Nat.mul_add]; omega,
        Nat.add_mul_div_left _ _ h, Nat.div_eq_of_lt (by omega)]
      omega
    · rw [show br * q + r + br - 1 = (br - 1) + br * q by omega, Nat.add_mul_div_left _ _ h,
        Nat.div_eq_of_lt (by omega)]
      omega
  rw [List.length_range, e]

/-- **C124**, `semi`: despite its name and its parallel loop construct it never uses more than one
thread, whatever its inputs are. -/
theorem C124_semi (N : Nat) (A B : Array α) (bi : Nat) {pl : IndexIterator.Policy}
    (hp : Semi.policy bi = .ok pl) (threads : Nat) (m m' : Mem α) (w : Pool α)
    (hs : Pool.Steps threads m (.fresh (Semi.tree N A B bi pl)) m' w) : w.busy ≤ 1 := by
  rw [semi_policy] at hp
  cases hp
  exact C124_width (Semi.width N A B bi) threads m m' w hs

/-- **C124**, `single::matrix_multiply`: if the size falls to `block_result` or less after `h`
halvings, `4 ^ h` threads, and no more. -/
theorem C124_single (N : Nat) (A B : Array α) (transposed : Bool) (br bi reps h : Nat)
    (hr : 0 < reps) (h1 : N / 2 ^ h ≤ br) (h2 : ∀ d, d < h → br < N / 2 ^ d) :
    UsesThreads (Async.single_tasks N A B transposed br bi reps) (4 ^ h) := by
  obtain ⟨e1, e2⟩ := Async.distribute_width ⟨N, A, B, transposed, bi⟩ br h N 0 0 0 h1 h2
  obtain ⟨r, rfl⟩ : ∃ r, reps = r + 1 := ⟨reps - 1, by omega⟩
  unfold Async.single_tasks
  refine uses ?_ ?_
  · simp only [Tree.width]
    refine foldr_max_le fun x hx => ?_
    rw [List.map_replicate] at hx
    rw [List.eq_of_mem_replicate hx, e1]
  · rw [List.replicate_succ]
    exact .head e2 _

/-- **C124**, `static_improved::matrix_multiply`: the threads that its work packages can use, added
up; `h w` is the number of halvings of package `w`. -/
theorem C124_improved (s : Multiplier α) (N br reps : Nat) (ws : List Work) (h : Work → Nat)
    (hr : 0 < reps)
    (hh : ∀ w ∈ ws, w.N / 2 ^ h w ≤ br ∧ ∀ d, d < h w → br < w.N / 2 ^ d) :
    UsesThreads (Async.improved_tasks s N br reps ws) ((ws.map fun w => 4 ^ h w).sum) := by
  have key : ∀ off, (∀ w ∈ ws, w.N / 2 ^ h w ≤ br ∧ ∀ d, d < h w → br < w.N / 2 ^ d) →
      ((Async.package_tasks s N br off ws).map Tree.width).sum = (ws.map fun w => 4 ^ h w).sum ∧
        ∀ t ∈ Async.package_tasks s N br off ws, Occupies t t.width := by
    clear hh
    induction ws with
    | nil => intro off _; simp [Async.package_tasks]
    | cons w ws ih =>
      intro off hh
      obtain ⟨e1, e2⟩ := ih (off + Async.cells br w.N) fun w hw => hh w (by simp [hw])
      obtain ⟨d1, d2⟩ := Async.distribute_width s br (h w) w.N off w.x w.y
        (hh w (by simp)).1 (hh w (by simp)).2
      have h4 : 1 ≤ 4 ^ h w := Nat.one_le_pow _ _ (by decide)
      have hw : (Tree.seq [Async.distribute_recursively s br off w.x w.y w.N,
          .act (Async.insert_submatrix N off w)]).width = 4 ^ h w := by
        simp only [Tree.width, List.map_cons, List.map_nil, List.foldr_cons, List.foldr_nil, d1]
        omega
      rw [Async.package_tasks]
      refine ⟨by rw [List.map_cons, List.sum_cons, hw, e1, List.map_cons, List.sum_cons], ?_⟩
      intro t ht
      rcases List.mem_cons.1 ht with rfl | ht
      · rw [hw]; exact .head d2 _
      · exact e2 t ht
  obtain ⟨e1, e2⟩ := key (N * N) hh
  obtain ⟨r, rfl⟩ : ∃ r, reps = r + 1 := ⟨reps - 1, by omega⟩
  have hw : (Tree.par (Async.package_tasks s N br (N * N) ws)).width =
      (ws.map fun w => 4 ^ h w).sum := by rw [← e1]; simp only [Tree.width]
  unfold Async.improved_tasks
  refine uses ?_ ?_
  · simp only [Tree.width] at hw ⊢
    refine foldr_max_le fun x hx => ?_
    rw [List.map_replicate] at hx
    rw [List.eq_of_mem_replicate hx]
    simp only [Tree.width]
    omega
  · rw [List.replicate_succ, ← hw]
    exact .head (.par e2) _

/-- **C124**, one repetition of `combined`: one thread for each block of level 3, although its
iteration consists of many more calls. -/
theorem C124_combined (b : Tiled.Blocking) (hb : b.Valid) (N : Nat) (hN : 0 < N) (A B : Array α)
    (f g : Nat → Nat → α) (hA : Holds A N N f) (hB : Holds B N N g) :
    ∃ p At Bp pl, Tiled.setup b N A B = .ok p ∧ Tiled.tileA b p = .ok At ∧
      Tiled.tileB b p = .ok Bp ∧ Combined.policy b = .ok pl ∧
      UsesThreads (Combined.tree b pl p.X_size p.Y_size p.K_size At Bp)
        (ceilDiv N b.L3_X * ceilDiv N b.L3_Y) := by
  obtain ⟨p, At, Bp, pl, h1, h2, h3, h4, _, h6, _⟩ := combined_facts b hb N A B f g hA hB
  exact ⟨p, At, Bp, pl, h1, h2, h3, h4, h6 hN⟩

private theorem pairs_length (l l' : List Nat) :
    (l.flatMap fun x => l'.map fun y => (x, y)).length = l.length * l'.length := by
  induction l with
  | nil => simp
  | cons x l ih =>
    rw [List.flatMap_cons, List.length_append, List.length_map, ih, List.length_cons, Nat.add_mul]
    omega

private theorem steps_length' (n s : Nat) : (steps 0 n s).length = ceilDiv n s := by
  simp [steps]

/-- **C124**, one repetition of `kernel_tiled`: one thread for each block of level 3. -/
theorem C124_kernel_tiled (b : Tiled.Blocking) (hb : b.Valid) (N : Nat) (A B : Array α)
    {p : Tiled.Padded α} (f g : Nat → Nat → α) (hA : Holds A N N f) (hB : Holds B N N g)
    (h1 : Tiled.setup b N A B = .ok p) (At Bp : Array α) :
    UsesThreads (KernelTiled.tree b p.X_size p.Y_size p.K_size At Bp)
      (ceilDiv N b.L3_X * ceilDiv N b.L3_Y) := by
  have e := Tiled.setup_ok hb hA hB
  rw [h1] at e
  injection e with e
  refine uses_acts _ _ ?_
  rw [pairs_length, steps_length', steps_length', e]
  simp only [Tiled.X, Tiled.Y]
  rw [ceilDiv_mul _ _ hb.x3, ceilDiv_mul _ _ hb.y3]

/-- **C124**, one repetition of `kernel_test`: one thread for each block of 256 × 256 elements. -/
theorem C124_kernel_test (N : Nat) (At Bp : Array α) :
    UsesThreads (KernelTest.tree N At Bp) (ceilDiv N 256 * ceilDiv N 256) := by
  refine uses_acts _ _ ?_
  rw [pairs_length, steps_length', steps_length']
  rfl

/-- **C124**, the parallel experiment kernels: one thread for each iteration of the outer loop. -/
theorem C124_experiments (n : Nat) (A B : Array α) (nC : Nat) (st : Stack α)
    (fma : Bool) (gnuc o1 o2 o3 : Nat) :
    UsesThreads (naiveTree n A B nC) n ∧
    UsesThreads (counterTree n A B nC) n ∧
    UsesThreads (blocked2Tree n A B nC) (ceilDiv n 2) ∧
    UsesThreads (blocked4Tree n A B nC) (ceilDiv n 4) ∧
    UsesThreads (exchangedTree 128 128 st A B nC n) (ceilDiv n 128) ∧
    UsesThreads (gpuTree 128 128 st A B nC n) (ceilDiv n 128) ∧
    UsesThreads (gpuasmTree fma o1 o2 256 256 st A B nC n) (ceilDiv n 256) ∧
    UsesThreads (registerTree fma o1 o2 256 64 st A B nC n) (ceilDiv n 256) ∧
    UsesThreads (ilTree o1 o2 o3 128 128 st A B nC n) (ceilDiv n 128) ∧
    UsesThreads (asmTree gnuc o1 o2 A B nC n) n := by
  have h1 : (steps 0 n 1).length = n := by rw [steps_one, List.length_range]
  exact ⟨uses_acts _ _ h1, uses_acts _ _ h1, uses_acts _ _ (steps_length' n 2),
    uses_acts _ _ (steps_length' n 4), uses_acts _ _ (steps_length' n 128),
    uses_acts _ _ (steps_length' n 128), uses_acts _ _ (steps_length' n 256),
    uses_acts _ _ (steps_length' n 256), uses_acts _ _ (steps_length' n 128), uses_acts _ _ h1⟩

section Examples
attribute [local instance] exact

/-- The rows of the reference multiplication in three groups, the first of which runs backwards. -/
private theorem grouped_example {α : Type} [Arith α] (A B : Array α) :
    Grouped (Naive.tree 5 A B) (.par [
      .seq [.act (Naive.rowTask 5 A B 1), .act (Naive.rowTask 5 A B 0)],
      .seq [.act (Naive.rowTask 5 A B 2), .act (Naive.rowTask 5 A B 3)],
      .seq [.act (Naive.rowTask 5 A B 4)]]) := by
  refine Grouped.par (us := (List.range 5).map fun i => .act (Naive.rowTask 5 A B i))
    [[.act (Naive.rowTask 5 A B 1), .act (Naive.rowTask 5 A B 0)],
      [.act (Naive.rowTask 5 A B 2), .act (Naive.rowTask 5 A B 3)],
      [.act (Naive.rowTask 5 A B 4)]] (by simp) ?_ ?_
  · intro n t u ht hu
    rw [ht] at hu
    cases hu
    obtain ⟨i, _, rfl⟩ := List.mem_map.1 (List.mem_of_getElem? ht)
    exact .act _
  · exact List.Perm.swap _ _ _

example : EveryPoolRun 2 (Mem.ofArray (zeros (5 * 5))) (.par [
      .seq [.act (Naive.rowTask 5 (rect 5 5 fun i j => i + j) (rect 5 5 fun i j => i * j) 1),
        .act (Naive.rowTask 5 (rect 5 5 fun i j => i + j) (rect 5 5 fun i j => i * j) 0)],
      .seq [.act (Naive.rowTask 5 (rect 5 5 fun i j => i + j) (rect 5 5 fun i j => i * j) 2),
        .act (Naive.rowTask 5 (rect 5 5 fun i j => i + j) (rect 5 5 fun i j => i * j) 3)],
      .seq [.act (Naive.rowTask 5 (rect 5 5 fun i j => i + j) (rect 5 5 fun i j => i * j) 4)]])
    (fun c => toArray (5 * 5) c = rowMajor 5 fun i j => dot 5 (fun k => i + k) (fun k => k * j)) :=
  C123_naive 5 _ _ (fun i j => i + j) (fun i j => i * j) (holds_rect 5 5 fun i j => i + j)
    (holds_rect 5 5 fun i j => i * j) (grouped_example _ _) 2 (by decide)

/-- `semi` for `N = 8`. -/
example : ∃ pl, Semi.policy 2 = .ok pl ∧ ∃ P, EveryPoolRun 3 (Mem.ofArray (zeros (8 * 8)))
    (Semi.tree 8 (rect 8 8 fun i j => i + j) (rect 8 8 fun i j => i * j) 2 pl) P := by
  refine ⟨_, semi_policy 2, _, C123_ungrouped (everyRun_of_runOn (Semi.raceFree 8 _ _ 2)
    (Semi.tree_result (holds_rect 8 8 fun i j => i + j) (holds_rect 8 8 fun i j => i * j)
      ⟨2, rfl⟩ (by decide) ⟨4, rfl⟩)) 3 (by decide)⟩

/-- `combined` for `N = 300`: fine on one thread, not on two. -/
example : ∃ p At Bp pl, Tiled.setup Combined.blocking 300 (rect 300 300 fun i j => i + j)
      (rect 300 300 fun i j => i * j) = .ok p ∧ Tiled.tileA Combined.blocking p = .ok At ∧
    Tiled.tileB Combined.blocking p = .ok Bp ∧ Combined.policy Combined.blocking = .ok pl ∧
    (∃ P, EveryPoolRun 1 (Mem.ofArray (zeros (p.X_size * p.Y_size)))
      (Combined.tree Combined.blocking pl p.X_size p.Y_size p.K_size At Bp) P ∧
      ¬ EveryPoolRun 2 (Mem.ofArray (zeros (p.X_size * p.Y_size)))
        (Combined.tree Combined.blocking pl p.X_size p.Y_size p.K_size At Bp) P) := by
  obtain ⟨p, At, Bp, pl, h1, h2, h3, h4, h5⟩ := C123_combined 300 _ _ (fun i j => i + j)
    (fun i j => i * j) (holds_rect 300 300 fun i j => i + j) (holds_rect 300 300 fun i j => i * j)
  exact ⟨p, At, Bp, pl, h1, h2, h3, h4, _, (h5 1 (by decide)).1.2 (.inl rfl),
    fun h => by have := (h5 2 (by decide)).1.1 h; omega⟩

example (A B : Array Nat) : UsesThreads (Async.single_tasks 64 A B true 16 4 3) 16 :=
  C124_single 64 A B true 16 4 3 2 (by decide) (by decide) (by
    intro d hd
    match d, hd with
    | 0, _ => decide
    | 1, _ => decide)

example (A B : Array Nat) : UsesThreads (Algorithms.tree 100 A B 4 30) 16 :=
  C124_algorithms 100 A B 4 30 (by decide)

example (A B : Array Nat) : UsesThreads (Async.improved_tasks ⟨64, A, B, true, 4⟩ 64 16 1
    [⟨0, 0, 32⟩, ⟨0, 32, 16⟩, ⟨32, 0, 32⟩]) 9 :=
  C124_improved _ 64 16 1 _ (fun w => if w.N = 32 then 1 else 0) (by decide) (by decide)
end Examples

end Verif.Props
