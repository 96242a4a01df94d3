import Verif.Props.Async
import Verif.Props.ExperimentsBlocked
import Verif.Props.KernelTest
import Verif.Props.OneLocality
/-
Property C96: complete runs of the parallel loops of the experiment kernels, of `kernel_tiled`,
`kernel_test` and `combined`.
-/
set_option linter.unusedSectionVars false
namespace Verif.Props
open Verif.Experiments
variable {α : Type} [Arith α]

/-- A loop nest over the vector `C` that has no race and only one outcome reaches it in every
complete run. -/
theorem everyRun_of_runOn {C v : Array α} {t : Tree α} (hr : ∀ m, RaceFree m t)
    (h : ND.runOn C t = ND.pure v) :
    EveryRun (Mem.ofArray C) t (fun c => toArray C.size c = v) :=
  C91_run (hr _) h

/-- **C96**, `multNaive`: the parallel rows. -/
theorem C96_naive (n : Nat) (A B C : Array α) (a b c : Nat → Nat → α) (hA : Holds A n n a)
    (hB : Holds B n n b) (hC : Holds C n n c) (hs : C.size = n * n) :
    EveryRun (Mem.ofArray C) (naiveTree n A B (n * n)) (fun m =>
      toArray (n * n) m =
        rowMajor n fun i j => dotFrom (c i j) (List.range n) (a i) (fun k => b k j)) := by
  have := C54_naive n A B C a b c hA hB hC hs
  unfold multNaive at this
  rw [hs] at this
  rw [← hs] at this ⊢
  exact everyRun_of_runOn (fun m => by rw [hs]; exact C54_naive_raceFree n A B a b hA hB m) this

/-- **C96**, `multCounter`. -/
theorem C96_counter (n : Nat) (A B C : Array α) (a b : Nat → Nat → α) (hA : Holds A n n a)
    (hB : Holds B n n b) (hs : C.size = n * n) :
    EveryRun (Mem.ofArray C) (counterTree n A B (n * n)) (fun m =>
      toArray (n * n) m = rowMajor n fun i j => dot n (a i) (b j)) := by
  have := C54_counter n A B C a b hA hB hs
  unfold multCounter at this
  rw [← hs]
  exact everyRun_of_runOn (fun m => by rw [hs]; exact C54_counter_raceFree n A B a b hA hB m) this

/-- **C96**, `multBlocked2` for even sizes. -/
theorem C96_blocked2 (n : Nat) (hn : 2 ∣ n) (A B C : Array α) (a b : Nat → Nat → α)
    (hA : Holds A n n a) (hB : Holds B n n b) (hs : C.size = n * n) :
    EveryRun (Mem.ofArray C) (blocked2Tree n A B (n * n)) (fun m =>
      toArray (n * n) m = rowMajor n fun i j => dot n (a i) (b j)) := by
  have := C55_even n hn A B C a b hA hB hs
  unfold multBlocked2 at this
  rw [← hs]
  exact everyRun_of_runOn (fun m => by rw [hs]; exact C55_raceFree n hn A B a b hA hB m) this

/-- **C96**, `multBlocked4` for multiples of 4 (which computes every fourth product only). -/
theorem C96_blocked4 (n : Nat) (hn : 4 ∣ n) (A B C : Array α) (a b : Nat → Nat → α)
    (hA : Holds A n n a) (hB : Holds B n n b) (hs : C.size = n * n) :
    EveryRun (Mem.ofArray C) (blocked4Tree n A B (n * n)) (fun m =>
      toArray (n * n) m = rowMajor n fun i j =>
        dot (n / 4) (fun t => a i (4 * t)) (fun t => b j (4 * t))) := by
  have := C56_result n hn A B C a b hA hB hs
  unfold multBlocked4 at this
  rw [← hs]
  exact everyRun_of_runOn (fun m => by rw [hs]; exact (blocked4Tree_does hn hA hB).raceFree m) this

/-- **C96**, `multExchanged`. -/
theorem C96_exchanged (n : Nat) (hn : 128 ∣ n) (st : Stack α) (hst : st.Sized 128 128)
    (A B C : Array α) (a b : Nat → Nat → α) (hA : Holds A n n a) (hB : Holds B n n b)
    (hC : C.size = n * n) :
    EveryRun (Mem.ofArray C) (exchangedTree 128 128 st A B (n * n) n) (fun m =>
      toArray (n * n) m = rowMajor n (mulSpec n a b)) := by
  have := C65_exchanged n hn st hst A B C a b hA hB hC
  unfold multExchanged at this
  rw [← hC]
  exact everyRun_of_runOn (fun m => by rw [hC]; exact C65_raceFree n hn st hst A B a b hA hB m) this

/-- **C96**, `multGPU`. -/
theorem C96_gpu (n : Nat) (hn : 128 ∣ n) (st : Stack α) (hst : st.Sized 128 128)
    (A B C : Array α) (a b : Nat → Nat → α) (hA : Holds A n n a) (hB : Holds B n n b)
    (hC : C.size = n * n) :
    EveryRun (Mem.ofArray C) (gpuTree 128 128 st A B (n * n) n) (fun m =>
      toArray (n * n) m = rowMajor n fun i j => quarterBlocksDot n 128 (a i) (b j)) := by
  have := C66_gpu n hn st hst A B C a b hA hB hC
  unfold multGPU at this
  rw [← hC]
  exact everyRun_of_runOn (fun m => by rw [hC]; exact C66_raceFree n hn st hst A B a b hA hB m) this

/-- **C96**, `multGPUASM` with `__FMA__` and aligned stack arrays. -/
theorem C96_gpuasm (oA oB : Nat) (hoA : oA % 4 = 0) (hoB : oB % 4 = 0) (n : Nat)
    (hn : 256 ∣ n) (st : Stack α) (hst : st.Sized 256 256)
    (A B C : Array α) (a b : Nat → Nat → α) (hA : Holds A n n a) (hB : Holds B n n b)
    (hC : C.size = n * n) :
    EveryRun (Mem.ofArray C) (gpuasmTree true oA oB 256 256 st A B (n * n) n) (fun m =>
      toArray (n * n) m = rowMajor n fun i j => quarterBlocksDot n 256 (a i) (b j)) := by
  have := C67_gpuasm oA oB hoA hoB n hn st hst A B C a b hA hB hC
  unfold multGPUASM at this
  rw [← hC]
  exact everyRun_of_runOn (fun m => by
    rw [hC]; exact C67_raceFree true oA oB hoA hoB n hn st hst A B a b hA hB m) this

/-- **C96**, `multRegister` with `__FMA__` and aligned stack arrays. -/
theorem C96_register (oR oB : Nat) (hoR : oR % 4 = 0) (hoB : oB % 4 = 0) (n : Nat)
    (hn : 256 ∣ n) (st : Stack α) (hst : st.Sized 256 64)
    (A B C : Array α) (a b : Nat → Nat → α) (hA : Holds A n n a) (hB : Holds B n n b)
    (hC : C.size = n * n) :
    EveryRun (Mem.ofArray C) (registerTree true oR oB 256 64 st A B (n * n) n) (fun m =>
      toArray (n * n) m = rowMajor n (mulSpec n a b)) := by
  have := C68_register oR oB hoR hoB n hn st hst A B C a b hA hB hC
  unfold multRegister at this
  rw [← hC]
  exact everyRun_of_runOn (fun m => by
    rw [hC]; exact C68_raceFree true oR oB hoR hoB n hn st hst A B a b hA hB m) this

/-- **C96**, `multIntrinLoop` with aligned matrices. -/
theorem C96_intrinLoop (oA oB oC : Nat) (hoA : oA % 4 = 0) (hoB : oB % 4 = 0) (hoC : oC % 4 = 0)
    (n : Nat) (hn : 128 ∣ n) (st : Stack α) (hst : st.Sized 128 128)
    (A B C : Array α) (a b : Nat → Nat → α) (hA : Holds A n n a) (hB : Holds B n n b)
    (hC : C.size = n * n) :
    EveryRun (Mem.ofArray C) (ilTree oA oB oC 128 128 st A B (n * n) n) (fun m =>
      toArray (n * n) m = rowMajor n (mulSpec n a b)) := by
  have := C69_intrinLoop oA oB oC hoA hoB hoC n hn st hst A B C a b hA hB hC
  unfold multIntrinLoop at this
  rw [← hC]
  exact everyRun_of_runOn (fun m => by
    rw [hC]; exact C69_raceFree oA oB oC hoA hoB hoC n hn st hst A B a b hA hB m) this

/-- **C96**, `multASM` with a new compiler and aligned matrices. -/
theorem C96_asm (gnuc oA oB : Nat) (hg : 4 < gnuc) (hoA : oA % 4 = 0) (hoB : oB % 4 = 0) (n : Nat)
    (hn : 4 ∣ n) (hn' : n < 2 ^ 31) (A B C : Array α) (a b : Nat → Nat → α) (hA : Holds A n n a)
    (hB : Holds B n n b) (hC : C.size = n * n) :
    EveryRun (Mem.ofArray C) (asmTree gnuc oA oB A B (n * n) n) (fun m =>
      toArray (n * n) m = rowMajor n fun i j => addQuarters n (a i) (b j) Arith.zero) := by
  have := C70_asm gnuc oA oB hg hoA hoB n hn hn' A B C a b hA hB hC
  unfold multASM at this
  rw [← hC]
  exact everyRun_of_runOn (fun m => by
    rw [hC]; exact C70_raceFree gnuc oA oB hg hoA hoB n hn hn' A B a b hA hB m) this

/-- A loop nest without races whose outcomes all become `v` after a sequential step `f`. -/
theorem everyRun_of_bind {R : Type} {C : Array α} {v : R} {t : Tree α} {f : Array α → M R}
    (hr : ∀ m, RaceFree m t)
    (h : ND.bind (ND.runOn C t) (fun c => ND.ofM (f c)) = ND.pure v) :
    EveryRun (Mem.ofArray C) t (fun c => f (toArray C.size c) = .ok v) := by
  refine ⟨C91_finite _ _, hr _, fun m' t' hs he => ?_⟩
  rcases C91_end m' t' he with hd | ⟨e, hf⟩
  · refine ⟨hd, ?_⟩
    have h1 : ND.runOn C t (.ok (toArray C.size m'.cell)) :=
      .inr ⟨m'.cell, .inl ⟨m', t', hs, hd, rfl⟩, rfl⟩
    have h2 : ND.bind (ND.runOn C t) (fun c => ND.ofM (f c)) (f (toArray C.size m'.cell)) :=
      .inr ⟨_, h1, rfl⟩
    rw [h] at h2
    exact h2
  · have h1 : ND.runOn C t (.error e) := .inl ⟨e, .inr ⟨m', t', e, hs, hf, rfl⟩, rfl⟩
    have h2 : ND.bind (ND.runOn C t) (fun c => ND.ofM (f c)) (.error e) := .inl ⟨e, h1, rfl⟩
    rw [h] at h2
    cases h2

theorem foldlM_one {R : Type} (f : R → Nat → ND R) (c : R) :
    (List.range 1).foldlM f c = f c 0 :=
  bind_pure_nd _

/-- **C96**, one repetition of `kernel_tiled`, for all block sizes that fit together: its parallel
loop ends with padded results from which the product is extracted. -/
theorem C96_kernel_tiled (b : Tiled.Blocking) (hb : b.Valid) (N : Nat) (A B : Array α)
    (f g : Nat → Nat → α) (hA : Holds A N N f) (hB : Holds B N N g) :
    ∃ p At Bp, Tiled.setup b N A B = .ok p ∧ Tiled.tileA b p = .ok At ∧
      Tiled.tileB b p = .ok Bp ∧
      EveryRun (Mem.ofArray (zeros (p.X_size * p.Y_size)))
        (KernelTiled.tree b p.X_size p.Y_size p.K_size At Bp) (fun m =>
          Tiled.extract b N p.X_size p.Y_size (toArray (p.X_size * p.Y_size) m) =
            .ok (rowMajor N fun i j =>
              bdot b.L1_K_STEP (ceilDiv N b.L3_K_STEP * b.L3_K_STEP / b.L1_K_STEP)
                (fun k => Tiled.pad N f i k) (fun k => Tiled.pad N g k j))) := by
  have e := C37_kernel_tiled b hb N A B f g hA hB false 1
  have h1 := Tiled.setup_ok hb hA hB
  obtain ⟨QX, hX⟩ := Tiled.X_eq hb N
  obtain ⟨QY, hY⟩ := Tiled.Y_eq hb N
  obtain ⟨QK, hK⟩ := Tiled.K_eq hb N
  obtain ⟨At, h2, _, _⟩ := Tiled.tileA_ok (b := b) (p := ⟨Tiled.X b N, Tiled.Y b N, Tiled.K b N,
    rect (Tiled.X b N) (Tiled.K b N) (Tiled.pad N f),
    rect (Tiled.K b N) (Tiled.Y b N) (Tiled.pad N g)⟩) hX hK hb.x1 hb.k1 (holds_rect _ _ _)
  obtain ⟨Bp, h3, _, _⟩ := Tiled.tileB_ok (b := b) (p := ⟨Tiled.X b N, Tiled.Y b N, Tiled.K b N,
    rect (Tiled.X b N) (Tiled.K b N) (Tiled.pad N f),
    rect (Tiled.K b N) (Tiled.Y b N) (Tiled.pad N g)⟩) hY hK hb.y1 hb.k1 (holds_rect _ _ _)
  refine ⟨_, At, Bp, h1, h2, h3, ?_⟩
  unfold KernelTiled.matrix_multiply at e
  rw [h1, ND.ofM_ok, ND.pure_bind', h2, h3, ND.ofM_ok, ND.ofM_ok, ND.pure_bind', ND.pure_bind',
    foldlM_one, zeros_size] at e
  simp only [Nat.one_ne_zero, if_false] at e
  have := everyRun_of_bind (fun m => C37_kernel_tiled_raceFree b hb N A B f g hA hB h1 h2 h3 m) e
  rwa [zeros_size] at this

/-- **C96**, one repetition of `kernel_test` for the sizes it is defined for. -/
theorem C96_kernel_test (N : Nat) (hN : SafeSize N) (A B : Array α) (f g : Nat → Nat → α)
    (hA : Holds A N N f) (hB : Holds B N N g) :
    ∃ At Bp, KernelTest.transA N A = .ok At ∧ KernelTest.padB N B = .ok Bp ∧
      EveryRun (Mem.ofArray (zeros ((N + 64) * (N + 64)))) (KernelTest.tree N At Bp) (fun m =>
        KernelTest.extract N (toArray ((N + 64) * (N + 64)) m) = .ok (rowMajor N fun i j =>
          bdot 16 (ceilDiv N 512 * 512 / 16) (fun k => Tiled.pad N f i k)
            (fun k => Tiled.pad N g k j))) := by
  have e := C39_kernel_test N hN A B f g hA hB false 1 (Nat.le_refl _)
  have h2 := KernelTest.transA_ok hA
  have h3 := KernelTest.padB_ok hB
  refine ⟨_, _, h2, h3, ?_⟩
  unfold KernelTest.matrix_multiply at e
  rw [KernelTest.padA_ok hA, ND.ofM_ok, ND.pure_bind', h2, h3, ND.ofM_ok, ND.ofM_ok,
    ND.pure_bind', ND.pure_bind', foldlM_one, zeros_size] at e
  have := everyRun_of_bind (fun m => C39_kernel_test_raceFree N hN A B f g hA hB h2 h3 m) e
  rwa [zeros_size] at this

/-- **C96**, one repetition of `combined` for `N ≤ 256`, where it has no data race. -/
theorem C96_combined (N : Nat) (hN : N ≤ 256) (A B : Array α) (f g : Nat → Nat → α)
    (hA : Holds A N N f) (hB : Holds B N N g) :
    ∃ p At Bp pl, Tiled.setup Combined.blocking N A B = .ok p ∧
      Tiled.tileA Combined.blocking p = .ok At ∧ Tiled.tileB Combined.blocking p = .ok Bp ∧
      Combined.policy Combined.blocking = .ok pl ∧
      EveryRun (Mem.ofArray (zeros (p.X_size * p.Y_size)))
        (Combined.tree Combined.blocking pl p.X_size p.Y_size p.K_size At Bp) (fun m =>
          Tiled.extract Combined.blocking N p.X_size p.Y_size
            (toArray (p.X_size * p.Y_size) m) = .ok (rowMajor N fun i j =>
              bdot 64 (ceilDiv N 256 * 256 / 64) (fun k => Tiled.pad N f i k)
                (fun k => Tiled.pad N g k j))) := by
  have hb := Combined.valid
  have e := C35_combined Combined.blocking hb N A B f g hA hB 1
  have h1 := Tiled.setup_ok hb hA hB
  obtain ⟨QX, hX⟩ := Tiled.X_eq hb N
  obtain ⟨QY, hY⟩ := Tiled.Y_eq hb N
  obtain ⟨QK, hK⟩ := Tiled.K_eq hb N
  generalize hp : (⟨Tiled.X Combined.blocking N, Tiled.Y Combined.blocking N,
    Tiled.K Combined.blocking N,
    rect (Tiled.X Combined.blocking N) (Tiled.K Combined.blocking N) (Tiled.pad N f),
    rect (Tiled.K Combined.blocking N) (Tiled.Y Combined.blocking N) (Tiled.pad N g)⟩ :
    Tiled.Padded α) = p at h1
  obtain ⟨w, hw⟩ := Combined.A_trans_untiled_ok (p := p) (by subst hp; exact holds_rect _ _ _)
  obtain ⟨At, h2, _, _⟩ := Tiled.tileA_ok (b := Combined.blocking) (p := p)
    (by subst hp; exact hX) (by subst hp; exact hK) hb.x1 hb.k1 (by subst hp; exact holds_rect _ _ _)
  obtain ⟨Bp, h3, _, _⟩ := Tiled.tileB_ok (b := Combined.blocking) (p := p)
    (by subst hp; exact hY) (by subst hp; exact hK) hb.y1 hb.k1 (by subst hp; exact holds_rect _ _ _)
  refine ⟨p, At, Bp, _, h1, h2, h3, Combined.policy_ok _, ?_⟩
  unfold Combined.matrix_multiply at e
  rw [h1, ND.ofM_ok, ND.pure_bind', hw, h2, h3, ND.ofM_ok, ND.ofM_ok, ND.ofM_ok, ND.pure_bind',
    ND.pure_bind', ND.pure_bind'] at e
  simp only [Combined.policy_ok, ND.ofM_ok, ND.pure_bind', foldlM_one] at e
  have := everyRun_of_bind (fun m => C36_small_raceFree N hN A B h1 (Combined.policy_ok _) m) e
  rw [zeros_size] at this
  exact this

section Examples
attribute [local instance] exact

example : EveryRun (Mem.ofArray (rect 5 5 fun i _ => i))
    (naiveTree 5 (rect 5 5 fun i j => i + j) (rect 5 5 fun i j => i * j) (5 * 5)) (fun m =>
      toArray (5 * 5) m = rowMajor 5 fun i j =>
        dotFrom i (List.range 5) (fun k => i + k) (fun k => k * j)) :=
  C96_naive 5 _ _ _ (fun i j => i + j) (fun i j => i * j) (fun i _ => i)
    (holds_rect 5 5 fun i j => i + j) (holds_rect 5 5 fun i j => i * j)
    (holds_rect 5 5 fun i _ => i) (by simp [rect])

example : EveryRun (Mem.ofArray (rect 6 6 fun i _ => i))
    (blocked2Tree 6 (rect 6 6 fun i j => i + j) (rect 6 6 fun i j => i * j) (6 * 6)) (fun m =>
      toArray (6 * 6) m = rowMajor 6 fun i j => dot 6 (fun k => i + k) (fun k => j * k)) :=
  C96_blocked2 6 ⟨3, rfl⟩ _ _ _ (fun i j => i + j) (fun i j => i * j)
    (holds_rect 6 6 fun i j => i + j) (holds_rect 6 6 fun i j => i * j) (by simp [rect])

example : EveryRun (Mem.ofArray (rect 8 8 fun i _ => i))
    (asmTree 7 0 4 (rect 8 8 fun i j => i + j) (rect 8 8 fun i j => i * j) (8 * 8) 8) (fun m =>
      toArray (8 * 8) m = rowMajor 8 fun i j =>
        addQuarters 8 (fun k => i + k) (fun k => j * k) 0) :=
  C96_asm 7 0 4 (by omega) rfl rfl 8 ⟨2, rfl⟩ (by omega) _ _ _ (fun i j => i + j)
    (fun i j => i * j) (holds_rect 8 8 fun i j => i + j) (holds_rect 8 8 fun i j => i * j)
    (by simp [rect])
-- sizes for which the blocked kernels are defined, with several tasks
example := C96_counter 3 _ _ (zeros 9) (fun i j => i + j) (fun i j => i * j)
  (holds_rect 3 3 fun i j => i + j) (holds_rect 3 3 fun i j => i * j) (by simp)
example := C96_blocked4 8 ⟨2, rfl⟩ _ _ (zeros 64) (fun i j => i + j) (fun i j => i * j)
  (holds_rect 8 8 fun i j => i + j) (holds_rect 8 8 fun i j => i * j) (by simp)
example (st : Stack Nat) (hst : st.Sized 128 128) :=
  C96_exchanged 256 ⟨2, rfl⟩ st hst _ _ (zeros (256 * 256)) (fun i j => i + j) (fun i j => i * j)
    (holds_rect 256 256 fun i j => i + j) (holds_rect 256 256 fun i j => i * j) (zeros_size _)
example (st : Stack Nat) (hst : st.Sized 128 128) :=
  C96_gpu 256 ⟨2, rfl⟩ st hst _ _ (zeros (256 * 256)) (fun i j => i + j) (fun i j => i * j)
    (holds_rect 256 256 fun i j => i + j) (holds_rect 256 256 fun i j => i * j) (zeros_size _)
example (st : Stack Nat) (hst : st.Sized 256 256) :=
  C96_gpuasm 4 8 rfl rfl 512 ⟨2, rfl⟩ st hst _ _ (zeros (512 * 512)) (fun i j => i + j)
    (fun i j => i * j) (holds_rect 512 512 fun i j => i + j) (holds_rect 512 512 fun i j => i * j)
    (zeros_size _)
example (st : Stack Nat) (hst : st.Sized 256 64) :=
  C96_register 4 8 rfl rfl 512 ⟨2, rfl⟩ st hst _ _ (zeros (512 * 512)) (fun i j => i + j)
    (fun i j => i * j) (holds_rect 512 512 fun i j => i + j) (holds_rect 512 512 fun i j => i * j)
    (zeros_size _)
example (st : Stack Nat) (hst : st.Sized 128 128) :=
  C96_intrinLoop 4 8 0 rfl rfl rfl 256 ⟨2, rfl⟩ st hst _ _ (zeros (256 * 256)) (fun i j => i + j)
    (fun i j => i * j) (holds_rect 256 256 fun i j => i + j) (holds_rect 256 256 fun i j => i * j)
    (zeros_size _)
example := C96_kernel_tiled KernelTiled.blocking KernelTiled.valid 500 _ _ (fun i j => i + j)
  (fun i j => i * j) (holds_rect 500 500 fun i j => i + j) (holds_rect 500 500 fun i j => i * j)
example := C96_kernel_test 508 (by unfold SafeSize; omega) _ _ (fun i j => i + j)
  (fun i j => i * j) (holds_rect 508 508 fun i j => i + j) (holds_rect 508 508 fun i j => i * j)
example := C96_combined 200 (by omega) _ _ (fun i j => i + j)
  (fun i j => i * j) (holds_rect 200 200 fun i j => i + j) (holds_rect 200 200 fun i j => i * j)
end Examples

end Verif.Props
