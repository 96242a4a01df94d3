import Verif.Proof.ExperimentsErrs
import Verif.Proof.ExperimentsAsm
import Verif.Props.Experiments
import Mathlib.Tactic.Abel
/-
Properties C65–C71: the larger kernels of otherExperiments.
-/
namespace Verif.Props
open Verif.Experiments
variable {α : Type} [Arith α]

/-! ### the order of the sums in exact arithmetic -/

theorem quarters_sum {R : Type} [Semiring R] (m : Nat) (h : Nat → R) :
    ∑ k ∈ Finset.range (4 * m), h k =
      (∑ t ∈ Finset.range m, h (4 * t + 0)) + (∑ t ∈ Finset.range m, h (4 * t + 1)) +
      (∑ t ∈ Finset.range m, h (4 * t + 2)) + (∑ t ∈ Finset.range m, h (4 * t + 3)) := by
  induction m with
  | zero => simp
  | succ m ih =>
    rw [Nat.mul_succ]
    simp only [Finset.sum_range_succ, ih, Nat.add_zero]
    abel

theorem addQuarters_exact {R : Type} [Semiring R] {n : Nat} (hn : 4 ∣ n) (f g : Nat → R) (x : R) :
    @addQuarters R (exact R) n f g x = x + ∑ k ∈ Finset.range n, f k * g k := by
  obtain ⟨m, rfl⟩ := hn
  rw [quarters_sum m fun k => f k * g k]
  unfold addQuarters quarterDot
  rw [dot_exact, dot_exact, dot_exact, dot_exact, Nat.mul_div_cancel_left _ (by decide : 0 < 4)]
  simp only [← add_assoc]
  rfl

theorem quarterBlocksDot_exact {R : Type} [Semiring R] {n kc : Nat} (hk : 4 ∣ kc) (hn : kc ∣ n)
    (f g : Nat → R) :
    @quarterBlocksDot R (exact R) n kc f g = ∑ k ∈ Finset.range n, f k * g k := by
  obtain ⟨m, rfl⟩ := hn
  unfold quarterBlocksDot
  rcases Nat.eq_zero_or_pos kc with rfl | h0
  · simp; rfl
  rw [Nat.mul_div_cancel_left _ h0, Nat.mul_comm]
  induction m with
  | zero => simp; rfl
  | succ m ih =>
    rw [List.range_succ, List.foldl_append, ih, List.foldl_cons, List.foldl_nil,
      addQuarters_exact hk, Nat.add_mul, Nat.one_mul, Finset.sum_range_add]

/-! ### C65 multExchanged -/

/-- **C65.** For every multiple `n` of the block size 128, every interleaving of the block rows and
all contents of the uninitialised arrays and of `C`, `multExchanged` stores the product, each entry
summed up in ascending order. -/
theorem C65_exchanged (n : Nat) (hn : 128 ∣ n) (st : Stack α) (hst : st.Sized 128 128)
    (A B C : Array α) (a b : Nat → Nat → α) (hA : Holds A n n a) (hB : Holds B n n b)
    (hC : C.size = n * n) :
    multExchanged st A B C n = ND.pure (rowMajor n (mulSpec n a b)) := by
  unfold multExchanged exchangedTree
  rw [hC]
  exact blocked_run (by decide) hn (fun i hi j hj => exchangedCompute_ok (by decide) (by decide)
    (by decide) (by decide) hn hn hst hA hB hi hj) hC

/-- **C65**, exact arithmetic: `C = A · B`. -/
theorem C65_exchanged_exact {R : Type} [Semiring R] (n : Nat) (hn : 128 ∣ n) (st : Stack R)
    (hst : st.Sized 128 128) (A B C : Array R) (a b : Nat → Nat → R) (hA : Holds A n n a)
    (hB : Holds B n n b) (hC : C.size = n * n) :
    @multExchanged R (exact R) st A B C n =
      ND.pure (rowMajor n fun i j => ∑ k ∈ Finset.range n, a i k * b k j) := by
  rw [@C65_exchanged R (exact R) n hn st hst A B C a b hA hB hC]
  congr; funext i j
  exact dot_exact n _ _

/-- **C65.** The block rows do not race. -/
theorem C65_raceFree (n : Nat) (hn : 128 ∣ n) (st : Stack α) (hst : st.Sized 128 128)
    (A B : Array α) (a b : Nat → Nat → α) (hA : Holds A n n a) (hB : Holds B n n b) (m : Mem α) :
    RaceFree m (exchangedTree 128 128 st A B (n * n) n) :=
  (blocked_does (by decide) hn (fun _ hi _ hj => exchangedCompute_ok (by decide) (by decide)
    (by decide) (by decide) hn hn hst hA hB hi hj)).raceFree m

/-- **C65.** If 128 does not divide `n`, every execution accesses memory out of bounds. -/
theorem C65_oob (n : Nat) (hn : ¬ 128 ∣ n) (st : Stack α) (A B C : Array α)
    (hA : A.size < n * n + 128) :
    (multExchanged st A B C n).All (fun _ => False) (· = .oob) :=
  ND.All.runOn_stuck (blockTree_errs (by decide)
    (fun _ _ => exchangedCompute_errs (E := (· = .oob)) rfl _ _ (by decide) _ _ _ _ _ _)
    (fun _ _ _ => storeBlock_errs (E := (· = .oob)) rfl _ _ _ _ _ _)) (rows_stuck (by decide) (by decide) hn hA)

/-! ### C66 multGPU -/

/-- **C66.** For every multiple `n` of 128 `multGPU` stores `A · Bᵀ`, each entry summed up in blocks
of 128 products with four partial sums per block. -/
theorem C66_gpu (n : Nat) (hn : 128 ∣ n) (st : Stack α) (hst : st.Sized 128 128)
    (A B C : Array α) (a b : Nat → Nat → α) (hA : Holds A n n a) (hB : Holds B n n b)
    (hC : C.size = n * n) :
    multGPU st A B C n = ND.pure (rowMajor n fun i j => quarterBlocksDot n 128 (a i) (b j)) := by
  unfold multGPU gpuTree
  rw [hC]
  refine (blocked_run (g := fun r c => lanesDot n 128 (a r) (b c)) (by decide) hn (fun i hi j hj => gpuCompute_ok (by decide) (by decide)
    (by decide) hn hn hst hA hB hi hj) hC).trans (congrArg ND.pure (rect_congr fun i _ j _ => ?_))
  exact lanesDot_eq (by decide) (by decide) hn _ _

/-- **C66**, exact arithmetic: `C = A · Bᵀ`. -/
theorem C66_gpu_exact {R : Type} [Semiring R] (n : Nat) (hn : 128 ∣ n) (st : Stack R)
    (hst : st.Sized 128 128) (A B C : Array R) (a b : Nat → Nat → R) (hA : Holds A n n a)
    (hB : Holds B n n b) (hC : C.size = n * n) :
    @multGPU R (exact R) st A B C n =
      ND.pure (rowMajor n fun i j => ∑ k ∈ Finset.range n, a i k * b j k) := by
  rw [@C66_gpu R (exact R) n hn st hst A B C a b hA hB hC]
  congr; funext i j
  exact quarterBlocksDot_exact (by decide) hn _ _

/-- **C66.** The block rows do not race. -/
theorem C66_raceFree (n : Nat) (hn : 128 ∣ n) (st : Stack α) (hst : st.Sized 128 128)
    (A B : Array α) (a b : Nat → Nat → α) (hA : Holds A n n a) (hB : Holds B n n b) (m : Mem α) :
    RaceFree m (gpuTree 128 128 st A B (n * n) n) :=
  (blocked_does (g := fun r c => lanesDot n 128 (a r) (b c)) (by decide) hn (fun _ hi _ hj => gpuCompute_ok (by decide) (by decide)
    (by decide) hn hn hst hA hB hi hj)).raceFree m

/-- **C66.** If 128 does not divide `n`, every execution accesses memory out of bounds. -/
theorem C66_oob (n : Nat) (hn : ¬ 128 ∣ n) (st : Stack α) (A B C : Array α)
    (hA : A.size < n * n + 128) :
    (multGPU st A B C n).All (fun _ => False) (· = .oob) :=
  ND.All.runOn_stuck (blockTree_errs (by decide)
    (fun _ _ => gpuCompute_errs (E := (· = .oob)) rfl _ _ (by decide) _ _ _ _ _ _)
    (fun _ _ _ => storeBlock_errs (E := (· = .oob)) rfl _ _ _ _ _ _)) (rows_stuck (by decide) (by decide) hn hA)

/-! ### C67 multGPUASM -/

theorem gpuasm_run (fma : Bool) (oA oB : Nat) (hoA : oA % 4 = 0) (hoB : oB % 4 = 0) (n : Nat)
    (hn : 256 ∣ n) (st : Stack α) (hst : st.Sized 256 256)
    (A B C : Array α) (a b : Nat → Nat → α) (hA : Holds A n n a) (hB : Holds B n n b)
    (hC : C.size = n * n) :
    multGPUASM fma oA oB st A B C n = ND.pure (rect n n fun r c =>
      if fma then lanesDot n 256 (a r) (b c) else
        (steps 0 n 256).foldl (fun x _ => addZeros x) Arith.zero) := by
  unfold multGPUASM gpuasmTree
  rw [hC]
  exact blocked_run (g := fun r c => if fma then lanesDot n 256 (a r) (b c) else
    (steps 0 n 256).foldl (fun x _ => addZeros x) Arith.zero) (by decide) hn (fun i hi j hj => gpuasmCompute_ok hoA hoB (by decide) (by decide)
    (by decide) (by decide) hn hn hst hA hB hi hj) hC

/-- **C67.** Compiled with FMA instructions and with `AA` and `BB` at addresses divisible by 32,
`multGPUASM` stores `A · Bᵀ` for every multiple `n` of 256. -/
theorem C67_gpuasm (oA oB : Nat) (hoA : oA % 4 = 0) (hoB : oB % 4 = 0) (n : Nat)
    (hn : 256 ∣ n) (st : Stack α) (hst : st.Sized 256 256)
    (A B C : Array α) (a b : Nat → Nat → α) (hA : Holds A n n a) (hB : Holds B n n b)
    (hC : C.size = n * n) :
    multGPUASM true oA oB st A B C n =
      ND.pure (rowMajor n fun i j => quarterBlocksDot n 256 (a i) (b j)) :=
  (gpuasm_run true oA oB hoA hoB n hn st hst A B C a b hA hB hC).trans
    (congrArg ND.pure (rect_congr fun i _ j _ => lanesDot_eq (by decide) (by decide) hn _ _))

/-- **C67**, exact arithmetic: `C = A · Bᵀ`. -/
theorem C67_gpuasm_exact {R : Type} [Semiring R] (oA oB : Nat) (hoA : oA % 4 = 0) (hoB : oB % 4 = 0)
    (n : Nat) (hn : 256 ∣ n) (st : Stack R) (hst : st.Sized 256 256)
    (A B C : Array R) (a b : Nat → Nat → R) (hA : Holds A n n a) (hB : Holds B n n b)
    (hC : C.size = n * n) :
    @multGPUASM R (exact R) true oA oB st A B C n =
      ND.pure (rowMajor n fun i j => ∑ k ∈ Finset.range n, a i k * b j k) := by
  rw [@C67_gpuasm R (exact R) oA oB hoA hoB n hn st hst A B C a b hA hB hC]
  congr; funext i j
  exact quarterBlocksDot_exact (by decide) hn _ _

/-- **C67.** Compiled without FMA instructions it stores zeros, whatever the matrices are. -/
theorem C67_noFma (h0 : Arith.add Arith.zero Arith.zero = (Arith.zero : α)) (oA oB : Nat)
    (hoA : oA % 4 = 0) (hoB : oB % 4 = 0) (n : Nat) (hn : 256 ∣ n) (st : Stack α)
    (hst : st.Sized 256 256) (A B C : Array α) (a b : Nat → Nat → α) (hA : Holds A n n a)
    (hB : Holds B n n b) (hC : C.size = n * n) :
    multGPUASM false oA oB st A B C n = ND.pure (rowMajor n fun _ _ => Arith.zero) := by
  refine (gpuasm_run false oA oB hoA hoB n hn st hst A B C a b hA hB hC).trans
    (congrArg ND.pure (rect_congr fun i _ j _ => ?_))
  have hz : addZeros (Arith.zero : α) = Arith.zero := by
    unfold addZeros
    simp only [List.range_succ, List.range_zero, List.nil_append, List.cons_append, List.foldl_cons,
      List.foldl_nil, h0]
  show (steps 0 n 256).foldl (fun x _ => addZeros x) Arith.zero = Arith.zero
  generalize steps 0 n 256 = l
  induction l with
  | nil => rfl
  | cons x l ih => rw [List.foldl_cons, hz, ih]

/-- **C67.** If `AA` or `BB` is not at an address divisible by 32 (they are declared without
`alignas`), every execution makes a misaligned access. -/
theorem C67_misaligned (fma : Bool) (oA oB : Nat) (ho : oA % 4 ≠ 0 ∨ oB % 4 ≠ 0) (n : Nat)
    (hn0 : 0 < n) (hn : 256 ∣ n) (st : Stack α) (hst : st.Sized 256 256)
    (A B C : Array α) (a b : Nat → Nat → α) (hA : Holds A n n a) (hB : Holds B n n b) :
    (multGPUASM fma oA oB st A B C n).All (fun _ => False) (· = .misaligned) :=
  blockTree_fails (by decide) hn0 (fun _ hi _ hj => gpuasmCompute_mis ho (by decide) (by decide)
    (by decide) (by decide) hn hn hst hA hB hi hj) C

/-- **C67.** The block rows do not race. -/
theorem C67_raceFree (fma : Bool) (oA oB : Nat) (hoA : oA % 4 = 0) (hoB : oB % 4 = 0) (n : Nat)
    (hn : 256 ∣ n) (st : Stack α) (hst : st.Sized 256 256)
    (A B : Array α) (a b : Nat → Nat → α) (hA : Holds A n n a) (hB : Holds B n n b) (m : Mem α) :
    RaceFree m (gpuasmTree fma oA oB 256 256 st A B (n * n) n) :=
  (blocked_does (g := fun r c => if fma then lanesDot n 256 (a r) (b c) else
    (steps 0 n 256).foldl (fun x _ => addZeros x) Arith.zero) (by decide) hn (fun _ hi _ hj => gpuasmCompute_ok hoA hoB (by decide) (by decide)
    (by decide) (by decide) hn hn hst hA hB hi hj)).raceFree m

/-- **C67.** If 256 does not divide `n`, no execution ends: all of them access memory out of bounds
or misaligned. -/
theorem C67_undefined (fma : Bool) (oA oB n : Nat) (hn : ¬ 256 ∣ n) (st : Stack α) (A B C : Array α)
    (hA : A.size < n * n + 256) :
    (multGPUASM fma oA oB st A B C n).All (fun _ => False) (fun e => e = .oob ∨ e = .misaligned) :=
  ND.All.runOn_stuck (blockTree_errs (by decide)
    (fun _ _ => gpuasmCompute_errs (.inl rfl) (.inr rfl) _ _ _ _ _ (by decide) _ _ _ _ _ _)
    (fun _ _ _ => storeBlock_errs (.inl rfl) _ _ _ _ _ _)) (rows_stuck (by decide) (by decide) hn hA)

/-! ### C68 multRegister -/

theorem register_run (fma : Bool) (oR oB : Nat) (hoR : oR % 4 = 0) (hoB : oB % 4 = 0) (n : Nat)
    (hn : 256 ∣ n) (st : Stack α) (hst : st.Sized 256 64)
    (A B C : Array α) (a b : Nat → Nat → α) (hA : Holds A n n a) (hB : Holds B n n b)
    (hC : C.size = n * n) :
    multRegister fma oR oB st A B C n = ND.pure (rect n n (regDot fma n 64 a b)) := by
  unfold multRegister registerTree
  rw [hC]
  exact blocked_run (by decide) hn (fun i hi j hj => registerCompute_ok hoR hoB (by decide)
    (by decide) (by decide) hn (by omega) hst hA hB hi hj) hC

/-- **C68.** Compiled with FMA instructions and with `result` and `BB` at addresses divisible by 32,
`multRegister` stores the product for every multiple `n` of 256, summed up in ascending order. -/
theorem C68_register (oR oB : Nat) (hoR : oR % 4 = 0) (hoB : oB % 4 = 0) (n : Nat)
    (hn : 256 ∣ n) (st : Stack α) (hst : st.Sized 256 64)
    (A B C : Array α) (a b : Nat → Nat → α) (hA : Holds A n n a) (hB : Holds B n n b)
    (hC : C.size = n * n) :
    multRegister true oR oB st A B C n = ND.pure (rowMajor n (mulSpec n a b)) :=
  (register_run true oR oB hoR hoB n hn st hst A B C a b hA hB hC).trans
    (congrArg ND.pure (rect_congr fun i _ j _ => regDot_fma (by decide) (by omega) a b i j))

/-- **C68**, exact arithmetic: `C = A · B`. -/
theorem C68_register_exact {R : Type} [Semiring R] (oR oB : Nat) (hoR : oR % 4 = 0)
    (hoB : oB % 4 = 0) (n : Nat) (hn : 256 ∣ n) (st : Stack R) (hst : st.Sized 256 64)
    (A B C : Array R) (a b : Nat → Nat → R) (hA : Holds A n n a) (hB : Holds B n n b)
    (hC : C.size = n * n) :
    @multRegister R (exact R) true oR oB st A B C n =
      ND.pure (rowMajor n fun i j => ∑ k ∈ Finset.range n, a i k * b k j) := by
  rw [@C68_register R (exact R) oR oB hoR hoB n hn st hst A B C a b hA hB hC]
  congr; funext i j
  exact dot_exact n _ _

/-- **C68.** Compiled without FMA instructions the registers of each 8 × 8 tile are confused: the
result for every input, in any arithmetic. -/
theorem C68_noFma_result (oR oB : Nat) (hoR : oR % 4 = 0) (hoB : oB % 4 = 0) (n : Nat)
    (hn : 256 ∣ n) (st : Stack α) (hst : st.Sized 256 64)
    (A B C : Array α) (a b : Nat → Nat → α) (hA : Holds A n n a) (hB : Holds B n n b)
    (hC : C.size = n * n) :
    multRegister false oR oB st A B C n = ND.pure (rowMajor n (crossedDot n a b)) :=
  (register_run false oR oB hoR hoB n hn st hst A B C a b hA hB hC).trans
    (congrArg ND.pure (rect_congr fun i _ j _ => regDot_crossed (by decide) (by omega) a b i j))

/-- **C68.** What the confused registers hold in exact arithmetic. -/
theorem C68_crossed_exact {R : Type} [Semiring R] (n : Nat) (a b : Nat → Nat → R) (r c : Nat) :
    @crossedDot R (exact R) n a b r c =
      (let t := 2 * (r % 8) + c % 8 / 4
       (if 2 ≤ t ∧ t < 10 then ∑ k ∈ Finset.range n,
          a (r - r % 8 + (t - 2)) k * b k (c - c % 8 + 4 + c % 4) else 0) +
        if t < 8 then ∑ k ∈ Finset.range n, a (r - r % 8 + t) k * b k (c - c % 8 + c % 4)
        else 0) := by
  unfold crossedDot
  simp only
  generalize 2 * (r % 8) + c % 8 / 4 = t
  have key : ∀ (p q : Nat → R) (P Q : Prop) [Decidable P] [Decidable Q] (m : Nat),
      (List.range m).foldl (fun x k => if Q then (if P then x + p k else x) + q k
        else if P then x + p k else x) 0 =
      (if P then ∑ k ∈ Finset.range m, p k else 0) + if Q then ∑ k ∈ Finset.range m, q k else 0 := by
    intro p q P Q _ _ m
    induction m with
    | zero => simp
    | succ m ih =>
      rw [List.range_succ, List.foldl_append, ih]
      simp only [List.foldl_cons, List.foldl_nil, Finset.sum_range_succ]
      by_cases hP : P <;> by_cases hQ : Q <;> simp [hP, hQ]
      abel
  exact key _ _ _ _ n

/-- **C68.** Compiled without FMA instructions the wrong registers are updated: for every input
there is one result, and its rows 5, 6 and 7 of each group of eight are zero. -/
theorem C68_noFma (oR oB : Nat) (hoR : oR % 4 = 0) (hoB : oB % 4 = 0) (n : Nat)
    (hn : 256 ∣ n) (st : Stack α) (hst : st.Sized 256 64)
    (A B C : Array α) (a b : Nat → Nat → α) (hA : Holds A n n a) (hB : Holds B n n b)
    (hC : C.size = n * n) :
    ∃ c : Nat → Nat → α, multRegister false oR oB st A B C n = ND.pure (rowMajor n c) ∧
      ∀ i j, 5 ≤ i % 8 → c i j = Arith.zero :=
  ⟨_, register_run false oR oB hoR hoB n hn st hst A B C a b hA hB hC,
    fun i j hi => regDot_noFma a b i j hi⟩

/-- **C68.** So without FMA instructions the result is wrong for every input whose product has a
nonzero entry in one of these rows. -/
theorem C68_noFma_wrong {R : Type} [Semiring R] (oR oB : Nat) (hoR : oR % 4 = 0)
    (hoB : oB % 4 = 0) (n : Nat) (hn : 256 ∣ n) (st : Stack R) (hst : st.Sized 256 64)
    (A B C : Array R) (a b : Nat → Nat → R) (hA : Holds A n n a) (hB : Holds B n n b)
    (hC : C.size = n * n) (i j : Nat) (hi : i < n) (hj : j < n) (h5 : 5 ≤ i % 8)
    (hne : ∑ k ∈ Finset.range n, a i k * b k j ≠ 0) :
    @multRegister R (exact R) false oR oB st A B C n ≠
      ND.pure (rowMajor n fun i j => ∑ k ∈ Finset.range n, a i k * b k j) := by
  obtain ⟨c, hc, hz⟩ := @C68_noFma R (exact R) oR oB hoR hoB n hn st hst A B C a b hA hB hC
  intro h
  rw [hc] at h
  have h1 : rect n n c = rect n n fun i j => ∑ k ∈ Finset.range n, a i k * b k j :=
    (Except.ok.inj ((congrFun h (.ok (rect n n c))).mp rfl))
  have h2 := holds_rect n n c i hi j hj
  rw [h1, holds_rect n n _ i hi j hj] at h2
  exact hne ((Option.some.inj h2).trans (hz i j h5))

/-- **C68.** If `result` or `BB` is not at an address divisible by 32 (they are declared without
`alignas`), every execution makes a misaligned access. -/
theorem C68_misaligned (fma : Bool) (oR oB : Nat) (ho : oR % 4 ≠ 0 ∨ oB % 4 ≠ 0) (n : Nat)
    (hn0 : 0 < n) (hn : 256 ∣ n) (st : Stack α) (hst : st.Sized 256 64)
    (A B C : Array α) (a b : Nat → Nat → α) (hA : Holds A n n a) (hB : Holds B n n b) :
    (multRegister fma oR oB st A B C n).All (fun _ => False) (· = .misaligned) :=
  blockTree_fails (by decide) hn0 (fun _ hi _ hj => registerCompute_mis ho (by decide) (by decide)
    (by decide) hn (by omega) hst hA hB hi hj) C

/-- **C68.** The block rows do not race. -/
theorem C68_raceFree (fma : Bool) (oR oB : Nat) (hoR : oR % 4 = 0) (hoB : oB % 4 = 0) (n : Nat)
    (hn : 256 ∣ n) (st : Stack α) (hst : st.Sized 256 64)
    (A B : Array α) (a b : Nat → Nat → α) (hA : Holds A n n a) (hB : Holds B n n b) (m : Mem α) :
    RaceFree m (registerTree fma oR oB 256 64 st A B (n * n) n) :=
  (blocked_does (by decide) hn (fun _ hi _ hj => registerCompute_ok hoR hoB (by decide)
    (by decide) (by decide) hn (by omega) hst hA hB hi hj)).raceFree m

/-- **C68.** If 256 does not divide `n`, no execution ends: all of them access memory out of bounds
or misaligned. -/
theorem C68_undefined (fma : Bool) (oR oB n : Nat) (hn : ¬ 256 ∣ n) (st : Stack α) (A B C : Array α)
    (hA : A.size < n * n + 64) :
    (multRegister fma oR oB st A B C n).All (fun _ => False) (fun e => e = .oob ∨ e = .misaligned) :=
  ND.All.runOn_stuck (blockTree_errs (by decide)
    (fun _ _ => registerCompute_errs (.inl rfl) (.inr rfl) _ _ _ _ _ (by decide) _ _ _ _ _ _)
    (fun _ _ _ => storeBlock_errs (.inl rfl) _ _ _ _ _ _)) (rows_stuck (by decide) (by decide) hn hA)

/-! ### C69 multIntrinLoop -/

/-- **C69.** For matrices at addresses divisible by 32 and every multiple `n` of 128
`multIntrinLoop` stores the product, summed up in ascending order. -/
theorem C69_intrinLoop (oA oB oC : Nat) (hoA : oA % 4 = 0) (hoB : oB % 4 = 0) (hoC : oC % 4 = 0)
    (n : Nat) (hn : 128 ∣ n) (st : Stack α) (hst : st.Sized 128 128)
    (A B C : Array α) (a b : Nat → Nat → α) (hA : Holds A n n a) (hB : Holds B n n b)
    (hC : C.size = n * n) :
    multIntrinLoop oA oB oC st A B C n = ND.pure (rowMajor n (mulSpec n a b)) := by
  unfold multIntrinLoop ilTree
  rw [hC]
  refine ((il_does hoC (by decide) (by decide) hn (fun i hi j hj => ilCompute_ok hoA hoB (by decide)
    (by decide) (by decide) (by decide) hn hn hst hA hB hi hj)).runOn C).trans ?_
  rw [covers_result (by decide) (ilUpd_covers (by decide) (by decide) hn _) hC]
  rfl

/-- **C69**, exact arithmetic: `C = A · B`. -/
theorem C69_intrinLoop_exact {R : Type} [Semiring R] (oA oB oC : Nat) (hoA : oA % 4 = 0)
    (hoB : oB % 4 = 0) (hoC : oC % 4 = 0) (n : Nat) (hn : 128 ∣ n) (st : Stack R)
    (hst : st.Sized 128 128) (A B C : Array R) (a b : Nat → Nat → R) (hA : Holds A n n a)
    (hB : Holds B n n b) (hC : C.size = n * n) :
    @multIntrinLoop R (exact R) oA oB oC st A B C n =
      ND.pure (rowMajor n fun i j => ∑ k ∈ Finset.range n, a i k * b k j) := by
  rw [@C69_intrinLoop R (exact R) oA oB oC hoA hoB hoC n hn st hst A B C a b hA hB hC]
  congr; funext i j
  exact dot_exact n _ _

/-- **C69.** If one of the matrices is not at an address divisible by 32, every execution makes a
misaligned access. -/
theorem C69_misaligned (oA oB oC : Nat) (ho : oA % 4 ≠ 0 ∨ oB % 4 ≠ 0 ∨ oC % 4 ≠ 0)
    (n : Nat) (hn0 : 0 < n) (hn : 128 ∣ n) (st : Stack α) (hst : st.Sized 128 128)
    (A B C : Array α) (a b : Nat → Nat → α) (hA : Holds A n n a) (hB : Holds B n n b) :
    (multIntrinLoop oA oB oC st A B C n).All (fun _ => False) (· = .misaligned) := by
  by_cases h : oA % 4 ≠ 0 ∨ oB % 4 ≠ 0
  · exact blockTree_fails (by decide) hn0 (fun _ hi _ hj => ilCompute_mis h (by decide) (by decide)
      (by decide) (by decide) hn hn hst hA hB hi hj) C
  · exact il_mis (by omega) (by decide) (by decide) hn hn0 (fun i hi j hj => ilCompute_ok (by omega)
      (by omega) (by decide) (by decide) (by decide) (by decide) hn hn hst hA hB hi hj) C.size C

/-- **C69.** The block rows do not race. -/
theorem C69_raceFree (oA oB oC : Nat) (hoA : oA % 4 = 0) (hoB : oB % 4 = 0) (hoC : oC % 4 = 0)
    (n : Nat) (hn : 128 ∣ n) (st : Stack α) (hst : st.Sized 128 128)
    (A B : Array α) (a b : Nat → Nat → α) (hA : Holds A n n a) (hB : Holds B n n b) (m : Mem α) :
    RaceFree m (ilTree oA oB oC 128 128 st A B (n * n) n) :=
  (il_does hoC (by decide) (by decide) hn (fun _ hi _ hj => ilCompute_ok hoA hoB (by decide)
    (by decide) (by decide) (by decide) hn hn hst hA hB hi hj)).raceFree m

/-- **C69.** If 128 does not divide `n`, no execution ends: all of them access memory out of bounds
or misaligned. -/
theorem C69_undefined (oA oB oC n : Nat) (hn : ¬ 128 ∣ n) (st : Stack α) (A B C : Array α)
    (hA : A.size < n * n + 128) :
    (multIntrinLoop oA oB oC st A B C n).All (fun _ => False)
      (fun e => e = .oob ∨ e = .misaligned) := by
  refine ND.All.runOn_stuck (blockTree_errs (by decide)
    (fun _ _ => ilCompute_errs (.inl rfl) (.inr rfl) _ _ _ _ (by decide) _ _ _ _ _ _)
    (fun _ _ _ => ilStoreBlock_errs (.inl rfl) (.inr rfl) _ _ _ _ _ _ _)) ?_
  have h0 := pos_of_not_dvd hn
  exact blockTree_stuck (j := 0) (by decide) (last_block (by decide) hn).1
    ((mem_steps0 (by decide)).2 ⟨Nat.dvd_zero _, h0⟩)
    (compute_not_ok h0 (by decide) (loadBlock4_oob (by decide) (by decide) (by decide)
      (last_rows (by decide) hn hA) _))

/-! ### C70 multASM -/

/-- **C70.** With a compiler for which the assembler code is compiled (`__GNUC__ > 4`), matrices at
addresses divisible by 32 and every multiple `n` of 4 below 2³¹, `multASM` stores `A · Bᵀ`, each
entry summed up with four partial sums. -/
theorem C70_asm (gnuc oA oB : Nat) (hg : 4 < gnuc) (hoA : oA % 4 = 0) (hoB : oB % 4 = 0) (n : Nat)
    (hn : 4 ∣ n) (hn' : n < 2 ^ 31) (A B C : Array α) (a b : Nat → Nat → α) (hA : Holds A n n a)
    (hB : Holds B n n b) (hC : C.size = n * n) :
    multASM gnuc oA oB A B C n =
      ND.pure (rowMajor n fun i j => addQuarters n (a i) (b j) Arith.zero) :=
  (asm_run hC fun _ hi _ hj => asmEntry_ok hg hoA hoB hn hn' hA hB hi hj).trans
    (congrArg ND.pure (rect_congr fun _ _ _ _ => hsum_lanes hn _ _))

/-- **C70**, exact arithmetic: `C = A · Bᵀ`. -/
theorem C70_asm_exact {R : Type} [Semiring R] (gnuc oA oB : Nat) (hg : 4 < gnuc) (hoA : oA % 4 = 0)
    (hoB : oB % 4 = 0) (n : Nat) (hn : 4 ∣ n) (hn' : n < 2 ^ 31) (A B C : Array R)
    (a b : Nat → Nat → R) (hA : Holds A n n a) (hB : Holds B n n b) (hC : C.size = n * n) :
    @multASM R (exact R) gnuc oA oB A B C n =
      ND.pure (rowMajor n fun i j => ∑ k ∈ Finset.range n, a i k * b j k) := by
  rw [@C70_asm R (exact R) gnuc oA oB hg hoA hoB n hn hn' A B C a b hA hB hC]
  congr; funext i j
  rw [addQuarters_exact hn]
  exact zero_add _

/-- **C70.** The rows do not race. -/
theorem C70_raceFree (gnuc oA oB : Nat) (hg : 4 < gnuc) (hoA : oA % 4 = 0) (hoB : oB % 4 = 0)
    (n : Nat) (hn : 4 ∣ n) (hn' : n < 2 ^ 31) (A B : Array α) (a b : Nat → Nat → α)
    (hA : Holds A n n a) (hB : Holds B n n b) (m : Mem α) :
    RaceFree m (asmTree gnuc oA oB A B (n * n) n) :=
  (asmTree_does fun _ hi _ hj => asmEntry_ok hg hoA hoB hn hn' hA hB hi hj).raceFree m

/-- **C70.** If 4 does not divide `n` or one of the matrices is not at an address divisible by 32,
no execution ends: all of them access memory out of bounds or misaligned. -/
theorem C70_undefined (gnuc oA oB : Nat) (hg : 4 < gnuc) (n : Nat) (hn0 : 0 < n)
    (h : ¬ 4 ∣ n ∨ oA % 4 ≠ 0 ∨ oB % 4 ≠ 0) (A B C : Array α) (hA : A.size = n * n) :
    (multASM gnuc oA oB A B C n).All (fun _ => False) (fun e => e = .oob ∨ e = .misaligned) := by
  refine ND.All.runOn_stuck (asmTree_errs _ _ _ _ _ _ _) ?_
  by_cases h1 : oA % 4 ≠ 0
  · exact asmTree_stuck hn0 (asmEntry_not_ok hg (.inl h1)) _
  by_cases h2 : oB % 4 ≠ 0
  · exact asmTree_stuck hn0 (asmEntry_not_ok hg (.inr (.inl (by rwa [Nat.zero_mul])))) _
  by_cases h3 : n = 1
  · subst h3
    exact asmTree_stuck hn0 (asmEntry_not_ok hg (.inr (.inr (by omega)))) _
  · exact asmTree_stuck (j := 1) (by omega) (asmEntry_not_ok hg (.inr (.inl (by omega)))) _

/-- **C70.** With an older compiler it stores zeros (sums of zeros), whatever the matrices are. -/
theorem C70_oldCompiler (h0 : Arith.add Arith.zero Arith.zero = (Arith.zero : α)) (gnuc oA oB : Nat)
    (hg : gnuc ≤ 4) (n : Nat) (A B C : Array α) (hC : C.size = n * n) :
    multASM gnuc oA oB A B C n = ND.pure (rowMajor n fun _ _ => Arith.zero) :=
  (asm_run (v := fun _ _ => Tiled.V4.splat Arith.zero) hC fun _ _ _ _ => by
    unfold asmEntry; rw [if_neg (by omega)]; rfl).trans
    (congrArg ND.pure (rect_congr fun _ _ _ _ => by
      show hsum (Tiled.V4.splat (Arith.zero : α)) = _
      unfold hsum Tiled.V4.splat
      simp only [h0]))

/-! ### C71 agreement -/

/-- **C71.** On their common domain `multExchanged`, `multRegister` and `multIntrinLoop` deliver the
same result as `multNaive` on a zero matrix, bit for bit (in every arithmetic), whatever was in `C`
and on the stack before. -/
theorem C71_agree (n : Nat) (hn : 256 ∣ n) (st st' st'' : Stack α) (hst : st.Sized 128 128)
    (hst' : st'.Sized 256 64) (hst'' : st''.Sized 128 128) (oR oB oA' oB' oC' : Nat)
    (hoR : oR % 4 = 0) (hoB : oB % 4 = 0) (hoA' : oA' % 4 = 0) (hoB' : oB' % 4 = 0)
    (hoC' : oC' % 4 = 0) (A B C C' C'' : Array α) (a b : Nat → Nat → α) (hA : Holds A n n a)
    (hB : Holds B n n b) (hC : C.size = n * n) (hC' : C'.size = n * n) (hC'' : C''.size = n * n) :
    multExchanged st A B C n = multNaive A B (rowMajor n fun _ _ => Arith.zero) n ∧
    multRegister true oR oB st' A B C' n = multNaive A B (rowMajor n fun _ _ => Arith.zero) n ∧
    multIntrinLoop oA' oB' oC' st'' A B C'' n =
      multNaive A B (rowMajor n fun _ _ => Arith.zero) n := by
  rw [C65_exchanged n (by omega) st hst A B C a b hA hB hC,
    C68_register oR oB hoR hoB n hn st' hst' A B C' a b hA hB hC',
    C69_intrinLoop oA' oB' oC' hoA' hoB' hoC' n (by omega) st'' hst'' A B C'' a b hA hB hC'',
    C54_naive n A B _ a b _ hA hB (holds_rect n n _) (by simp)]
  exact ⟨rfl, rfl, rfl⟩

/-- **C71.** In exact arithmetic `multGPU`, `multGPUASM` and `multASM`, given the transposed second
matrix, deliver the same result, too. -/
theorem C71_agree_exact {R : Type} [Semiring R] (n : Nat) (hn : 256 ∣ n) (hn' : n < 2 ^ 31)
    (st st' st'' : Stack R) (hst : st.Sized 128 128) (hst' : st'.Sized 256 256)
    (hst'' : st''.Sized 128 128) (oA oB oA' oB' gnuc : Nat) (hg : 4 < gnuc)
    (hoA : oA % 4 = 0) (hoB : oB % 4 = 0) (hoA' : oA' % 4 = 0) (hoB' : oB' % 4 = 0)
    (A B Bt C : Array R) (a b : Nat → Nat → R) (hA : Holds A n n a) (hB : Holds B n n b)
    (hBt : Holds Bt n n (tr b)) (hC : C.size = n * n) :
    @multGPU R (exact R) st A Bt C n = @multExchanged R (exact R) st'' A B C n ∧
    @multGPUASM R (exact R) true oA oB st' A Bt C n = @multExchanged R (exact R) st'' A B C n ∧
    @multASM R (exact R) gnuc oA' oB' A Bt C n = @multExchanged R (exact R) st'' A B C n := by
  rw [C66_gpu_exact n (by omega) st hst A Bt C a (tr b) hA hBt hC,
    C67_gpuasm_exact oA oB hoA hoB n hn st' hst' A Bt C a (tr b) hA hBt hC,
    C70_asm_exact gnuc oA' oB' hg hoA' hoB' n (by omega) hn' A Bt C a (tr b) hA hBt hC,
    C65_exchanged_exact n (by omega) st'' hst'' A B C a b hA hB hC]
  exact ⟨rfl, rfl, rfl⟩

/-! Non-vacuity. -/
section Examples
attribute [local instance] exact

/-- A stack full of the number 7. -/
def junk (bs kc : Nat) : Stack Int where
  result _ _ := Array.replicate (bs * bs) 7
  AA _ _ _ := Array.replicate (bs * kc) 7
  BB _ _ _ := Array.replicate (kc * bs) 7
  resultReg := Array.replicate 16 ⟨7, 7, 7, 7⟩

theorem junk_sized (bs kc : Nat) : (junk bs kc).Sized bs kc where
  result _ _ := Array.size_replicate
  AA _ _ _ := Array.size_replicate
  BB _ _ _ := Array.size_replicate
  resultReg := Array.size_replicate

/-- Matrices for the examples. -/
def exA (i j : Nat) : Int := i * 3 + j
/-- Matrices for the examples. -/
def exB (i j : Nat) : Int := i - 2 * (j * j)

example : multExchanged (junk 128 128) (rowMajor 256 exA) (rowMajor 256 exB)
    (Array.replicate (256 * 256) 5) 256 =
      ND.pure (rowMajor 256 fun i j => ∑ k ∈ Finset.range 256, exA i k * exB k j) :=
  C65_exchanged_exact 256 (by decide) _ (junk_sized _ _) _ _ _ exA exB (holds_rect _ _ _)
    (holds_rect _ _ _) Array.size_replicate

-- n = 100: undefined behaviour
example : (multExchanged (junk 128 128) (rowMajor 100 exA) (rowMajor 100 exB) (rowMajor 100 exA)
    100).All (fun _ => False) (· = .oob) :=
  C65_oob 100 (by decide) _ _ _ _ (by simp)

example : multGPU (junk 128 128) (rowMajor 128 exA) (rowMajor 128 exB) (rowMajor 128 exA) 128 =
    ND.pure (rowMajor 128 fun i j => ∑ k ∈ Finset.range 128, exA i k * exB j k) :=
  C66_gpu_exact 128 (by decide) _ (junk_sized _ _) _ _ _ exA exB (holds_rect _ _ _)
    (holds_rect _ _ _) (by simp)

example : multGPUASM true 8 12 (junk 256 256) (rowMajor 256 exA) (rowMajor 256 exB)
    (rowMajor 256 exA) 256 =
      ND.pure (rowMajor 256 fun i j => ∑ k ∈ Finset.range 256, exA i k * exB j k) :=
  C67_gpuasm_exact 8 12 (by decide) (by decide) 256 (by decide) _ (junk_sized _ _) _ _ _ exA exB
    (holds_rect _ _ _) (holds_rect _ _ _) (by simp)

example : multGPUASM false 8 12 (junk 256 256) (rowMajor 256 exA) (rowMajor 256 exB)
    (rowMajor 256 exA) 256 = ND.pure (rowMajor 256 fun _ _ => 0) :=
  C67_noFma (by decide) 8 12 (by decide) (by decide) 256 (by decide) _ (junk_sized _ _) _ _ _ exA exB
    (holds_rect _ _ _) (holds_rect _ _ _) (by simp)

-- `AA` at an address that is divisible by 16 only
example : (multGPUASM true 2 12 (junk 256 256) (rowMajor 256 exA) (rowMajor 256 exB)
    (rowMajor 256 exA) 256).All (fun _ => False) (· = .misaligned) :=
  C67_misaligned true 2 12 (.inl (by decide)) 256 (by decide) (by decide) _ (junk_sized _ _) _ _ _
    exA exB (holds_rect _ _ _) (holds_rect _ _ _)

example : multRegister true 0 4 (junk 256 64) (rowMajor 512 exA) (rowMajor 512 exB)
    (rowMajor 512 exA) 512 =
      ND.pure (rowMajor 512 fun i j => ∑ k ∈ Finset.range 512, exA i k * exB k j) :=
  C68_register_exact 0 4 (by decide) (by decide) 512 (by decide) _ (junk_sized _ _) _ _ _ exA exB
    (holds_rect _ _ _) (holds_rect _ _ _) (by simp)

-- without FMA the product of two matrices of ones is wrong in row 5
example : multRegister false 0 4 (junk 256 64) (rowMajor 256 fun _ _ => 1) (rowMajor 256 fun _ _ => 1)
    (rowMajor 256 exA) 256 ≠
      ND.pure (rowMajor 256 fun _ _ => ∑ _k ∈ Finset.range 256, (1 : Int) * 1) :=
  C68_noFma_wrong 0 4 (by decide) (by decide) 256 (by decide) _ (junk_sized _ _) _ _ _
    (fun _ _ => 1) (fun _ _ => 1) (holds_rect _ _ _) (holds_rect _ _ _) (by simp) 5 0 (by decide)
    (by decide) (by decide) (by simp)

example : (multRegister true 2 0 (junk 256 64) (rowMajor 256 exA) (rowMajor 256 exB)
    (rowMajor 256 exA) 256).All (fun _ => False) (· = .misaligned) :=
  C68_misaligned true 2 0 (.inl (by decide)) 256 (by decide) (by decide) _ (junk_sized _ _) _ _ _
    exA exB (holds_rect _ _ _) (holds_rect _ _ _)

example : multIntrinLoop 4 0 8 (junk 128 128) (rowMajor 128 exA) (rowMajor 128 exB)
    (rowMajor 128 exA) 128 =
      ND.pure (rowMajor 128 fun i j => ∑ k ∈ Finset.range 128, exA i k * exB k j) :=
  C69_intrinLoop_exact 4 0 8 (by decide) (by decide) (by decide) 128 (by decide) _ (junk_sized _ _)
    _ _ _ exA exB (holds_rect _ _ _) (holds_rect _ _ _) (by simp)

example : (multIntrinLoop 4 0 7 (junk 128 128) (rowMajor 128 exA) (rowMajor 128 exB)
    (rowMajor 128 exA) 128).All (fun _ => False) (· = .misaligned) :=
  C69_misaligned 4 0 7 (.inr (.inr (by decide))) 128 (by decide) (by decide) _ (junk_sized _ _)
    _ _ _ exA exB (holds_rect _ _ _) (holds_rect _ _ _)

example : multASM 13 0 4 (rowMajor 4 exA) (rowMajor 4 exB) (rowMajor 4 exA) 4 =
    ND.pure (rowMajor 4 fun i j => ∑ k ∈ Finset.range 4, exA i k * exB j k) :=
  C70_asm_exact 13 0 4 (by decide) (by decide) (by decide) 4 (by decide) (by decide) _ _ _ exA exB
    (holds_rect _ _ _) (holds_rect _ _ _) (by simp)

-- n = 6 is undefined even if both matrices are aligned
example : (multASM 13 0 0 (rowMajor 6 exA) (rowMajor 6 exB) (rowMajor 6 exA) 6).All (fun _ => False)
    (fun e => e = .oob ∨ e = .misaligned) :=
  C70_undefined 13 0 0 (by decide) 6 (by decide) (.inl (by decide)) _ _ _ (by simp)

example : multASM 4 0 0 (rowMajor 4 exA) (rowMajor 4 exB) (rowMajor 4 exA) 4 =
    ND.pure (rowMajor 4 fun _ _ => 0) :=
  C70_oldCompiler (by decide) 4 0 0 (by decide) 4 _ _ _ (by simp)

example : multIntrinLoop 0 0 0 (junk 128 128) (rowMajor 256 exA) (rowMajor 256 exB)
    (rowMajor 256 exB) 256 =
      multNaive (rowMajor 256 exA) (rowMajor 256 exB) (rowMajor 256 fun _ _ => 0) 256 :=
  (C71_agree 256 (by decide) (junk 128 128) (junk 256 64) (junk 128 128) (junk_sized _ _)
    (junk_sized _ _) (junk_sized _ _) 0 0 0 0 0 (by decide) (by decide) (by decide) (by decide)
    (by decide) _ _ (rowMajor 256 exA) (rowMajor 256 exA) _ exA exB (holds_rect _ _ _)
    (holds_rect _ _ _) (by simp) (by simp) (by simp)).2.2

example : multASM 13 0 0 (rowMajor 256 exA) (rowMajor 256 (tr exB)) (rowMajor 256 exB) 256 =
    multExchanged (junk 128 128) (rowMajor 256 exA) (rowMajor 256 exB) (rowMajor 256 exB) 256 :=
  (C71_agree_exact 256 (by decide) (by decide) (junk 128 128) (junk 256 256) (junk 128 128)
    (junk_sized _ _) (junk_sized _ _) (junk_sized _ _) 0 0 0 0 13 (by decide) (by decide) (by decide)
    (by decide) (by decide) _ _ _ _ exA exB (holds_rect _ _ _) (holds_rect _ _ _)
    (holds_rect _ _ _) (by simp)).2.2
end Examples

end Verif.Props
