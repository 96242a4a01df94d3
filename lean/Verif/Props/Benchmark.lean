import Verif.Proof.Benchmark
import Verif.Props.ExperimentsBlocked
/-
Properties C78–C80: the benchmark program of otherExperiments.
-/
namespace Verif.Props
open Verif.Experiments Verif.Benchmark
variable {α : Type} [Arith α]

/-- The implementations that compute a matrix product. -/
def goodNames : List String :=
  ["naive", "transposed", "counter", "exchanged", "blocked2", "asm", "gpu", "gpuasm", "register",
    "intrinLoop"]

/-- **C78.** With FMA instructions and a recent compiler each implementation except `blocked4`
leaves the matrix with all entries 2 in `C` in every execution, whatever the contents of the
uninitialised memory; in any arithmetic with the few exact sums of `Env.Laws`. -/
theorem C78_result (e : Env α) (hl : e.Laws) (hf : e.fma = true) (hg : 4 < e.gnuc) (n : Nat)
    (hn : 256 ∣ n) (h0 : 0 < n) (hn' : n < 2 ^ 31) (h : e.Ok n) (prog name : String)
    (rest : List String) (hname : name ∈ goodNames) :
    run e n (prog :: name :: rest) = ND.pure (report e n fun _ _ => e.two) := by
  obtain ⟨pA, pB, pBT, pC, aA, aB, aBT, aC, hrun⟩ := run_ok e (n := n) (by omega) h
  rw [hrun]
  have hA : Holds (filled e n).A n n fun _ _ => e.two := holds_rect _ _ _
  have hB : Holds (filled e n).B n n (delta e) := holds_rect _ _ _
  have hBT : Holds (filled e n).BTransposed n n (delta e) := holds_rect _ _ _
  have hC : Holds (filled e n).C n n fun _ _ => Arith.zero := holds_rect _ _ _
  have hs : (filled e n).C.size = n * n := by simp [filled]
  have d1 : (rowMajor n fun i j => dot n ((fun _ _ => e.two : Nat → Nat → α) i) (delta e j)) =
      rowMajor n fun _ _ => e.two := rect_congr fun _ _ j hj => dot_delta hl hj
  have d2 : (rowMajor n fun _ j => dot n (fun _ => e.two) fun k => delta e k j) =
      rowMajor n fun _ _ => e.two := rect_congr fun _ _ j hj => dot_delta' hl hj
  have d3 : ∀ m, 0 < m → 4 * m ∣ n → (rowMajor n fun _ j =>
      quarterBlocksDot n (4 * m) (fun _ => e.two) (delta e j)) = rowMajor n fun _ _ => e.two :=
    fun m hm hd => rect_congr fun _ _ j hj => quarterBlocks_delta hl hm hd hj
  have d4 : (rowMajor n fun _ j => addQuarters n (fun _ => e.two) (delta e j) Arith.zero) =
      rowMajor n fun _ _ => e.two :=
    rect_congr fun _ _ j hj => addQuarters_delta hl (by omega) hj
  simp only [goodNames, List.mem_cons, List.not_mem_nil, or_false] at hname
  rcases hname with rfl | rfl | rfl | rfl | rfl | rfl | rfl | rfl | rfl | rfl <;>
    refine select_ok (mult := _) (by unfold kernel; simp only [String.reduceEq, if_false, if_true]; rfl) ?_
  · exact (C54_naive n _ _ _ _ _ _ hA hB hC hs).trans (congrArg ND.pure d2)
  · rw [C54_transposed n _ _ _ _ _ _ hA hBT hC hs, ND.ofM_ok]
    exact congrArg ND.pure d1
  · exact (C54_counter n _ _ _ _ _ hA hBT hs).trans (congrArg ND.pure d1)
  · exact (C65_exchanged n (by omega) _ h.stack₁ _ _ _ _ _ hA hB hs).trans (congrArg ND.pure d2)
  · exact (C55_even n (by omega) _ _ _ _ _ hA hBT hs).trans (congrArg ND.pure d1)
  · exact (C70_asm _ _ _ hg aA aBT n (by omega) hn' _ _ _ _ _ hA hBT hs).trans
      (congrArg ND.pure d4)
  · exact (C66_gpu n (by omega) _ h.stack₁ _ _ _ _ _ hA hBT hs).trans
      (congrArg ND.pure (d3 32 (by decide) (by omega)))
  · rw [hf]
    exact (C67_gpuasm _ _ h.oAA h.oBB n hn _ h.stack₂ _ _ _ _ _ hA hBT hs).trans
      (congrArg ND.pure (d3 64 (by decide) (by omega)))
  · rw [hf]
    exact (C68_register _ _ h.oResult h.oBB n hn _ h.stack₃ _ _ _ _ _ hA hB hs).trans
      (congrArg ND.pure d2)
  · exact (C69_intrinLoop _ _ _ aA aB aC n (by omega) _ h.stack₁ _ _ _ _ _ hA hB hs).trans
      (congrArg ND.pure d2)

/-- **C78.** The benchmark as it is (`n = 4096`). -/
theorem C78_main (e : Env α) (hl : e.Laws) (hf : e.fma = true) (hg : 4 < e.gnuc) (h : e.Ok 4096)
    (prog name : String) (rest : List String) (hname : name ∈ goodNames) :
    main e (prog :: name :: rest) = ND.pure (report e 4096 fun _ _ => e.two) :=
  C78_result e hl hf hg 4096 (by decide) (by decide) (by decide) h prog name rest hname

/-- **C78.** Without an argument nothing is multiplied, with an unknown name neither; a program
started without any argument (`argc = 0`) reads `argv` out of bounds. -/
theorem C78_usage (e : Env α) (n : Nat) (hn : 8 ≤ n) (h : e.Ok n) (prog name : String)
    (rest : List String) (hname : name ∉ goodNames) (h4 : name ≠ "blocked4") :
    run e n [prog] = ND.pure .nothing ∧ run e n (prog :: name :: rest) = ND.pure .unknown ∧
      run e n [] = ND.fail .oob := by
  obtain ⟨pA, pB, pBT, pC, _, _, _, _, hrun⟩ := run_ok e (n := n) hn h
  refine ⟨hrun _, ?_, hrun _⟩
  rw [hrun]
  simp only [goodNames, List.mem_cons, List.not_mem_nil, or_false, not_or] at hname
  unfold select kernel
  simp only [hname, h4, if_false]
  rfl

/-- **C79.** `blocked4` leaves 2 in every fourth column only and 0 in the others. -/
theorem C79_blocked4 (e : Env α) (hl : e.Laws) (n : Nat) (hn : 4 ∣ n) (h8 : 8 ≤ n) (h : e.Ok n)
    (prog : String) (rest : List String) :
    run e n (prog :: "blocked4" :: rest) =
      ND.pure (report e n fun _ j => if 4 ∣ j then e.two else Arith.zero) := by
  obtain ⟨pA, pB, pBT, pC, _, _, _, _, hrun⟩ := run_ok e (n := n) h8 h
  rw [hrun]
  refine select_ok (mult := _) (by unfold kernel; simp only [String.reduceEq, if_false, if_true]; rfl) ?_
  refine (C56_result n hn _ _ _ _ _ (holds_rect n n fun _ _ => e.two) (holds_rect n n (delta e))
    (by simp [filled])).trans (congrArg ND.pure (rect_congr fun i _ j hj => ?_))
  refine dot_unit hl _ _ (fun t => j = 4 * t) _ ?_ (fun _ => rfl) (fun a b h h' => by omega)
  simp only [List.mem_range]
  constructor
  · rintro ⟨t, rfl⟩
    exact ⟨t, by omega, rfl⟩
  · rintro ⟨t, _, rfl⟩
    exact ⟨t, rfl⟩

/-- **C79.** Compiled without FMA instructions `gpuasm` leaves the zero matrix, and so does `asm` with
an old compiler. -/
theorem C79_zero (e : Env α) (hl : e.Laws) (n : Nat) (hn : 256 ∣ n) (h0 : 0 < n) (h : e.Ok n)
    (prog : String) (rest : List String) :
    (e.fma = false → run e n (prog :: "gpuasm" :: rest) =
      ND.pure (report e n fun _ _ => Arith.zero)) ∧
    (e.gnuc ≤ 4 → run e n (prog :: "asm" :: rest) = ND.pure (report e n fun _ _ => Arith.zero)) := by
  obtain ⟨pA, pB, pBT, pC, _, _, _, _, hrun⟩ := run_ok e (n := n) (by omega) h
  have hs : (filled e n).C.size = n * n := by simp [filled]
  constructor
  · intro hf
    rw [hrun]
    refine select_ok (mult := _)
      (by unfold kernel; simp only [String.reduceEq, if_false, if_true]; rfl) ?_
    rw [hf]
    exact C67_noFma hl.add_zero_zero _ _ h.oAA h.oBB n hn _ h.stack₂ _ _ _ _ _
      (holds_rect n n fun _ _ => e.two) (holds_rect n n (delta e)) hs
  · intro hg
    rw [hrun]
    refine select_ok (mult := _)
      (by unfold kernel; simp only [String.reduceEq, if_false, if_true]; rfl) ?_
    exact C70_oldCompiler hl.add_zero_zero _ _ _ hg n _ _ _ hs

/-- **C80.** The matrices `B` and `BTransposed` of the benchmark are the same vector (and `A` and
`ATransposed` are): an implementation that gets the wrong one of them is not noticed. -/
theorem C80_same (e : Env α) (n : Nat) (s : Bufs α) (hA : s.A.size = n * n)
    (hAT : s.ATransposed.size = n * n) (hB : s.B.size = n * n) (hBT : s.BTransposed.size = n * n)
    (hC : s.C.size = n * n) :
    ∃ s', fill e n s = .ok s' ∧ s'.B = s'.BTransposed ∧ s'.A = s'.ATransposed :=
  ⟨_, fill_ok e n s hA hAT hB hBT hC, rfl, rfl⟩

/-! ### the number that is printed -/
section Exact
variable {R : Type} [CommSemiring R]

/-- The environment in exact arithmetic. -/
structure ExactEnv (e : Env R) : Prop where
  one : e.one = 1
  two : e.two = 2

theorem ExactEnv.laws {e : Env R} (h : ExactEnv e) : @Env.Laws R (exact R) e := by
  refine @Env.Laws.mk R (exact R) e ?_ ?_ ?_ ?_ ?_ ?_ <;>
    simp [Arith.mac, Arith.add, Arith.zero, h.one, h.two]

theorem fold_squares (n : Nat) (c : Nat → Nat → R) :
    (List.range n).foldl (fun x i => (List.range n).foldl
      (fun x j => @Arith.mac R (exact R) x (c i j) (c i j)) x) (@Arith.zero R (exact R)) =
    ∑ i ∈ Finset.range n, ∑ j ∈ Finset.range n, c i j * c i j := by
  have inner : ∀ i (m : Nat) (x : R), (List.range m).foldl
      (fun x j => @Arith.mac R (exact R) x (c i j) (c i j)) x =
      x + ∑ j ∈ Finset.range m, c i j * c i j := by
    intro i m x
    induction m with
    | zero => simp
    | succ m ih =>
      rw [List.range_succ, List.foldl_append, ih, Finset.sum_range_succ, ← add_assoc]
      rfl
  have outer : ∀ (m : Nat), (List.range m).foldl (fun x i => (List.range n).foldl
      (fun x j => @Arith.mac R (exact R) x (c i j) (c i j)) x) (@Arith.zero R (exact R)) =
      ∑ i ∈ Finset.range m, ∑ j ∈ Finset.range n, c i j * c i j := by
    intro m
    induction m with
    | zero => rfl
    | succ m ih =>
      rw [List.range_succ, List.foldl_append, ih, Finset.sum_range_succ]
      exact inner _ _ _
  exact outer n

/-- **C78**, exact arithmetic: the number printed is `sqrt ((2 n)²)`. -/
theorem C78_check (e : Env R) (he : ExactEnv e) (hf : e.fma = true) (hg : 4 < e.gnuc) (n : Nat)
    (hn : 256 ∣ n) (h0 : 0 < n) (hn' : n < 2 ^ 31) (h : e.Ok n) (prog name : String)
    (rest : List String) (hname : name ∈ goodNames) :
    @run R (exact R) e n (prog :: name :: rest) =
      ND.pure (.done (rowMajor n fun _ _ => 2) (e.sqrt ((2 * n : Nat) * (2 * n : Nat)))) := by
  rw [@C78_result R (exact R) e he.laws hf hg n hn h0 hn' h prog name rest hname]
  unfold report
  rw [fold_squares, he.two]
  congr 3
  simp only [Finset.sum_const, Finset.card_range, nsmul_eq_mul]
  push_cast
  ring

/-- **C79**, exact arithmetic: the number printed for `blocked4` is `sqrt (n²)`. -/
theorem C79_blocked4_check (e : Env R) (he : ExactEnv e) (n : Nat) (hn : 4 ∣ n) (h8 : 8 ≤ n)
    (h : e.Ok n) (prog : String) (rest : List String) :
    @run R (exact R) e n (prog :: "blocked4" :: rest) =
      ND.pure (.done (rowMajor n fun _ j => if 4 ∣ j then 2 else 0) (e.sqrt (n * n))) := by
  rw [@C79_blocked4 R (exact R) e he.laws n hn h8 h prog rest]
  unfold report
  rw [fold_squares, he.two]
  obtain ⟨m, rfl⟩ := hn
  have key : ∑ j ∈ Finset.range (4 * m), (if 4 ∣ j then (2 : R) else 0) * (if 4 ∣ j then 2 else 0) =
      (4 * m : Nat) := by
    rw [quarters_sum, ← Finset.sum_add_distrib, ← Finset.sum_add_distrib, ← Finset.sum_add_distrib]
    have : ∀ t, ¬ 4 ∣ 4 * t + 1 ∧ ¬ 4 ∣ 4 * t + 2 ∧ ¬ 4 ∣ 4 * t + 3 := by omega
    simp only [this, Nat.add_zero, Nat.dvd_mul_right, if_true, if_false, Finset.sum_const,
      Finset.card_range, nsmul_eq_mul]
    push_cast
    ring
  have e0 : (@Arith.zero R (exact R)) = 0 := rfl
  rw [e0]
  simp only [key]
  simp only [Finset.sum_const, Finset.card_range, nsmul_eq_mul]

/-- **C79**, exact arithmetic: the number printed in the cases of `C79_zero` is `sqrt 0`. -/
theorem C79_zero_check (e : Env R) (he : ExactEnv e) (n : Nat) (hn : 256 ∣ n) (h0 : 0 < n)
    (h : e.Ok n) (prog : String) (rest : List String) :
    (e.fma = false → @run R (exact R) e n (prog :: "gpuasm" :: rest) =
      ND.pure (.done (rowMajor n fun _ _ => 0) (e.sqrt 0))) ∧
    (e.gnuc ≤ 4 → @run R (exact R) e n (prog :: "asm" :: rest) =
      ND.pure (.done (rowMajor n fun _ _ => 0) (e.sqrt 0))) := by
  have hr : @report R (exact R) e n (fun _ _ => @Arith.zero R (exact R)) =
      .done (rowMajor n fun _ _ => 0) (e.sqrt 0) := by
    unfold report
    rw [fold_squares]
    have e0 : (@Arith.zero R (exact R)) = 0 := rfl
    simp [e0]
  rw [← hr]
  exact @C79_zero R (exact R) e he.laws n hn h0 h prog rest

theorem sum_mod8 (m : Nat) (g : Nat → R) :
    ∑ i ∈ Finset.range (8 * m), g (i % 8) = m * ∑ r ∈ Finset.range 8, g r := by
  induction m with
  | zero => simp
  | succ m ih =>
    rw [Nat.mul_succ, Finset.sum_range_add, ih]
    simp only [Nat.mul_add_mod]
    have : ∑ x ∈ Finset.range 8, g (x % 8) = ∑ x ∈ Finset.range 8, g x :=
      Finset.sum_congr rfl fun x hx => by rw [Nat.mod_eq_of_lt (Finset.mem_range.1 hx)]
    rw [this]
    push_cast
    ring

theorem crossed_twos (r d : Nat) (hr : r < 8) (hd : d < 2) :
    ((if 2 ≤ 2 * r + d ∧ 2 * r + d < 10 then (2 : R) else 0) + if 2 * r + d < 8 then 2 else 0) =
      [2, 4, 4, 4, 2, 0, 0, 0].getD r 0 := by
  have two : (2 : R) + 2 = 4 := by norm_num
  have hr' : r = 0 ∨ r = 1 ∨ r = 2 ∨ r = 3 ∨ r = 4 ∨ r = 5 ∨ r = 6 ∨ r = 7 := by omega
  split_ifs <;> rcases hr' with rfl | rfl | rfl | rfl | rfl | rfl | rfl | rfl <;>
    first
    | (exfalso; omega)
    | simp [two]

/-- **C79.** Compiled without FMA instructions `register` leaves, in each group of eight rows, the
entries 2, 4, 4, 4, 2, 0, 0, 0, and the number printed is `sqrt (7 n²)`. -/
theorem C79_register_check (e : Env R) (he : ExactEnv e) (hf : e.fma = false) (n : Nat)
    (hn : 256 ∣ n) (h0 : 0 < n) (h : e.Ok n) (prog : String) (rest : List String) :
    @run R (exact R) e n (prog :: "register" :: rest) =
      ND.pure (.done (rowMajor n fun i _ => ([2, 4, 4, 4, 2, 0, 0, 0].getD (i % 8) 0))
        (e.sqrt (7 * (n * n)))) := by
  let _ := exact R
  obtain ⟨pA, pB, pBT, pC, _, _, _, _, hrun⟩ := run_ok e (n := n) (by omega) h
  rw [hrun]
  have hsum : ∀ c, c < n → ∑ k ∈ Finset.range n, (2 : R) * delta e k c = 2 := by
    intro c hc
    rw [Finset.sum_eq_single c]
    · simp [delta, he.one]
    · intro b _ hb
      rw [delta, if_neg hb]
      exact mul_zero _
    · intro hb
      exact absurd (Finset.mem_range.2 hc) hb
  have hm : multRegister e.fma e.oResult e.oBB (e.stack 256 64) (filled e n).A (filled e n).B
      (filled e n).C n = ND.pure (rowMajor n fun i _ => ([2, 4, 4, 4, 2, 0, 0, 0].getD (i % 8) (0 : R))) := by
    rw [hf]
    refine (C68_noFma_result _ _ h.oResult h.oBB n hn _ h.stack₃ _ _ _ _ _
      (holds_rect n n fun _ _ => e.two) (holds_rect n n (delta e)) (by simp [filled])).trans
      (congrArg ND.pure (rect_congr fun i hi j hj => ?_))
    rw [C68_crossed_exact]
    simp only [he.two]
    rw [hsum _ (by omega), hsum _ (by omega)]
    exact crossed_twos _ _ (by omega) (by omega)
  refine (select_ok (mult := _)
    (by unfold kernel; simp only [String.reduceEq, if_false, if_true]; rfl) hm).trans ?_
  unfold report
  rw [fold_squares]
  obtain ⟨m, rfl⟩ : 8 ∣ n := by omega
  congr 3
  simp only [Finset.sum_const, Finset.card_range, nsmul_eq_mul]
  rw [← Finset.mul_sum, sum_mod8 m fun r =>
    ([2, 4, 4, 4, 2, 0, 0, 0].getD r (0 : R)) * ([2, 4, 4, 4, 2, 0, 0, 0].getD r 0)]
  simp [Finset.sum_range_succ]
  ring

/-- **C79.** If the square root is exact for squares of natural numbers (as for 64-bit numbers below
2 ^ 53), the number printed is `2 n` for all other implementations and `n` for `blocked4`. -/
theorem C79_sqrt (e : Env R) (he : ExactEnv e) (hf : e.fma = true) (hg : 4 < e.gnuc) (n : Nat)
    (hn : 256 ∣ n) (h0 : 0 < n) (hn' : n < 2 ^ 31) (h : e.Ok n)
    (hs : ∀ m : Nat, e.sqrt (m * m) = m) (prog name : String) (rest : List String) :
    (name ∈ goodNames → @run R (exact R) e n (prog :: name :: rest) =
      ND.pure (.done (rowMajor n fun _ _ => 2) (2 * n))) ∧
    @run R (exact R) e n (prog :: "blocked4" :: rest) =
      ND.pure (.done (rowMajor n fun _ j => if 4 ∣ j then 2 else 0) n) := by
  refine ⟨fun hname => ?_, ?_⟩
  · rw [C78_check e he hf hg n hn h0 hn' h prog name rest hname, hs]
    push_cast
    rfl
  · rw [C79_blocked4_check e he n (by omega) (by omega) h prog rest, hs]

/-- **C80.** The sum of squares as a sum over the elements of the vector. -/
theorem C80_squares (n : Nat) (C : Array R) (hC : C.size = n * n) :
    @squares R (exact R) n C = .ok (C.toList.map fun x => x * x).sum := by
  let _ := exact R
  have hH : Holds C n n fun i j => (C[i * n + j]?).getD 0 := by
    intro i hi j hj
    have := idx_lt hi hj
    simp only [Array.getElem?_eq_getElem (show i * n + j < C.size by omega), Option.getD_some]
  rw [squares_ok hH, fold_squares]
  refine congrArg Except.ok ?_
  have rows : ∀ m, ∑ i ∈ Finset.range m, ∑ j ∈ Finset.range n,
      (C[i * n + j]?).getD 0 * (C[i * n + j]?).getD 0 =
      ∑ p ∈ Finset.range (m * n), (C[p]?).getD 0 * (C[p]?).getD 0 := by
    intro m
    induction m with
    | zero => simp
    | succ m ih => rw [Finset.sum_range_succ, ih, Nat.succ_mul, Finset.sum_range_add]
  rw [rows, ← hC, ← list_sum_range]
  congr 1
  refine List.ext_getElem (by simp) fun i h1 h2 => ?_
  simp at h1
  simp [h1]

/-- **C80.** The check cannot tell two results with the same entries in different places apart. -/
theorem C80_permutation (n : Nat) (C C' : Array R) (hC : C.size = n * n)
    (hp : C.toList.Perm C'.toList) :
    @squares R (exact R) n C = @squares R (exact R) n C' := by
  have hC' : C'.size = n * n := by
    have := hp.length_eq
    simp only [Array.length_toList] at this
    omega
  rw [C80_squares n C hC, C80_squares n C' hC']
  exact congrArg Except.ok ((hp.map _).sum_eq)

/-- **C80.** In particular a result and its transpose give the same check. -/
theorem C80_transpose (n : Nat) (c : Nat → Nat → R) :
    @squares R (exact R) n (rowMajor n c) = @squares R (exact R) n (rowMajor n (tr c)) := by
  rw [@squares_ok R (exact R) n _ c (holds_rect _ _ _),
    @squares_ok R (exact R) n _ (tr c) (holds_rect _ _ _), fold_squares, fold_squares,
    Finset.sum_comm]
  rfl

end Exact

section Examples

/-- an environment for `n = 256`: blocks at odd multiples of 8, with and without FMA -/
def exampleEnv (fma : Bool) (gnuc : Nat) : Env Int where
  one := 1
  two := 2
  sqrt x := Nat.sqrt x.toNat
  base b := 4096 + 8 + b * 1048576
  block _ := .replicate (256 * 256 + 8) 7
  fma := fma
  gnuc := gnuc
  stack bs kc := ⟨fun _ _ => .replicate (bs * bs) 3, fun _ _ _ => .replicate (bs * kc) 4,
    fun _ _ _ => .replicate (kc * bs) 5, .replicate 16 ⟨1, 2, 3, 4⟩⟩
  oResult := 4
  oAA := 8
  oBB := 12

theorem exampleEnv_ok (fma : Bool) (gnuc : Nat) : (exampleEnv fma gnuc).Ok 256 := by
  refine ⟨fun b hb => ?_, fun b _ => ?_, ⟨fun _ _ => ?_, fun _ _ _ => ?_, fun _ _ _ => ?_, ?_⟩,
    ⟨fun _ _ => ?_, fun _ _ _ => ?_, fun _ _ _ => ?_, ?_⟩,
    ⟨fun _ _ => ?_, fun _ _ _ => ?_, fun _ _ _ => ?_, ?_⟩, ?_, ?_, ?_⟩
  · show 4096 + 8 + b * 1048576 + _ ≤ _
    omega
  all_goals first | exact Array.size_replicate | simp [exampleEnv]

theorem exampleEnv_exact (fma : Bool) (gnuc : Nat) : ExactEnv (exampleEnv fma gnuc) := ⟨rfl, rfl⟩

theorem exampleEnv_sqrt (fma : Bool) (gnuc m : Nat) : (exampleEnv fma gnuc).sqrt (m * m) = m := by
  show ((Nat.sqrt ((m : Int) * m).toNat : Nat) : Int) = m
  rw [← Int.natCast_mul, Int.toNat_natCast, Nat.sqrt_eq]

/-- the hypotheses of `C79_sqrt` hold, so the benchmark prints 512 for `naive` and 256 for
`blocked4` -/
example : @run Int (exact Int) (exampleEnv true 9) 256 ["benchmark", "naive"] =
      ND.pure (.done (rowMajor 256 fun _ _ => 2) 512) ∧
    @run Int (exact Int) (exampleEnv true 9) 256 ["benchmark", "blocked4"] =
      ND.pure (.done (rowMajor 256 fun _ j => if 4 ∣ j then 2 else 0) 256) := by
  obtain ⟨h1, h2⟩ := C79_sqrt (exampleEnv true 9) (exampleEnv_exact _ _) rfl (by decide) 256 (by decide)
    (by decide) (by decide) (exampleEnv_ok _ _) (exampleEnv_sqrt _ _) "benchmark" "naive" []
  exact ⟨h1 (by simp [goodNames]), h2⟩

/-- two results with the same check -/
example : (#[1, 2, 3, 4] : Array Int).toList.Perm (#[4, 2, 3, 1] : Array Int).toList := by decide

end Examples
end Verif.Props
