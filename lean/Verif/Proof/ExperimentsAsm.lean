import Verif.Proof.ExperimentsErrs
import Verif.SpecExperiments
/-
Helper lemmas about the kernel multASM of otherExperiments, and the orders of summation.
-/
set_option linter.unusedSectionVars false
namespace Verif.Experiments
open Tiled (V4 vec)
variable {α : Type} [Arith α] {E : Err → Prop}

theorem laneSum_eq {kc : Nat} (hk : 4 ∣ kc) (f g : Nat → α) (l : Nat) :
    laneSum kc f g l = quarterDot kc f g l := by
  obtain ⟨m, rfl⟩ := hk
  unfold laneSum quarterDot dot dotFrom
  rw [Nat.mul_comm, steps_mul m 4 (by decide), List.foldl_map, Nat.mul_div_cancel _ (by decide)]
  exact foldl_congr' (fun k _ s => by rw [Nat.mul_comm]) _

theorem addLanes_eq {kc : Nat} (hk : 4 ∣ kc) (f g : Nat → α) (x : α) :
    addLanes kc f g x = addQuarters kc f g x := by
  unfold addLanes addQuarters
  simp only [laneSum_eq hk]
  rfl

theorem lanesDot_eq {n kc : Nat} (h0 : 0 < kc) (hk : 4 ∣ kc) (hn : kc ∣ n) (f g : Nat → α) :
    lanesDot n kc f g = quarterBlocksDot n kc f g := by
  obtain ⟨m, rfl⟩ := hn
  unfold lanesDot quarterBlocksDot
  rw [Nat.mul_div_cancel_left _ h0, Nat.mul_comm, steps_mul m kc h0, List.foldl_map]
  exact foldl_congr' (fun k _ s => addLanes_eq hk _ _ _) _

theorem hsum_lanes {n : Nat} (hn : 4 ∣ n) (f g : Nat → α) :
    hsum (lanes n f g) = addQuarters n f g Arith.zero := by
  unfold hsum lanes addQuarters
  simp only [laneSum_eq hn]

/-! ### multASM -/

theorem slt_iff {k n : Nat} (hk : k < 2 ^ 31) (hn : n < 2 ^ 31) :
    (BitVec.ofNat 32 k).slt (BitVec.ofNat 32 n) = true ↔ k < n := by
  rw [BitVec.slt_iff_toInt_lt, BitVec.toInt_ofNat', BitVec.toInt_ofNat']
  simp only [Int.bmod_def]
  omega

/-- The loop sums up the products from `k` on. -/
theorem asmLoop_ok {oA oB n i j : Nat} (hoA : oA % 4 = 0) (hoB : oB % 4 = 0) (hn : 4 ∣ n)
    (hn' : n < 2 ^ 31) {A B : Array α} {a b : Nat → Nat → α} (hA : Holds A n n a) (hB : Holds B n n b)
    (hi : i < n) (hj : j < n) (m : Nat) :
    ∀ (k fuel : Nat) (s : V4 α), 4 ∣ k → k + 4 * (m + 1) = n → m < fuel →
      asmLoop oA oB A B (BitVec.ofNat 32 n) fuel (i * n + k) (j * n + k) (BitVec.ofNat 32 k) s =
        .ok ((steps k n 4).foldl (fun s k => V4.mac s (vec a i k) (vec b j k)) s) := by
  induction m with
  | zero =>
    intro k fuel s hk hkn hf
    obtain ⟨fuel, rfl⟩ : ∃ f, fuel = f + 1 := ⟨fuel - 1, by omega⟩
    rw [asmLoop, load_ok hA hi (by omega) hoA hn hk, load_ok hB hj (by omega) hoB hn hk]
    simp only [M_bind_ok]
    rw [if_neg, steps_cons (by omega) (by decide), steps_of_ge (by omega)]
    · rfl
    · rw [show BitVec.ofNat 32 k + 4 = BitVec.ofNat 32 (k + 4) by simp [BitVec.ofNat_add]]
      rw [slt_iff (by omega) hn']
      omega
  | succ m ih =>
    intro k fuel s hk hkn hf
    obtain ⟨fuel, rfl⟩ : ∃ f, fuel = f + 1 := ⟨fuel - 1, by omega⟩
    rw [asmLoop, load_ok hA hi (by omega) hoA hn hk, load_ok hB hj (by omega) hoB hn hk]
    simp only [M_bind_ok]
    rw [show BitVec.ofNat 32 k + 4 = BitVec.ofNat 32 (k + 4) by simp [BitVec.ofNat_add]]
    rw [if_pos, steps_cons (by omega) (by decide)]
    · exact ih (k + 4) fuel _ (by omega) (by omega) (by omega)
    · rw [slt_iff (by omega) hn']
      omega

theorem asmEntry_ok {gnuc oA oB n i j : Nat} (hg : 4 < gnuc) (hoA : oA % 4 = 0) (hoB : oB % 4 = 0)
    (hn : 4 ∣ n) (hn' : n < 2 ^ 31) {A B : Array α} {a b : Nat → Nat → α} (hA : Holds A n n a)
    (hB : Holds B n n b) (hi : i < n) (hj : j < n) :
    asmEntry gnuc oA oB A B n i j = .ok (lanes n (a i) (b j)) := by
  rw [asmEntry, if_pos hg, ← lanes_fold]
  have h1 : n ≤ n * n := Nat.le_mul_of_pos_left n (by omega)
  have h2 := hA.size_le
  exact asmLoop_ok hoA hoB hn hn' hA hB hi hj (n / 4 - 1) 0 (A.size + 1) _ (Nat.dvd_zero _) (by omega)
    (by omega)

/-- The assembler loop cannot run forever: it would leave the array. -/
theorem asm_no_diverge {oA oB : Nat} {A B : Array α} {n : BitVec 32} (fuel : Nat) :
    ∀ (iA iB : Nat) (eax : BitVec 32) (s : V4 α), A.size ≤ iA + fuel →
      MErrs (fun e => e = .oob ∨ e = .misaligned) (asmLoop oA oB A B n (fuel + 1) iA iB eax s) := by
  induction fuel with
  | zero =>
    intro iA iB eax s h
    rw [asmLoop]
    have : ∀ r, load oA A iA ≠ .ok r := by
      intro r
      unfold load
      split
      · nofun
      · refine bind_not_ok' fun r => ?_
        rw [rd_oob (by omega)]
        nofun
    cases hl : load oA A iA with
    | ok r => exact absurd hl (this r)
    | error e =>
      exact MErrs.error (load_errs (P := fun e => e = .oob ∨ e = .misaligned) (.inl rfl) (.inr rfl)
        oA A iA e hl)
  | succ fuel ih =>
    intro iA iB eax s h
    rw [asmLoop]
    refine .bind (load_errs (.inl rfl) (.inr rfl) _ _ _) fun _ =>
      .bind (load_errs (.inl rfl) (.inr rfl) _ _ _) fun _ => .ite ?_ .pure
    exact ih _ _ _ _ (by omega)

theorem asmTree_errs (gnuc oA oB : Nat) (A B : Array α) (nC n : Nat) :
    (asmTree gnuc oA oB A B nC n).Errs (fun e => e = .oob ∨ e = .misaligned) := by
  refine .par fun t ht => ?_
  obtain ⟨i, _, rfl⟩ := List.mem_map.1 ht
  refine .act (Act.Errs.forStep (by decide) (fun j _ => .bind (.ofM ?_) fun _ => .write (.inl rfl) _ _ _) _)
  unfold asmEntry
  exact .ite (asm_no_diverge A.size _ _ _ _ (Nat.le_add_left _ _)) .pure

theorem asmTree_does {gnuc oA oB n : Nat} {A B : Array α} {v : Nat → Nat → V4 α}
    (h : ∀ i, i < n → ∀ j, j < n → asmEntry gnuc oA oB A B n i j = .ok (v i j)) :
    Tree.Does false (asmTree gnuc oA oB A B (n * n) n) ((steps 0 n 1).flatMap fun i =>
      (steps 0 n 1).flatMap fun j => [(i * n + j, fun _ => hsum (v i j))]) := by
  refine Tree.Does.par (fun i hi => .act ?_) (blocks_pairwise Nat.one_pos ?_)
  · refine Act.Does.forStep (by decide) fun j hj => ?_
    have hi := ((mem_steps0 Nat.one_pos).1 hi).2
    have hj := ((mem_steps0 Nat.one_pos).1 hj).2
    exact Act.Does.ofM_bind (h i hi j hj) (Act.Does.write (idx_lt hi hj) _)
  · intro i hi j hj u hu
    rw [List.mem_singleton] at hu
    subst hu
    exact ⟨i, j, by omega, by omega, by omega, by omega, ((mem_steps0 Nat.one_pos).1 hj).2, rfl⟩

theorem asm_run {gnuc oA oB n : Nat} {A B C : Array α} (hC : C.size = n * n) {v : Nat → Nat → V4 α}
    (h : ∀ i, i < n → ∀ j, j < n → asmEntry gnuc oA oB A B n i j = .ok (v i j)) :
    multASM gnuc oA oB A B C n = ND.pure (rect n n fun i j => hsum (v i j)) := by
  unfold multASM
  rw [hC]
  refine ((asmTree_does h).runOn C).trans ?_
  rw [steps_one, Kernel.block_result' _ hC]
  rfl

/-- The entry `(0, j)` fails if one of the first two vectors is not aligned, or if the first
vector of `A` is not complete. -/
theorem asmEntry_not_ok {gnuc oA oB n j : Nat} (hg : 4 < gnuc) {A B : Array α}
    (h : oA % 4 ≠ 0 ∨ (oB + j * n) % 4 ≠ 0 ∨ A.size < 4) (r : V4 α) :
    asmEntry gnuc oA oB A B n 0 j ≠ .ok r := by
  rw [asmEntry, if_pos hg, asmLoop, Nat.zero_mul]
  by_cases h1 : oA % 4 = 0
  · by_cases h2 : (oB + j * n) % 4 = 0
    · have h3 : A.size < 4 := by omega
      refine bind_not_ok' fun r => ?_
      unfold load
      split
      · nofun
      · refine bind_not_ok fun _ => bind_not_ok fun _ => bind_not_ok fun _ => bind_not_ok' fun r => ?_
        rw [rd_oob (by omega)]
        nofun
    · refine bind_not_ok fun _ => bind_not_ok' fun r => ?_
      rw [load_mis h2]
      nofun
  · refine bind_not_ok' fun r => ?_
    rw [load_mis (by omega)]
    nofun

theorem asmTree_stuck {gnuc oA oB n j : Nat} {A B : Array α} (hj : j < n)
    (h : ∀ r, asmEntry gnuc oA oB A B n 0 j ≠ .ok r) (nC : Nat) : (asmTree gnuc oA oB A B nC n).Stuck :=
  .par (List.mem_map.2 ⟨0, (mem_steps0 Nat.one_pos).2 ⟨Nat.dvd_zero _, by omega⟩, rfl⟩)
    (.act (Act.NoRet.forStep (by decide) ((mem_steps0 Nat.one_pos).2 ⟨one_dvd _, hj⟩)
      (fun _ => Act.NoRet.bind_left (Act.NoRet.ofM h)) _))

end Verif.Experiments
