import Verif.Proof.Plan
import Verif.Props.Rounding
import Verif.Props.Halving
import Verif.Props.Double
/-
C126: every entry of a result is a fixed formula in a row and a column.
C127: NaN is not lost, and does not spread.
-/
namespace Verif.Props
open Kernel

/-- The formula takes every product once, without padding, and adds `n` partial sums. -/
structure Once (N n : Nat) (q : Plan) : Prop where
  complete : q.Complete N 1
  pads : q.pads = 0
  adds : q.adds = n

/-- The formula takes every product `r` times, in sums that are padded to `nb` blocks of length
`bs`. -/
structure Padded (N r bs nb : Nat) (q : Plan) : Prop where
  complete : q.Complete N r
  pads : q.pads = r * (nb * bs - N)
  adds : q.adds = r * nb

private theorem once_dot (N : Nat) : Once N 0 (Plan.dotFrom N .zero (List.range N)) :=
  ⟨Plan.complete_dot N, Plan.pads_dot N, Plan.adds_dotFrom N _ _⟩

private theorem once_bdot {N bs : Nat} (hd : bs ∣ N) :
    Once N (N / bs) (Plan.bdotFrom N .zero bs (N / bs)) := by
  have h : N / bs * bs = N := Nat.div_mul_cancel hd
  exact ⟨Plan.complete_bdot (by omega), by rw [Plan.pads_bdot]; omega, Plan.adds_bdot N _ _⟩

private theorem padded_repeat {N bs nb : Nat} (h : N ≤ nb * bs) (r : Nat) :
    Padded N r bs nb (Plan.repeatDot N r bs nb) :=
  ⟨Plan.complete_repeat h r, Plan.pads_repeat N bs nb r, Plan.adds_repeat N bs nb r⟩

private theorem pure_congr {α : Type} {N : Nat} {F G : Nat → Nat → α}
    (h : ∀ i, i < N → ∀ j, j < N → F i j = G i j) :
    (ND.pure (rowMajor N F) : ND (Array α)) = ND.pure (rowMajor N G) :=
  congrArg _ (rect_congr h)

theorem _root_.Verif.ComputesSame.by {N : Nat} {t : Bool} {P : Plan → Prop}
    {run : (α : Type) → [Arith α] → Array α → Array α → ND (Array α)} (h : ComputesSame N t P run) :
    ComputesBy N t P run := by
  obtain ⟨q, hq, plan, hp, hrun⟩ := h
  exact ⟨plan, fun i hi j hj => by rw [hp i hi j hj]; exact hq, hrun⟩

private theorem same {N : Nat} {t : Bool} {P : Plan → Prop}
    {run : (α : Type) → [Arith α] → Array α → Array α → ND (Array α)} (q : Plan) (hq : P q)
    (h : ∀ (α : Type) [Arith α] (A B : Array α) (a b : Nat → Nat → α), Holds A N N a →
      Holds B N N (if t then tr b else b) →
      run α A B = ND.pure (rowMajor N fun i j => q.eval (a i) fun k => b k j)) :
    ComputesSame N t P run :=
  ⟨q, hq, fun _ _ => q, fun _ _ _ _ => rfl, h⟩

/-! ### the algorithms -/

/-- **C126.** The naive multiplication. -/
theorem C126_naive (N : Nat) :
    ComputesSame N false (Once N 0) fun _ _ A B => Naive.naive_matrix_multiply N A B := by
  refine same (Plan.dotFrom N .zero (List.range N)) (once_dot N) ?_
  intro α _ A B a b hA hB
  rw [C01_naive N A B a b hA hB]
  exact pure_congr fun i _ j _ => (Plan.eval_dot N _ _).symm

/-- **C126.** The naive multiplication with `B` transposed. -/
theorem C126_naive_transposed (N : Nat) :
    ComputesSame N true (Once N 0) fun _ _ A B => Naive.naive_matrix_multiply_transposed N A B := by
  refine same (Plan.dotFrom N .zero (List.range N)) (once_dot N) ?_
  intro α _ A B a b hA hB
  rw [C02_naive_transposed N A B a (tr b) hA hB]
  exact pure_congr fun i _ j _ => (Plan.eval_dot N _ _).symm

/-- The formula of a block of size `s`. -/
private def leafPlan (N : Nat) (t : Bool) (bi s : Nat) : Plan :=
  if t = true ∧ bi ≠ 0 ∧ 4 ≤ s then Plan.bdotFrom N .zero bi (N / bi)
  else Plan.dotFrom N .zero (List.range N)

private theorem leafPlan_eval {α : Type} [Arith α] {N : Nat} (a b : Nat → Nat → α) (t : Bool)
    (bi s i j : Nat) (hd : t = true → bi ≠ 0 → 4 ≤ s → bi ∣ N) :
    submatrixEntry N a (if t then tr b else b) t bi s i j =
      (leafPlan N t bi s).eval (a i) fun k => b k j := by
  unfold submatrixEntry leafPlan
  cases t with
  | false =>
    rw [if_pos rfl, if_neg (c := false = true ∧ bi ≠ 0 ∧ 4 ≤ s) (by simp), Plan.eval_dot]
    rfl
  | true =>
    rw [if_neg (by decide)]
    by_cases h : bi = 0 ∨ s < 4
    · rw [if_pos h, if_neg (c := true = true ∧ bi ≠ 0 ∧ 4 ≤ s) (fun hc => by omega), Plan.eval_dot]
      rfl
    · rw [if_neg h, if_pos (c := true = true ∧ bi ≠ 0 ∧ 4 ≤ s) ⟨rfl, by omega, by omega⟩,
        Plan.eval_bdot (hd rfl (by omega) (by omega))]
      rfl

private theorem leafPlan_once {N : Nat} (t : Bool) (bi s : Nat)
    (hd : t = true → bi ≠ 0 → 4 ≤ s → bi ∣ N) :
    Once N (if t = true ∧ bi ≠ 0 ∧ 4 ≤ s then N / bi else 0) (leafPlan N t bi s) := by
  unfold leafPlan
  split
  · rename_i h; exact once_bdot (hd h.1 h.2.1 h.2.2)
  · exact once_dot N

/-- **C126.** `single`, for `N = 2^e * s` where the halving stops at `s` (as in C10). -/
theorem C126_single (N e s : Nat) (transposed : Bool) (br bi reps : Nat) (hN : N = 2 ^ e * s)
    (hs : s ≤ br) (he : ∀ d, d < e → br < 2 ^ (d + 1) * s)
    (hdiv : transposed = true → bi ≠ 0 → 4 ≤ s → 4 ∣ s ∧ bi ∣ N) (hr : 0 < reps) :
    ComputesSame N transposed (Once N (if transposed = true ∧ bi ≠ 0 ∧ 4 ≤ s then N / bi else 0))
      fun _ _ A B => Recursive.single_matrix_multiply N A B transposed br bi reps := by
  have hd : transposed = true → bi ≠ 0 → 4 ≤ s → bi ∣ N := fun h1 h2 h3 => (hdiv h1 h2 h3).2
  refine same (leafPlan N transposed bi s) (leafPlan_once _ _ _ hd) ?_
  intro α _ A B a b hA hB
  rw [C10_single N e s A B a _ transposed br bi reps hA hB hN hs he hdiv hr]
  exact pure_congr fun i _ j _ => leafPlan_eval a b _ _ _ _ _ hd

open StaticImproved in
private theorem improved_plan (p : Params) (N : Nat) (transposed : Bool) (br bi reps L : Nat)
    (aw : List (List Work)) (haw : create_schedule p N (if 1 < L then L - 1 else L) = .ok aw)
    (hc : ∀ r c, r < N → c < N → ∃ ws ∈ aw, ∃ w ∈ ws, Covers w r c)
    (hw : ∀ ws ∈ aw, ∀ w ∈ ws, HalvesTo br w.N ∧ InputFits N transposed bi (leafSize br w.N))
    (hr : 0 < reps) :
    ComputesBy N transposed (fun q => ∃ s, q = leafPlan N transposed bi s ∧
        (transposed = true → bi ≠ 0 → 4 ≤ s → bi ∣ N))
      fun _ _ A B => pseudodynamic_matrix_multiply p N A B transposed br bi reps L := by
  classical
  have hlt : ∀ r c, ∃ w : Work, r < N → c < N → (∃ ws ∈ aw, w ∈ ws) ∧ Covers w r c := by
    intro r c
    by_cases h : r < N ∧ c < N
    · obtain ⟨ws, h1, w, h2, h3⟩ := hc r c h.1 h.2
      exact ⟨w, fun _ _ => ⟨⟨ws, h1, h2⟩, h3⟩⟩
    · exact ⟨⟨0, 0, 0⟩, fun h1 h2 => absurd ⟨h1, h2⟩ h⟩
  choose W hW using hlt
  refine ⟨fun i j => leafPlan N transposed bi (leafSize br (W i j).N), fun i hi j hj => ?_, ?_⟩
  · obtain ⟨⟨ws, h1, h2⟩, _⟩ := hW i j hi hj
    exact ⟨_, rfl, fun h3 h4 h5 => ((hw ws h1 _ h2).2 h3 h4 h5).2⟩
  · intro α _ A B a b hA hB
    beta_reduce
    obtain ⟨hL, k, s, hi, _, _, hs⟩ := schedule_ok haw
    have hI := (iter_inv hL hi).1
    have hin : ∀ ws ∈ aw, ∀ w ∈ ws, w.x + w.N ≤ N ∧ w.y + w.N ≤ N := fun ws hws w hw =>
      hI.inside w (by rw [hs]; exact List.mem_flatten.2 ⟨ws, hws, hw⟩)
    obtain ⟨C, h2, h3, h4, -⟩ := C107_pseudodynamic p N A B a _ transposed br bi reps L aw
      hA hB haw (fun ws hws w hw' => by
        have := hin ws hws w hw'
        have := (extent_bound br w.N).2
        exact leafIn_of_dvd (by omega) (by omega) (hw ws hws w hw').2) hr
    rw [h2]
    congr 1
    refine eq_rect h3 fun r hr' c hc' => ?_
    obtain ⟨⟨ws, hws, hw'⟩, hc⟩ := hW r c hr' hc'
    revert hc hw'
    generalize W r c = w
    intro hc hw'
    unfold Covers at hc
    have hf := (hw ws hws w hw').2
    have e1 : r = w.x + (r - w.x) := by omega
    have e2 : c = w.y + (c - w.y) := by omega
    have h6 := h4 ws hws w hw' (r - w.x) (by omega) (c - w.y) (by omega)
    rw [source_exact (hw ws hws w hw').1 (idx_lt (by omega) (by omega)), idx_div (by omega),
      idx_mod (by omega), ← e1, ← e2, Option.map_some, Option.getD_some, ← e1, ← e2,
      leafEntry_dvd _ _ fun h1 h2 h3 => (hf h1 h2 h3).2] at h6
    rw [h6]
    congr 1
    exact leafPlan_eval a b _ _ _ _ _ fun h1 h2 h3 => (hf h1 h2 h3).2

open StaticImproved in
/-- **C126.** `pseudodynamic`, whenever it is correct (C107): the packages of the schedule cover the
matrix and can be halved.  The number of partial sums may differ between the packages. -/
theorem C126_pseudodynamic (p : Params) (N : Nat) (transposed : Bool) (br bi reps L : Nat)
    (aw : List (List Work)) (haw : create_schedule p N (if 1 < L then L - 1 else L) = .ok aw)
    (hc : ∀ r c, r < N → c < N → ∃ ws ∈ aw, ∃ w ∈ ws, Covers w r c)
    (hw : ∀ ws ∈ aw, ∀ w ∈ ws, HalvesTo br w.N ∧ InputFits N transposed bi (leafSize br w.N))
    (hr : 0 < reps) :
    ComputesBy N transposed (fun q => ∃ n, Once N n q ∧ (n = 0 ∨ transposed = true ∧ n = N / bi))
      fun _ _ A B => pseudodynamic_matrix_multiply p N A B transposed br bi reps L := by
  obtain ⟨plan, hp, hrun⟩ := improved_plan p N transposed br bi reps L aw haw hc hw hr
  refine ⟨plan, fun i hi j hj => ?_, hrun⟩
  obtain ⟨s, h1, h2⟩ := hp i hi j hj
  rw [h1]
  refine ⟨_, leafPlan_once _ _ _ h2, ?_⟩
  split
  · rename_i h; exact .inr ⟨h.1, rfl⟩
  · exact .inl rfl

open StaticImproved in
/-- **C126.** `pseudodynamic` without input blocks: the same formula for all packages. -/
theorem C126_pseudodynamic_same (p : Params) (N : Nat) (transposed : Bool) (br bi reps L : Nat)
    (aw : List (List Work)) (haw : create_schedule p N (if 1 < L then L - 1 else L) = .ok aw)
    (hc : ∀ r c, r < N → c < N → ∃ ws ∈ aw, ∃ w ∈ ws, Covers w r c)
    (hw : ∀ ws ∈ aw, ∀ w ∈ ws, HalvesTo br w.N) (hb : transposed = false ∨ bi = 0) (hr : 0 < reps) :
    ComputesSame N transposed (Once N 0)
      fun _ _ A B => pseudodynamic_matrix_multiply p N A B transposed br bi reps L := by
  obtain ⟨plan, hp, hrun⟩ := improved_plan p N transposed br bi reps L aw haw hc
    (fun ws h1 w h2 => ⟨hw ws h1 w h2, fun h3 h4 => by
      rcases hb with rfl | h
      · cases h3
      · exact absurd h h4⟩) hr
  refine ⟨_, once_dot N, plan, fun i hi j hj => ?_, hrun⟩
  obtain ⟨s, h1, h2⟩ := hp i hi j hj
  rw [h1]
  exact if_neg fun h => by
    rcases hb with rfl | hb
    · cases h.1
    · exact h.2.1 hb

open StaticImproved in
/-- **C126.** `pseudodynamic` with a power of two as size, for every number of localities. -/
theorem C126_pseudodynamic_pow2 (p : Params) (e : Nat) (transposed : Bool) (br bi reps L : Nat)
    (hq : 1 ≤ p.min_work_size) (hbr : 1 ≤ br) (hL : 0 < L) (hr : 0 < reps)
    (hbi : bi = 0 ∨ bi ∣ 2 ^ e) :
    ComputesBy (2 ^ e) transposed
      (fun q => ∃ n, Once (2 ^ e) n q ∧ (n = 0 ∨ transposed = true ∧ n = 2 ^ e / bi))
      fun _ _ A B => pseudodynamic_matrix_multiply p (2 ^ e) A B transposed br bi reps L := by
  have hcl : 0 < if 1 < L then L - 1 else L := by split <;> omega
  obtain ⟨⟨aw, haw, _⟩, _⟩ := C15_schedule_terminates p (2 ^ e) _ hcl
  obtain ⟨h1, h2⟩ := (C107_pseudodynamic_iff (R := ℤ) p (2 ^ e) transposed br bi reps L aw haw hr).1
    fun A B a b hA hB _ _ =>
      C22_pseudodynamic_pow2 p e A B a b transposed br bi reps L hA hB hq hbr hL hr hbi
  exact C126_pseudodynamic p _ transposed br bi reps L aw haw h1 h2 hr

/-- **C126.** `algorithms`. -/
theorem C126_algorithms (N bi br : Nat) (hbi : 0 < bi) (hbr : 0 < br) (hdi : bi ∣ N) (hdr : br ∣ N) :
    ComputesSame N true (Once N (N / bi)) fun _ _ A B => Algorithms.matrix_multiply N A B bi br := by
  refine same (Plan.bdotFrom N .zero bi (N / bi)) (once_bdot hdi) ?_
  intro α _ A B a b hA hB
  rw [C24_algorithms N A B a (tr b) hA hB bi br hbi hbr hdi hdr]
  exact pure_congr fun i _ j _ => (Plan.eval_bdot hdi _ _).symm

/-- **C126.** `looped`. -/
theorem C126_looped (N br bi : Nat) (hbr : 0 < br) (hbi : 0 < bi) (hdr : br ∣ N) (hdi : bi ∣ N) :
    ComputesSame N true (Once N 0) fun _ _ A B => ND.ofM (Looped.matrix_multiply N A B br bi) := by
  refine same (Plan.dotFrom N .zero (List.range N)) (once_dot N) ?_
  intro α _ A B a b hA hB
  rw [(C26_looped N A B a (tr b) hA hB br bi hbr hbi hdr hdi).1]
  exact pure_congr fun i _ j _ => (Plan.eval_dot N _ _).symm

/-- **C126.** `semi`. -/
theorem C126_semi (N bi : Nat) (h4 : 4 ∣ N) (hbi : 0 < bi) (hd : bi ∣ N) :
    ComputesSame N true (Once N (N / bi)) fun _ _ A B => Semi.matrix_multiply N A B bi := by
  refine same (Plan.bdotFrom N .zero bi (N / bi)) (once_bdot hd) ?_
  intro α _ A B a b hA hB
  rw [C32_semi N A B a (tr b) hA hB bi h4 hbi hd]
  exact pure_congr fun i _ j _ => (Plan.eval_bdot hd _ _).symm

private theorem blocks64 (N : Nat) : ceilDiv N 256 * 256 / 64 = ceilDiv N 256 * 4 := by omega

private theorem le_blocks64 (N : Nat) : N ≤ ceilDiv N 256 * 4 * 64 := by
  unfold ceilDiv
  omega

/-- **C126.** `combined`, for every size and every number of repetitions: the repetitions add up. -/
theorem C126_combined (N reps : Nat) :
    ComputesSame N false (Padded N reps 64 (ceilDiv N 256 * 4))
      fun _ _ A B => Combined.matrix_multiply Combined.blocking N A B reps := by
  refine same (Plan.repeatDot N reps 64 (ceilDiv N 256 * 4)) (padded_repeat (le_blocks64 N) reps) ?_
  intro α _ A B a b hA hB
  rw [C35_combined _ Combined.valid N A B a b hA hB reps]
  refine pure_congr fun i hi j hj => ?_
  have e : Combined.blocking.L1_K_STEP = 64 ∧ Combined.blocking.L3_K_STEP = 256 := ⟨rfl, rfl⟩
  rw [e.1, e.2, blocks64, Plan.eval_repeatDot, Plan.padv_row a hi, Plan.padv_col b hj]

/-- **C126.** `kernel_tiled`, for every size: each repetition starts again. -/
theorem C126_kernel_tiled (N : Nat) (t : Bool) (reps : Nat) (hr : 1 ≤ reps) :
    ComputesSame N false (Padded N 1 64 (ceilDiv N 256 * 4))
      fun _ _ A B => KernelTiled.matrix_multiply KernelTiled.blocking N A B t reps := by
  refine same (Plan.repeatDot N 1 64 (ceilDiv N 256 * 4)) (padded_repeat (le_blocks64 N) 1) ?_
  intro α _ A B a b hA hB
  rw [C37_kernel_tiled _ KernelTiled.valid N A B a b hA hB t reps]
  refine pure_congr fun i hi j hj => ?_
  have e : KernelTiled.blocking.L1_K_STEP = 64 ∧ KernelTiled.blocking.L3_K_STEP = 256 := ⟨rfl, rfl⟩
  rw [if_neg (by omega), e.1, e.2, blocks64, Plan.eval_repeatDot, Plan.padv_row a hi, Plan.padv_col b hj]
  rfl

/-- **C126.** `kernel_test`, for its safe sizes. -/
theorem C126_kernel_test (N : Nat) (hN : SafeSize N) (t : Bool) (reps : Nat) (hr : 1 ≤ reps) :
    ComputesSame N false (Padded N 1 16 (ceilDiv N 512 * 32))
      fun _ _ A B => KernelTest.matrix_multiply N A B t reps := by
  refine same (Plan.repeatDot N 1 16 (ceilDiv N 512 * 32)) (padded_repeat (by unfold ceilDiv; omega) 1) ?_
  intro α _ A B a b hA hB
  rw [C39_kernel_test N hN A B a b hA hB t reps hr]
  refine pure_congr fun i hi j hj => ?_
  have e1 : ceilDiv N 512 * 512 / 16 = ceilDiv N 512 * 32 := by omega
  rw [e1, Plan.eval_repeatDot, Plan.padv_row a hi, Plan.padv_col b hj]
  rfl

/-! ### what follows -/

/-- The formula takes every product at least once, and no other one. -/
def Takes (N : Nat) (q : Plan) : Prop := ∃ r, 1 ≤ r ∧ q.Complete N r

theorem Once.takes {N n : Nat} {q : Plan} (h : Once N n q) : Takes N q := ⟨1, Nat.le_refl _, h.complete⟩

theorem Padded.takes {N r bs nb : Nat} {q : Plan} (h : Padded N r bs nb q) (hr : 1 ≤ r) : Takes N q :=
  ⟨r, hr, h.complete⟩

variable {N : Nat} {t : Bool} {P : Plan → Prop}
  {run : (α : Type) → [Arith α] → Array α → Array α → ND (Array α)}

/-- **C126.** Entry `(i, j)` of the result depends only on row `i` of the first and column `j` of the
second matrix, to the last bit. -/
theorem C126_local (h : ComputesBy N t P run) (hP : ∀ q, P q → Takes N q) {α : Type} [Arith α]
    (A A' B B' : Array α) (a a' b b' : Nat → Nat → α) (hA : Holds A N N a) (hA' : Holds A' N N a')
    (hB : Holds B N N (if t then tr b else b)) (hB' : Holds B' N N (if t then tr b' else b'))
    (i j : Nat) (hi : i < N) (hj : j < N) (ha : ∀ k, k < N → a i k = a' i k)
    (hb : ∀ k, k < N → b k j = b' k j) :
    ∃ C C' x, run α A B = ND.pure C ∧ run α A' B' = ND.pure C' ∧
      C[i * N + j]? = some x ∧ C'[i * N + j]? = some x := by
  obtain ⟨plan, hp, hrun⟩ := h
  refine ⟨_, _, _, hrun α A B a b hA hB, hrun α A' B' a' b' hA' hB', holds_rect N N _ i hi j hj, ?_⟩
  rw [holds_rect N N _ i hi j hj]
  obtain ⟨r, _, hc⟩ := hP _ (hp i hi j hj)
  exact congrArg some (Plan.eval_congr _ fun k hk => ⟨ha k (hc.mem hk), hb k (hc.mem hk)⟩).symm

/-- **C126.** A change of the numbers that respects the operations can be made before or after the
multiplication. -/
theorem C126_hom (h : ComputesBy N t P run) {α β : Type} [Arith α] [Arith β] (φ : α → β)
    (h0 : φ Arith.zero = Arith.zero) (hadd : ∀ x y, φ (Arith.add x y) = Arith.add (φ x) (φ y))
    (hmac : ∀ c x y, φ (Arith.mac c x y) = Arith.mac (φ c) (φ x) (φ y)) (A B : Array α)
    (a b : Nat → Nat → α) (hA : Holds A N N a) (hB : Holds B N N b) :
    ∃ C, run α A B = ND.pure C ∧ run β (A.map φ) (B.map φ) = ND.pure (C.map φ) := by
  obtain ⟨plan, hp, hrun⟩ := h
  have hev : ∀ (f g : Nat → α) (q : Plan),
      φ (q.eval f g) = q.eval (fun k => φ (f k)) fun k => φ (g k) := by
    intro f g q
    induction q with
    | zero => exact h0
    | mac s k ih => simp only [Plan.eval]; rw [hmac, ih]
    | pad s ih => simp only [Plan.eval]; rw [hmac, ih, h0]
    | add s u ih ih' => simp only [Plan.eval]; rw [hadd, ih, ih']
  have hmap : ∀ {D : Array α} {d : Nat → Nat → α}, Holds D N N d →
      Holds (D.map φ) N N fun i j => φ (d i j) := by
    intro D d hD i hi j hj
    rw [Array.getElem?_map, hD i hi j hj]
    rfl
  have hb : ∃ b', b = if t then tr b' else b' := by
    cases t
    · exact ⟨b, rfl⟩
    · exact ⟨tr b, rfl⟩
  obtain ⟨b', rfl⟩ := hb
  refine ⟨_, hrun α A B a b' hA hB, ?_⟩
  rw [hrun β (A.map φ) (B.map φ) (fun i j => φ (a i j)) (fun i j => φ (b' i j)) (hmap hA) ?_]
  · congr 1
    refine (eq_rect (by simp) fun i hi j hj => ?_).symm
    rw [Array.getElem?_map, holds_rect N N _ i hi j hj]
    exact congrArg some (hev _ _ _)
  · have := hmap hB
    cases t
    · exact this
    · exact this

open IEEE

/-- Not a number. -/
def notANumber : Double := ⟨.nan, trivial⟩

/-- The products that are not a number: one factor is not a number, or they are zero and infinite. -/
def NaNProduct (x y : Double) : Prop :=
  x = notANumber ∨ y = notANumber ∨ (∃ s u, x.1 = .zero s ∧ y.1 = .inf u) ∨
    ∃ s u, x.1 = .inf s ∧ y.1 = .zero u

/-- A multiplication of matrices of doubles loses no NaN: there is one result, and an entry is NaN if
one of its products is. -/
def KeepsNaN (N : Nat) (t : Bool) (f : Array Double → Array Double → ND (Array Double)) : Prop :=
  ∀ (A B : Array Double) (a b : Nat → Nat → Double), Holds A N N a →
    Holds B N N (if t then tr b else b) → ∃ C, f A B = ND.pure C ∧
    ∀ i j k, i < N → j < N → k < N → NaNProduct (a i k) (b k j) → C[i * N + j]? = some notANumber

private theorem eq_nan {x : Ext} (h : x = .nan) : Double.ofExt x = notANumber := by
  subst h; rfl

private theorem ext_add_nan (x y : Ext) (h : x = .nan ∨ y = .nan) : x.add y = .nan := by
  rcases h with rfl | rfl
  · cases y <;> rfl
  · cases x <;> rfl

private theorem add_nan (x y : Double) (h : x = notANumber ∨ y = notANumber) :
    x.add y = notANumber :=
  eq_nan (ext_add_nan _ _ (h.imp (congrArg Subtype.val) (congrArg Subtype.val)))

private theorem mac_nan (fuse : Double → Double → Double → Bool) (c x y : Double)
    (h : c = notANumber) : (Double.arith fuse).mac c x y = notANumber := by
  show (if fuse c x y then Double.fma c x y else Double.add c (Double.mul x y)) = _
  split
  · exact eq_nan (ext_add_nan _ _ (.inl (congrArg Subtype.val h)))
  · exact add_nan _ _ (.inl h)

private theorem ext_mul_nan (x y : Double) (h : NaNProduct x y) : x.1.mul y.1 = .nan := by
  rcases h with rfl | rfl | ⟨s, u, h1, h2⟩ | ⟨s, u, h1, h2⟩
  · show Ext.mul .nan y.1 = _
    cases y.1 <;> rfl
  · show Ext.mul x.1 .nan = _
    cases x.1 <;> rfl
  · rw [h1, h2]; rfl
  · rw [h1, h2]; rfl

private theorem mac_nan' (fuse : Double → Double → Double → Bool) (c x y : Double)
    (h : NaNProduct x y) : (Double.arith fuse).mac c x y = notANumber := by
  show (if fuse c x y then Double.fma c x y else Double.add c (Double.mul x y)) = _
  split
  · exact eq_nan (ext_add_nan _ _ (.inr (ext_mul_nan x y h)))
  · exact add_nan _ _ (.inr (eq_nan (ext_mul_nan x y h)))

/-- **C127.** The product of two doubles is NaN exactly if it is one of `NaNProduct`. -/
theorem C127_product (x y : Double) : x.mul y = notANumber ↔ NaNProduct x y := by
  refine ⟨fun h => ?_, fun h => eq_nan (ext_mul_nan x y h)⟩
  have h : (x.1.mul y.1).round = .nan := congrArg Subtype.val h
  have key : ∀ z : Ext, z.round = .nan → z = .nan := by
    intro z hz
    cases z with
    | num q => simp only [Ext.round] at hz; split at hz <;> [skip; split at hz] <;> cases hz
    | _ => cases hz <;> rfl
  have h := key _ h
  obtain ⟨x, hx⟩ := x
  obtain ⟨y, hy⟩ := y
  unfold NaNProduct
  cases x with
  | nan => exact .inl rfl
  | inf s =>
    cases y with
    | nan => exact .inr (.inl rfl)
    | zero u => exact .inr (.inr (.inr ⟨s, u, rfl, rfl⟩))
    | _ => cases h
  | zero s =>
    cases y with
    | nan => exact .inr (.inl rfl)
    | inf u => exact .inr (.inr (.inl ⟨s, u, rfl, rfl⟩))
    | _ => cases h
  | num q =>
    cases y with
    | nan => exact .inr (.inl rfl)
    | _ => cases h

theorem keeps_nan (h : ComputesBy N t P run) (hP : ∀ q, P q → Takes N q)
    (fuse : Double → Double → Double → Bool) : KeepsNaN N t (@run Double (Double.arith fuse)) := by
  intro A B a b hA hB
  let _ := Double.arith fuse
  obtain ⟨plan, hp, hrun⟩ := h
  refine ⟨_, hrun Double A B a b hA hB, fun i j k hi hj hk hn => ?_⟩
  rw [holds_rect N N _ i hi j hj]
  obtain ⟨r, hr, hc⟩ := hP _ (hp i hi j hj)
  exact congrArg some (Plan.eval_bad (· = notANumber) add_nan (mac_nan fuse) _ k (hc.all hr hk)
    fun c => mac_nan' fuse c _ _ hn)

/-! ### NaN in the algorithms -/

variable (fuse : Double → Double → Double → Bool)

/-- **C127.** The naive multiplication. -/
theorem C127_naive (N : Nat) : KeepsNaN N false fun A B =>
    @Naive.naive_matrix_multiply Double (Double.arith fuse) N A B :=
  keeps_nan (C126_naive N).by (fun _ h => h.takes) fuse

/-- **C127.** The naive multiplication with `B` transposed. -/
theorem C127_naive_transposed (N : Nat) : KeepsNaN N true fun A B =>
    @Naive.naive_matrix_multiply_transposed Double (Double.arith fuse) N A B :=
  keeps_nan (C126_naive_transposed N).by (fun _ h => h.takes) fuse

/-- **C127.** `single`. -/
theorem C127_single (N e s : Nat) (transposed : Bool) (br bi reps : Nat) (hN : N = 2 ^ e * s)
    (hs : s ≤ br) (he : ∀ d, d < e → br < 2 ^ (d + 1) * s)
    (hdiv : transposed = true → bi ≠ 0 → 4 ≤ s → 4 ∣ s ∧ bi ∣ N) (hr : 0 < reps) :
    KeepsNaN N transposed fun A B =>
      @Recursive.single_matrix_multiply Double (Double.arith fuse) N A B transposed br bi reps :=
  keeps_nan (C126_single N e s transposed br bi reps hN hs he hdiv hr).by (fun _ h => h.takes) fuse

open StaticImproved in
/-- **C127.** `pseudodynamic`. -/
theorem C127_pseudodynamic (p : Params) (N : Nat) (transposed : Bool) (br bi reps L : Nat)
    (aw : List (List Work)) (haw : create_schedule p N (if 1 < L then L - 1 else L) = .ok aw)
    (hc : ∀ r c, r < N → c < N → ∃ ws ∈ aw, ∃ w ∈ ws, Covers w r c)
    (hw : ∀ ws ∈ aw, ∀ w ∈ ws, HalvesTo br w.N ∧ InputFits N transposed bi (leafSize br w.N))
    (hr : 0 < reps) : KeepsNaN N transposed fun A B =>
      @pseudodynamic_matrix_multiply Double (Double.arith fuse) p N A B transposed br bi reps L :=
  keeps_nan (C126_pseudodynamic p N transposed br bi reps L aw haw hc hw hr)
    (fun _ ⟨_, h, _⟩ => h.takes) fuse

/-- **C127.** `algorithms`. -/
theorem C127_algorithms (N bi br : Nat) (hbi : 0 < bi) (hbr : 0 < br) (hdi : bi ∣ N) (hdr : br ∣ N) :
    KeepsNaN N true fun A B => @Algorithms.matrix_multiply Double (Double.arith fuse) N A B bi br :=
  keeps_nan (C126_algorithms N bi br hbi hbr hdi hdr).by (fun _ h => h.takes) fuse

/-- **C127.** `looped`. -/
theorem C127_looped (N br bi : Nat) (hbr : 0 < br) (hbi : 0 < bi) (hdr : br ∣ N) (hdi : bi ∣ N) :
    KeepsNaN N true fun A B =>
      ND.ofM (@Looped.matrix_multiply Double (Double.arith fuse) N A B br bi) :=
  keeps_nan (C126_looped N br bi hbr hbi hdr hdi).by (fun _ h => h.takes) fuse

/-- **C127.** `semi`. -/
theorem C127_semi (N bi : Nat) (h4 : 4 ∣ N) (hbi : 0 < bi) (hd : bi ∣ N) :
    KeepsNaN N true fun A B => @Semi.matrix_multiply Double (Double.arith fuse) N A B bi :=
  keeps_nan (C126_semi N bi h4 hbi hd).by (fun _ h => h.takes) fuse

/-- **C127.** `combined`, for every size. -/
theorem C127_combined (N reps : Nat) (hr : 1 ≤ reps) : KeepsNaN N false fun A B =>
    @Combined.matrix_multiply Double (Double.arith fuse) Combined.blocking N A B reps :=
  keeps_nan (C126_combined N reps).by (fun _ h => h.takes hr) fuse

/-- **C127.** `kernel_tiled`, for every size. -/
theorem C127_kernel_tiled (N : Nat) (t : Bool) (reps : Nat) (hr : 1 ≤ reps) :
    KeepsNaN N false fun A B =>
      @KernelTiled.matrix_multiply Double (Double.arith fuse) KernelTiled.blocking N A B t reps :=
  keeps_nan (C126_kernel_tiled N t reps hr).by (fun _ h => h.takes (Nat.le_refl _)) fuse

/-- **C127.** `kernel_test`, for its safe sizes. -/
theorem C127_kernel_test (N : Nat) (hN : SafeSize N) (t : Bool) (reps : Nat) (hr : 1 ≤ reps) :
    KeepsNaN N false fun A B =>
      @KernelTest.matrix_multiply Double (Double.arith fuse) N A B t reps :=
  keeps_nan (C126_kernel_test N hN t reps hr).by (fun _ h => h.takes (Nat.le_refl _)) fuse

/-- **C127.** If one element of the first matrix becomes NaN, its row of the result becomes NaN and
all other rows stay the same, to the last bit. -/
theorem C127_row (h : ComputesBy N t P run) (hP : ∀ q, P q → Takes N q) (A A' B : Array Double)
    (a a' b : Nat → Nat → Double) (hA : Holds A N N a) (hA' : Holds A' N N a')
    (hB : Holds B N N (if t then tr b else b)) (r c : Nat) (hr : r < N) (hc : c < N)
    (hsame : ∀ i k, i < N → k < N → (i, k) ≠ (r, c) → a' i k = a i k) (hn : a' r c = notANumber) :
    ∃ C C', @run Double (Double.arith fuse) A B = ND.pure C ∧
      @run Double (Double.arith fuse) A' B = ND.pure C' ∧
      (∀ j, j < N → C'[r * N + j]? = some notANumber) ∧
      ∀ i, i < N → i ≠ r → ∀ j, j < N → C'[i * N + j]? = C[i * N + j]? := by
  obtain ⟨C, h1, -⟩ := keeps_nan h hP fuse A B a b hA hB
  obtain ⟨C', h2, h3⟩ := keeps_nan h hP fuse A' B a' b hA' hB
  refine ⟨C, C', h1, h2, fun j hj => h3 r j c hr hj hc (.inl hn), fun i hi hir j hj => ?_⟩
  let _ := Double.arith fuse
  obtain ⟨D, D', x, g1, g2, g3, g4⟩ := C126_local h hP A A' B B a a' b b hA hA' hB hB i j hi hj
    (fun k hk => (hsame i k hi hk fun e => hir (congrArg Prod.fst e)).symm) fun _ _ => rfl
  rw [h1] at g1
  rw [h2] at g2
  rw [pure_inj g1, pure_inj g2, g3, g4]

/-- **C127.** If one element of the second matrix becomes NaN, its column of the result becomes NaN
and all other columns stay the same, to the last bit. -/
theorem C127_column (h : ComputesBy N t P run) (hP : ∀ q, P q → Takes N q) (A B B' : Array Double)
    (a b b' : Nat → Nat → Double) (hA : Holds A N N a) (hB : Holds B N N (if t then tr b else b))
    (hB' : Holds B' N N (if t then tr b' else b')) (r c : Nat) (hr : r < N) (hc : c < N)
    (hsame : ∀ k j, k < N → j < N → (k, j) ≠ (r, c) → b' k j = b k j) (hn : b' r c = notANumber) :
    ∃ C C', @run Double (Double.arith fuse) A B = ND.pure C ∧
      @run Double (Double.arith fuse) A B' = ND.pure C' ∧
      (∀ i, i < N → C'[i * N + c]? = some notANumber) ∧
      ∀ i, i < N → ∀ j, j < N → j ≠ c → C'[i * N + j]? = C[i * N + j]? := by
  obtain ⟨C, h1, -⟩ := keeps_nan h hP fuse A B a b hA hB
  obtain ⟨C', h2, h3⟩ := keeps_nan h hP fuse A B' a b' hA hB'
  refine ⟨C, C', h1, h2, fun i hi => h3 i c r hi hc hr (.inr (.inl hn)), fun i hi j hj hjc => ?_⟩
  let _ := Double.arith fuse
  obtain ⟨D, D', x, g1, g2, g3, g4⟩ := C126_local h hP A A B B' a a b b' hA hA hB hB' i j hi hj
    (fun _ _ => rfl) fun k hk => (hsame k j hk hj fun e => hjc (congrArg Prod.snd e)).symm
  rw [h1] at g1
  rw [h2] at g2
  rw [pure_inj g1, pure_inj g2, g3, g4]

section Examples

/-- `semi` with `N = 8` and `block_input = 4`: eight products and two partial sums per entry. -/
example : ComputesSame 8 true (Once 8 2) fun _ _ A B => Semi.matrix_multiply 8 A B 4 :=
  C126_semi 8 4 (by decide) (by decide) (by decide)

/-- `combined` with `N = 3` and two repetitions: every product twice, and 506 products of zeros. -/
example : ComputesBy 3 false (fun q => q.Complete 3 2 ∧ q.pads = 506 ∧ q.adds = 8)
    fun _ _ A B => Combined.matrix_multiply Combined.blocking 3 A B 2 := by
  obtain ⟨plan, h1, h2⟩ := (C126_combined 3 2).by
  exact ⟨plan, fun i hi j hj => ⟨(h1 i hi j hj).complete, (h1 i hi j hj).pads, (h1 i hi j hj).adds⟩, h2⟩

/-- `pseudodynamic` with `N = 8`, three localities and input blocks of length 4. -/
example : ComputesBy 8 true (fun q => ∃ n, Once 8 n q ∧ (n = 0 ∨ true = true ∧ n = 2)) fun _ _ A B =>
    StaticImproved.pseudodynamic_matrix_multiply ⟨1, 1, fun _ _ => false⟩ 8 A B true 4 4 1 3 :=
  C126_pseudodynamic_pow2 ⟨1, 1, fun _ _ => false⟩ 3 true 4 4 1 3 (by decide) (by decide) (by decide) (by decide)
    (.inr (by decide))

/-- Natural numbers can be turned into integers before or after the multiplication. -/
example (A B : Array Nat) (a b : Nat → Nat → Nat) (hA : Holds A 5 5 a) (hB : Holds B 5 5 b) :
    ∃ C, @Combined.matrix_multiply Nat (exact Nat) Combined.blocking 5 A B 1 = ND.pure C ∧
      @Combined.matrix_multiply Int (exact Int) Combined.blocking 5 (A.map Int.ofNat)
        (B.map Int.ofNat) 1 = ND.pure (C.map Int.ofNat) := by
  let _ := exact Nat
  let _ := exact Int
  exact C126_hom (C126_combined 5 1).by Int.ofNat rfl (fun _ _ => rfl) (fun _ _ _ => rfl) A B a b hA hB

/-- Two matrices with the same second row: the second row of the product is the same. -/
example (A A' B : Array Double) (a a' b : Nat → Nat → Double) (hA : Holds A 3 3 a)
    (hA' : Holds A' 3 3 a') (hB : Holds B 3 3 b) (h : ∀ k, k < 3 → a 1 k = a' 1 k) (j : Nat)
    (hj : j < 3) : let _ := Double.arith fuse
    ∃ C C' x, Naive.naive_matrix_multiply 3 A B = ND.pure C ∧
      Naive.naive_matrix_multiply 3 A' B = ND.pure C' ∧
      C[1 * 3 + j]? = some x ∧ C'[1 * 3 + j]? = some x := by
  intro _
  exact C126_local (C126_naive 3).by (fun _ h => h.takes) A A' B B a a' b b hA hA' hB hB 1 j
    (by decide) hj h fun _ _ => rfl

/-- An infinite element: the product with the unit matrix is NaN in its row, as infinity times zero is
no number. -/
example (A : Array Double) (a : Nat → Nat → Double) (hA : Holds A 2 2 a)
    (h : (a 0 0).1 = .inf false) :
    ∃ C, @Combined.matrix_multiply Double (Double.arith fuse) Combined.blocking 2 A
        (rowMajor 2 fun i j => if i = j then Double.ofNat 1 else Double.zero) 1 = ND.pure C ∧
      C[1]? = some notANumber := by
  obtain ⟨C, h1, h2⟩ := C127_combined fuse 2 1 (by decide) A _ a _ hA (holds_rect 2 2 _)
  exact ⟨C, h1, h2 0 1 0 (by decide) (by decide) (by decide)
    (.inr (.inr (.inr ⟨false, false, h, rfl⟩)))⟩

/-- A NaN in the first row of the first matrix does not reach the second row. -/
example (A A' B : Array Double) (a a' b : Nat → Nat → Double) (hA : Holds A 2 2 a)
    (hA' : Holds A' 2 2 a') (hB : Holds B 2 2 b)
    (h : a' 0 1 = notANumber ∧ a' 0 0 = a 0 0 ∧ a' 1 0 = a 1 0 ∧ a' 1 1 = a 1 1) :
    ∃ C C', @Combined.matrix_multiply Double (Double.arith fuse) Combined.blocking 2 A B 1 =
        ND.pure C ∧
      @Combined.matrix_multiply Double (Double.arith fuse) Combined.blocking 2 A' B 1 = ND.pure C' ∧
      (∀ j, j < 2 → C'[0 * 2 + j]? = some notANumber) ∧
      ∀ i, i < 2 → i ≠ 0 → ∀ j, j < 2 → C'[i * 2 + j]? = C[i * 2 + j]? := by
  refine C127_row fuse (C126_combined 2 1).by (fun _ h => h.takes (Nat.le_refl _)) A A' B a a' b hA hA' hB
    0 1 (by decide) (by decide) (fun i k hi hk hne => ?_) h.1
  have : (i = 0 ∨ i = 1) ∧ (k = 0 ∨ k = 1) := by omega
  obtain ⟨rfl | rfl, rfl | rfl⟩ := this
  · exact h.2.1
  · exact absurd rfl hne
  · exact h.2.2.1
  · exact h.2.2.2

end Examples

end Verif.Props
