import Verif.Props.Driver
import Verif.Proof.Identity
/-
C84: the check of the driver program in floating-point arithmetic.
C83: the command lines of README.md and evaluate.py.
-/
namespace Verif.Props
open Driver Kernel Recursive
variable {α : Type} [Arith α]

/-- What the check of the driver program needs to know about the arithmetic: adding a product with 0
and adding 0 change neither 0 nor a number drawn, and `0 + x * 1` is `x` for a number `x` drawn.  This
holds for doubles in every rounding mode, with and without fused operations, if the numbers drawn are
non-negative and finite (matrix_multiply.cpp:85 draws from `[0, 1)`). -/
structure ExactForIdentity (e : Env α) : Prop where
  mac_one : ∀ p, Arith.mac Arith.zero (e.rand p) e.one = e.rand p
  mac_zero : ∀ x y, (x = Arith.zero ∨ ∃ p, x = e.rand p) → (y = Arith.zero ∨ ∃ p, y = e.rand p) →
    Arith.mac x y Arith.zero = x
  zero_add : ∀ x, (x = Arith.zero ∨ ∃ p, x = e.rand p) → Arith.add Arith.zero x = x
  add_zero : ∀ x, (x = Arith.zero ∨ ∃ p, x = e.rand p) → Arith.add x Arith.zero = x

theorem unit_pad {e : Env α} (h : ExactForIdentity e) (N i j : Nat) (hi : i < N) (hj : j < N) :
    Unit1 e.one (fun k => Tiled.pad N (entryA e N) i k) j := by
  have hp : ∀ k, Tiled.pad N (entryA e N) i k = Arith.zero ∨
      ∃ p, Tiled.pad N (entryA e N) i k = e.rand p := by
    intro k
    unfold Tiled.pad
    split
    · exact .inr ⟨_, rfl⟩
    · exact .inl rfl
  have hr : ∃ p, Tiled.pad N (entryA e N) i j = e.rand p := ⟨_, if_pos ⟨hi, hj⟩⟩
  refine ⟨?_, fun k => h.mac_zero _ _ (.inl rfl) (hp k), fun k => h.mac_zero _ _ (.inr hr) (hp k),
    h.zero_add _ (.inr hr), h.add_zero _ (.inr hr), h.zero_add _ (.inl rfl)⟩
  obtain ⟨p, hp⟩ := hr
  rw [hp]
  exact h.mac_one p

theorem unit_row {e : Env α} (h : ExactForIdentity e) (N i j : Nat) :
    Unit1 e.one (entryA e N i) j :=
  ⟨h.mac_one _, fun _ => h.mac_zero _ _ (.inl rfl) (.inr ⟨_, rfl⟩),
    fun _ => h.mac_zero _ _ (.inr ⟨_, rfl⟩) (.inr ⟨_, rfl⟩), h.zero_add _ (.inr ⟨_, rfl⟩),
    h.add_zero _ (.inr ⟨_, rfl⟩), h.zero_add _ (.inl rfl)⟩

theorem dot_id {e : Env α} (h : ExactForIdentity e) {N i j : Nat} (hj : j < N) :
    dot N (entryA e N i) (fun k => entryB e k j) = entryA e N i j :=
  (unit_row h N i j).dot (fun _ => rfl) hj

private theorem dot_id' {e : Env α} (h : ExactForIdentity e) {N i j : Nat} (hj : j < N) :
    dot N (entryA e N i) (entryB e j) = entryA e N i j :=
  (unit_row h N i j).dot (fun k => by simp only [entryB, eq_comm]) hj

private theorem bdot_id' {e : Env α} (h : ExactForIdentity e) {N bi i j : Nat} (hd : bi ∣ N)
    (hj : j < N) : bdot bi (N / bi) (entryA e N i) (entryB e j) = entryA e N i j :=
  (unit_row h N i j).bdot (fun k => by simp only [entryB, eq_comm])
    (by rw [Nat.div_mul_cancel hd]; exact hj)

private theorem bdot_pad {e : Env α} (h : ExactForIdentity e) {N bs nb i j : Nat} (hi : i < N)
    (hj : j < N) (hK : N ≤ nb * bs) :
    bdot bs nb (fun k => Tiled.pad N (entryA e N) i k) (fun k => Tiled.pad N (entryB e) k j) =
      entryA e N i j := by
  refine ((unit_pad h N i j hi hj).bdot (fun k => ?_) (by omega)).trans (if_pos ⟨hi, hj⟩)
  unfold Tiled.pad entryB
  by_cases hk : k = j
  · rw [if_pos (by omega), if_pos hk]
  · rw [if_neg hk, ite_self]

private theorem entry_id {e : Env α} (h : ExactForIdentity e) {N bi s i j : Nat} (t : Bool)
    (hd : t = true → bi ≠ 0 → 4 ≤ s → bi ∣ N) (hj : j < N) :
    submatrixEntry N (entryA e N) (entryB e) t bi s i j = entryA e N i j := by
  unfold submatrixEntry
  cases t with
  | false => exact dot_id h hj
  | true =>
    rw [if_neg (by decide)]
    split
    · exact dot_id' h hj
    · exact bdot_id' h (hd rfl (by omega) (by omega)) hj

/-- The run passes if the requested program returns `A`. -/
private theorem run_passed' {e : Env α} (h : ExactForIdentity e)
    (hcl : ∀ p, e.close (e.rand p) (e.rand p) = true) (o : Opts) (hh : o.help = false)
    {P : ND (Array α)} {G : Nat → Nat → α} (hreq : Requested e o P)
    (hP : P = ND.pure (rowMajor o.N G))
    (hG : ∀ i, i < o.N → ∀ j, j < o.N → G i j = entryA e o.N i j) :
    main e o = ND.pure (passed e o (rowMajor o.N (entryA e o.N))) := by
  rw [driver_requested e o P hh hreq, hP, show rowMajor o.N G = rowMajor o.N (entryA e o.N) from rect_congr hG]
  refine (ND.pure_bind _ _).trans ?_
  unfold finish
  rw [if_neg (by simp [rect])]
  refine congrArg ND.pure ?_
  unfold passed
  have hacc : Accepts e o.N (rowMajor o.N (entryA e o.N)) := by
    refine ⟨by simp [rect], fun i hi j hj => ⟨_, holds_rect _ _ _ i hi j hj, ?_⟩⟩
    rw [show mulSpec o.N (entryA e o.N) (entryB e) i j = entryA e o.N i j from dot_id h hj]
    exact hcl _
  rw [show std_equal e.close (rowMajor o.N (entryA e o.N)) (reference e o.N) = true from
    (std_equal_iff e.close o.N _ _).2 hacc]

private theorem four_dvd {d : Nat} (h : 4 ≤ 2 ^ d * 1) : 4 ∣ 2 ^ d * 1 := by
  rw [Nat.mul_one] at h ⊢
  have h2d : 2 ≤ d := by
    apply Classical.byContradiction; intro hn
    have : d = 0 ∨ d = 1 := by omega
    rcases this with rfl | rfl <;> simp at h
  exact ⟨2 ^ (d - 2), by rw [show (4 : Nat) = 2 ^ 2 by rfl, ← Nat.pow_add]; congr 1; omega⟩

/-- **C84.** The check passes on the domain of every algorithm, in floating-point arithmetic as well:
every run with admissible parameters ends with status 0 and the matrix `A` itself, bit for bit, as
result; there is no other outcome. -/
theorem C84_check_passes (e : Env α) (hx : ExactForIdentity e)
    (hcl : ∀ p, e.close (e.rand p) (e.rand p) = true) (o : Opts) (hh : o.help = false)
    (h : Admissible e o) :
    main e o = ND.pure (passed e o (rowMajor o.N (entryA e o.N))) := by
  have hA : Holds (vecA e o.N) o.N o.N (entryA e o.N) := holds_rect _ _ _
  have hB : Holds (vecB e o.N) o.N o.N (entryB e) := holds_rect _ _ _
  cases h with
  | single ha hN hbr hbi hr =>
    obtain ⟨k, hk⟩ := hN
    obtain ⟨d, hd, h1, h2⟩ := StaticImproved.halving_stops hbr k
    have hdiv : o.transposed = true → o.block_input ≠ 0 → 4 ≤ 2 ^ d * 1 →
        4 ∣ 2 ^ d * 1 ∧ o.block_input ∣ o.N :=
      fun _ h0 h4 => ⟨four_dvd h4, hbi.resolve_left h0⟩
    refine run_passed' hx hcl o hh (.single ha hr)
      (C10_single o.N (k - d) (2 ^ d * 1) _ _ _ _ o.transposed _ _ _ hA hB ?_ h1 h2 hdiv hr)
      fun i _ j hj => entry_id hx _ (fun h h0 h4 => (hdiv h h0 h4).2) hj
    rw [hk, Nat.mul_one, ← Nat.pow_add]
    congr 1
    omega
  | pseudodynamic ha hN hbr hbi hr hm hl =>
    obtain ⟨k, hk⟩ := hN
    have hdiv : o.transposed = true → o.block_input ≠ 0 → o.block_input ∣ o.N :=
      fun _ h0 => hbi.resolve_left h0
    obtain ⟨G, hG, hE⟩ := C22_pseudodynamic_entries
      ⟨o.min_work_size, o.max_work_difference, e.relOk⟩ o.N k 1 _ _ _ _ o.transposed o.block_result
      o.block_input o.repetitions e.localities hA hB (by rw [hk, Nat.mul_one]) hm hbr hl hr
      fun h h0 => ⟨hdiv h h0, fun d _ h4 => four_dvd h4⟩
    refine run_passed' hx hcl o hh (.pseudodynamic ha) hG fun i hi j hj => ?_
    obtain ⟨d, _, he⟩ := hE i hi j hj
    rw [he]
    exact entry_id hx _ (fun h h0 _ => hdiv h h0) hj
  | algorithms ha ht hbi hbr hdi hdr =>
    exact run_passed' hx hcl o hh (.algorithms ha ht)
      (C24_algorithms o.N _ _ _ _ hA hB _ _ hbi hbr hdi hdr) fun i _ j hj => bdot_id' hx hdi hj
  | looped ha ht hbi hbr hdi hdr =>
    exact run_passed' hx hcl o hh (.looped ha ht)
      (congrArg ND.ofM (C26_looped o.N _ _ _ _ hA hB _ _ hbr hbi hdr hdi).1)
      fun i _ j hj => dot_id' hx hj
  | semi ha ht hbi hdi h4 =>
    exact run_passed' hx hcl o hh (.semi ha ht) (C32_semi o.N _ _ _ _ hA hB _ h4 hbi hdi)
      fun i _ j hj => bdot_id' hx hdi hj
  | combined ha ht hr =>
    refine run_passed' hx hcl o hh (.combined ha ht)
      (C35_combined _ Combined.valid o.N _ _ _ _ hA hB _) fun i hi j hj => ?_
    rw [hr]
    refine bdot_pad hx hi hj ?_
    rw [blocks_mul Combined.valid]
    exact Tiled.le_padded Combined.valid.k3
  | kernel_tiled ha hr =>
    refine run_passed' hx hcl o hh (.kernel_tiled ha)
      (C37_kernel_tiled _ KernelTiled.valid o.N _ _ _ _ hA hB _ _) fun i hi j hj => ?_
    rw [if_neg (by omega)]
    refine bdot_pad hx hi hj ?_
    rw [blocks_mul KernelTiled.valid]
    exact Tiled.le_padded KernelTiled.valid.k3
  | kernel_test ha hs hr =>
    refine run_passed' hx hcl o hh (.kernel_test ha)
      (C39_kernel_test o.N hs _ _ _ _ hA hB _ _ hr) fun i hi j hj => bdot_pad hx hi hj ?_
    unfold ceilDiv
    omega

/-! ### C83: documented command lines -/

/-- A command line as in README.md (N = 8192) and evaluate.py (N = 512, …, 8192; without the option
`--small-block-size`, which the program does not know): `B` transposed, as by default. -/
structure Documented (o : Opts) : Prop where
  help : o.help = false
  size : ∃ k, 9 ≤ k ∧ o.N = 2 ^ k
  transposed : o.transposed = true
  repetitions : 1 ≤ o.repetitions
  block_result : o.block_result = 128
  min_work_size : o.min_work_size = 256
  input : o.block_input = 128 ∨ o.block_input = 0 ∧ o.algorithm ∈ ["single", "pseudodynamic"]

/-- **C83.** The documented commands for `single`, `pseudodynamic`, `kernel_test` and `kernel_tiled`
end with status 0 and the right result in floating-point arithmetic; the same holds for `algorithms`,
`looped` and `semi`, which the help text lists. -/
theorem C83_documented (e : Env α) (hx : ExactForIdentity e)
    (hcl : ∀ p, e.close (e.rand p) (e.rand p) = true) (hl : 1 ≤ e.localities) (o : Opts)
    (h : Documented o) (ha : o.algorithm ∈ ["single", "pseudodynamic", "algorithms", "looped", "semi",
      "kernel_test", "kernel_tiled"]) :
    main e o = ND.pure (passed e o (rowMajor o.N (entryA e o.N))) := by
  obtain ⟨k, hk, hN⟩ := h.size
  have h512 : 512 ∣ o.N := by rw [hN]; exact Nat.pow_dvd_pow 2 hk
  have h128 : o.block_input = 0 ∨ o.block_input ∣ o.N := by
    rcases h.input with hi | hi
    · right; rw [hi]; exact Nat.dvd_trans (by decide) h512
    · exact .inl hi.1
  have hres : o.block_result ∣ o.N := by rw [h.block_result]; exact Nat.dvd_trans (by decide) h512
  have hr0 : 1 ≤ o.block_result := by rw [h.block_result]; decide
  have hin : o.algorithm ∉ ["single", "pseudodynamic"] → 0 < o.block_input := by
    intro hn
    rcases h.input with hi | hi
    · rw [hi]; decide
    · exact absurd hi.2 hn
  refine C84_check_passes e hx hcl o h.help ?_
  simp only [List.mem_cons, List.not_mem_nil, or_false] at ha
  have hin' : ∀ n, o.algorithm = n → n ≠ "single" → n ≠ "pseudodynamic" → 0 < o.block_input ∧
      o.block_input ∣ o.N := by
    intro n hn h1 h2
    have h0 := hin (by rw [hn]; simp [h1, h2])
    exact ⟨h0, h128.resolve_left (by omega)⟩
  rcases ha with ha | ha | ha | ha | ha | ha | ha
  · exact .single ha ⟨k, hN⟩ hr0 h128 h.repetitions
  · exact .pseudodynamic ha ⟨k, hN⟩ hr0 h128 h.repetitions (by rw [h.min_work_size]; decide) hl
  · have hi := hin' _ ha (by decide) (by decide)
    exact .algorithms ha h.transposed hi.1 hr0 hi.2 hres
  · have hi := hin' _ ha (by decide) (by decide)
    exact .looped ha h.transposed hi.1 hr0 hi.2 hres
  · have hi := hin' _ ha (by decide) (by decide)
    exact .semi ha h.transposed hi.1 hi.2 (Nat.dvd_trans (by decide) h512)
  · refine .kernel_test ha (.inr ⟨Nat.dvd_trans (by decide) h512, .inl ?_⟩) h.repetitions
    exact Nat.mod_eq_zero_of_dvd h512
  · exact .kernel_tiled ha h.repetitions

/-- **C83.** The documented command for `combined` does not multiply: it ends with an exception,
because `--transposed=0` is missing. -/
theorem C83_combined (e : Env α) (o : Opts) (h : Documented o) (ha : o.algorithm = "combined") :
    ∃ msg, main e o = ND.fail (.exception msg) :=
  C50_rejected e o h.help (.inr ⟨ha, h.transposed⟩)

/-- **C83.** The sizes shown in README.md for `combined` and `kernel_tiled` with N = 8192. -/
theorem C83_sizes (A B : Array α) (b : Tiled.Blocking)
    (hb : b = Combined.blocking ∨ b = KernelTiled.blocking) (p : Tiled.Padded α)
    (h : Tiled.setup b 8192 A B = .ok p) :
    p.X_size = 8400 ∧ p.Y_size = 8192 ∧ p.K_size = 8192 := by
  have hv : b.Valid := by
    rcases hb with rfl | rfl
    · exact Combined.valid
    · exact KernelTiled.valid
  have hL : b.L3_X = 420 ∧ b.L3_Y = 256 ∧ b.L3_K_STEP = 256 := by
    rcases hb with rfl | rfl <;> exact ⟨rfl, rfl, rfl⟩
  obtain ⟨⟨h1, h2, h3⟩, ⟨h4, h5, h6⟩, h7, h8, h9⟩ := C40_padding b hv 8192 A B p h
  rw [hL.1] at h1 h3
  rw [hL.2.1] at h4 h6
  rw [hL.2.2] at h7 h9
  have := h3 8400 ⟨20, rfl⟩ (by decide)
  have := h6 8192 ⟨32, rfl⟩ (by decide)
  have := h9 8192 ⟨32, rfl⟩ (by decide)
  omega

/-- **C83.** The help text says that 0 disables `block-result`: `single` then returns the zero
matrix with status 0, and the check passes exactly if 0 is close to all numbers drawn. -/
theorem C83_block_result_zero (e : Env α) (hx : ExactForIdentity e) (o : Opts) (hh : o.help = false)
    (ha : o.algorithm = "single") (hr : 1 ≤ o.repetitions) (hb : o.block_result = 0)
    (hroot : e.root = true) (hc : o.check = true) :
    ∃ b, main e o = ND.pure ⟨0, false, some b, rowMajor o.N fun _ _ => Arith.zero⟩ ∧
      (b = true ↔ ∀ p, p < o.N * o.N → e.close Arith.zero (e.rand p) = true) := by
  refine ⟨std_equal e.close (rowMajor o.N fun _ _ => Arith.zero) (reference e o.N), ?_, ?_⟩
  · rw [driver_requested e o _ hh (.single ha hr), hb, C12_block_result_zero]
    refine (ND.pure_bind _ _).trans ?_
    unfold finish
    rw [if_neg (by simp [rect])]
    simp only [hroot, hc, Bool.and_self, if_true]
  · refine (std_equal_iff e.close o.N _ _).trans ?_
    constructor
    · rintro ⟨_, h⟩ p hp
      have hN : 0 < o.N := Nat.pos_of_ne_zero fun h0 => by rw [h0] at hp; omega
      have hi : p / o.N < o.N := Nat.div_lt_of_lt_mul hp
      have hj : p % o.N < o.N := Nat.mod_lt _ hN
      obtain ⟨c, hc, hcl⟩ := h _ hi _ hj
      rw [holds_rect _ _ _ _ hi _ hj] at hc
      cases hc
      rw [show mulSpec o.N (entryA e o.N) (entryB e) (p / o.N) (p % o.N) =
        entryA e o.N (p / o.N) (p % o.N) from dot_id hx hj] at hcl
      unfold entryA at hcl
      rw [Nat.div_add_mod' p o.N] at hcl
      exact hcl
    · intro h
      refine ⟨by simp [rect], fun i hi j hj => ⟨_, holds_rect _ _ _ i hi j hj, ?_⟩⟩
      rw [show mulSpec o.N (entryA e o.N) (entryB e) i j = entryA e o.N i j from dot_id hx hj]
      exact h _ (idx_lt hi hj)

section Examples

/-- numbers from -15 to 15 with saturation: `(10 + 10) - 10` is 5, `10 + (10 - 10)` is 10 -/
private def clamp (x : Int) : Int := max (-15) (min 15 x)

@[reducible] private def sat : Arith Int where
  zero := 0
  add x y := clamp (x + y)
  mac acc x y := clamp (acc + clamp (x * y))

private def env : Env Int where
  one := 1
  rand k := (k * 7 + 3) % 16
  close x y := x == y
  absDiff x y := (x - y).natAbs
  root := true
  localities := 3
  relOk _ _ := false
  junk _ := #[]

-- not associative
example : sat.add (sat.add 10 10) (-10) ≠ sat.add 10 (sat.add 10 (-10)) := by decide

private theorem env_exact : @ExactForIdentity Int sat env := by
  have hr : ∀ x : Int, (x = 0 ∨ ∃ p, x = env.rand p) → 0 ≤ x ∧ x ≤ 15 := by
    rintro x (rfl | ⟨p, rfl⟩)
    · decide
    · show 0 ≤ ((p : Int) * 7 + 3) % 16 ∧ ((p : Int) * 7 + 3) % 16 ≤ 15
      omega
  have hc : ∀ x : Int, 0 ≤ x → x ≤ 15 → clamp x = x := by
    intro x h1 h2
    unfold clamp
    omega
  refine @ExactForIdentity.mk Int sat env (fun p => ?_) (fun x y hx hy => ?_) (fun x hx => ?_)
    (fun x hx => ?_)
  · obtain ⟨h1, h2⟩ := hr _ (.inr ⟨p, rfl⟩)
    show clamp (0 + clamp (env.rand p * 1)) = env.rand p
    rw [Int.mul_one, hc _ h1 h2, Int.zero_add, hc _ h1 h2]
  · obtain ⟨h1, h2⟩ := hr x hx
    show clamp (x + clamp (y * 0)) = x
    rw [Int.mul_zero, hc 0 (by decide) (by decide), Int.add_zero, hc _ h1 h2]
  · obtain ⟨h1, h2⟩ := hr x hx
    show clamp (0 + x) = x
    rw [Int.zero_add, hc _ h1 h2]
  · obtain ⟨h1, h2⟩ := hr x hx
    show clamp (x + 0) = x
    rw [Int.add_zero, hc _ h1 h2]

private theorem env_close (p : Nat) : env.close (env.rand p) (env.rand p) = true := by simp [env]

-- a checked run on three localities
example : let _ := sat
    main env { N := 64, check := true, algorithm := "pseudodynamic", block_input := 16 } =
      ND.pure ⟨0, false, some true, rowMajor 64 (entryA env 64)⟩ :=
  @C84_check_passes Int sat env env_exact env_close _ rfl
    (@Admissible.pseudodynamic Int env _ rfl ⟨6, rfl⟩ (by decide) (.inr ⟨4, rfl⟩) (by decide)
      (by decide) (by decide))

private def readme (algorithm : String) : Opts := { N := 8192, algorithm := algorithm }

private theorem documented (algorithm : String) : Documented (readme algorithm) :=
  ⟨rfl, ⟨13, by decide, rfl⟩, rfl, Nat.le_refl 1, rfl, rfl, .inl rfl⟩

example : let _ := sat
    main env (readme "single") = ND.pure ⟨0, false, none, rowMajor 8192 (entryA env 8192)⟩ :=
  @C83_documented Int sat env env_exact env_close (by decide) _ (documented _) (by decide)

example : let _ := sat
    ∃ msg, main env (readme "combined") = ND.fail (.exception msg) :=
  @C83_combined Int sat env _ (documented _) rfl

-- the command line of evaluate.py without input blocking
example : Documented
    { N := 512, repetitions := 10, algorithm := "pseudodynamic", max_work_difference := 0, block_input := 0 } :=
  ⟨rfl, ⟨9, by decide, rfl⟩, rfl, by decide, rfl, rfl, .inr ⟨rfl, by decide⟩⟩

-- `--block-result 0` fails the check here
example : let _ := sat
    ∃ C, main env { N := 2, check := true, block_result := 0 } = ND.pure ⟨0, false, some false, C⟩ := by
  obtain ⟨b, h, hb⟩ := @C83_block_result_zero Int sat env env_exact
    { N := 2, check := true, block_result := 0 } rfl rfl (by decide) rfl rfl rfl
  cases b with
  | false => exact ⟨_, h⟩
  | true => exact absurd (hb.1 rfl 0 (by decide)) (by decide)

-- C83_sizes: the constructor completes
example (A B : Array Int) (hA : A.size = 8192 * 8192) (hB : B.size = 8192 * 8192) :
    ∃ p, @Tiled.setup Int sat KernelTiled.blocking 8192 A B = .ok p ∧ p.X_size = 8400 := by
  obtain ⟨p, hp⟩ := @C40_completes Int sat KernelTiled.blocking KernelTiled.valid 8192 A B hA hB
  exact ⟨p, hp, (@C83_sizes Int sat A B _ (.inr rfl) p hp).1⟩

end Examples

end Verif.Props
