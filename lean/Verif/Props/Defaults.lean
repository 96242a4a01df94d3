import Verif.Props.ExactDomain
import Verif.Props.Balance
import Verif.Props.Driver
import Mathlib.Data.Nat.Factorization.Basic
import Mathlib.Tactic.Ring
/-
C112: the program with the default block sizes.
-/
set_option linter.unusedSectionVars false
namespace Verif.Props
open Verif Verif.Driver
variable {α : Type} [Arith α]

/-- `--n-value N --algorithm a --check c --verbose v`, everything else as it is by default. -/
def usual (N : Nat) (a : String) (c : Bool) (v : Nat) : Opts :=
  { N := N, algorithm := a, check := c, verbose := v }

private theorem holds_b {R : Type} [Semiring R] (e : Env R) (h1 : e.one = 1) (N : Nat) :
    Holds (@vecB R (exact R) e N) N N idMat := by
  have : @entryB R (exact R) e = idMat := by
    funext i j
    simp only [entryB, idMat, h1]
    rfl
  unfold vecB
  rw [this]
  exact holds_rect _ _ _

/-- **C112.** Whenever the algorithm multiplies all matrices of that size (C110), the program ends
with status 0 and the matrix `A`, and a check passes; there is no other outcome. -/
theorem C112_domain {R : Type} [Semiring R] (e : Env R) (h1 : e.one = 1)
    (hcl : ∀ x, e.close x x = true) (o : Opts) (hh : o.help = false) (t : Bool)
    (f : Array R → Array R → ND (Array R))
    (hreq : @Requested R (exact R) e o (f (vecA e o.N) (@vecB R (exact R) e o.N)))
    (hf : Multiplies R t o.N f) :
    @main R (exact R) e o = ND.pure (passed e o (rowMajor o.N (entryA e o.N))) := by
  have hP := hf (vecA e o.N) (@vecB R (exact R) e o.N) (entryA e o.N) idMat (holds_rect _ _ _)
    (holds_b e h1 o.N) (by simp [vecA, rect]) (by simp [vecB, rect])
  have hprod : (rowMajor o.N fun i j => ∑ k ∈ Finset.range o.N,
      entryA e o.N i k * (if t then (idMat : Nat → Nat → R) j k else idMat k j)) =
      rowMajor o.N (entryA e o.N) := by
    refine rect_congr fun i hi j hj => ?_
    have : ∀ k, (if t then (idMat : Nat → Nat → R) j k else idMat k j) = idMat k j := by
      intro k
      cases t with
      | false => rfl
      | true => rw [if_pos rfl, show (idMat j k : R) = idMat k j from congrFun (congrFun idMat_tr k) j]
    simp only [this]
    exact (C49_neutral o.N _ i j hi hj).1
  rw [hprod] at hP
  rw [@driver_requested R (exact R) e o _ hh hreq, hP]
  refine (ND.pure_bind _ _).trans ?_
  unfold finish
  rw [if_neg (by simp [rect])]
  refine congrArg ND.pure ?_
  have hacc : @std_equal R e.close (rowMajor o.N (entryA e o.N)) (@reference R (exact R) e o.N) =
      true := by
    refine (@std_equal_iff R (exact R) e.close o.N _ _).2 ((C52_check_is_A e h1 o.N _).2
      ⟨by simp [rect], fun i hi j hj => ⟨_, holds_rect _ _ _ i hi j hj, hcl _⟩⟩)
  simp only [hacc]
  rfl

private theorem exists_scale (m : Nat) (h0 : 0 < m) (h : m ≤ 128) :
    ∃ j, 64 < 2 ^ j * m ∧ 2 ^ j * m ≤ 128 := by
  have key : ∀ k m, 0 < m → m ≤ 128 → 128 - m ≤ k → ∃ j, 64 < 2 ^ j * m ∧ 2 ^ j * m ≤ 128 := by
    intro k
    induction k with
    | zero => exact fun m _ h hk => ⟨0, by omega, by omega⟩
    | succ k ih =>
      intro m h0 h hk
      rcases Nat.lt_or_ge 64 m with h' | h'
      · exact ⟨0, by omega, by omega⟩
      · obtain ⟨j, hj1, hj2⟩ := ih (2 * m) (by omega) (by omega) (by omega)
        refine ⟨j + 1, ?_, ?_⟩ <;> rw [Nat.pow_succ, Nat.mul_assoc] <;> assumption
  exact key _ m h0 h (Nat.le_refl _)

/-- The sizes that can be halved down to 128 with blocks that fit. -/
private theorem fits_iff (N : Nat) :
    (HalvesTo 128 N ∧ InputFits N true 128 (leafSize 128 N)) ↔
      N ≤ 3 ∨ ∃ a m, 7 ≤ a ∧ m < 32 ∧ N = 2 ^ a * m := by
  constructor
  · rintro ⟨⟨e, s, rfl, hs, he⟩, hI⟩
    rw [leafSize_halves hs he] at hI
    rcases Nat.lt_or_ge s 4 with h4 | h4
    · left
      rcases Nat.eq_zero_or_pos e with rfl | h0
      · omega
      · have := he 0 h0
        omega
    · right
      obtain ⟨⟨t, rfl⟩, hd⟩ := hI rfl (by decide) h4
      obtain ⟨b, m, hm, rfl⟩ := Nat.exists_eq_two_pow_mul_odd (n := t) (by omega)
      have hN : 2 ^ e * (4 * (2 ^ b * m)) = 2 ^ (e + 2 + b) * m := by
        rw [Nat.pow_add, Nat.pow_add]; ring
      refine ⟨e + 2 + b, m, ?_, ?_, hN⟩
      · rw [hN] at hd
        have hc : Nat.Coprime (2 ^ 7) m := Nat.Coprime.pow_left 7 hm.coprime_two_left
        exact (Nat.pow_dvd_pow_iff_le_right (by decide)).1
          (hc.dvd_of_dvd_mul_right (show 2 ^ 7 ∣ 2 ^ (e + 2 + b) * m from hd))
      · have h1 : 1 * m ≤ 2 ^ b * m := Nat.mul_le_mul_right _ (Nat.two_pow_pos b)
        obtain ⟨c, hc⟩ := hm
        omega
  · intro h
    by_cases h3 : N ≤ 3
    · have hl : leafSize 128 N = N := leafSize_le (by omega)
      refine ⟨⟨0, N, by omega, by omega, fun d hd => by omega⟩, ?_⟩
      rw [hl]
      intro _ _ h4
      omega
    · obtain ⟨a, m, ha, hm, rfl⟩ := h.resolve_left h3
      have h0 : 0 < m := Nat.pos_of_ne_zero fun h => by rw [h] at h3; omega
      obtain ⟨j, hj1, hj2⟩ := exists_scale m h0 (by omega)
      have hj : 2 ≤ j := by
        by_contra hj
        obtain rfl | rfl : j = 0 ∨ j = 1 := by omega
        all_goals omega
      have hj7 : j ≤ 7 := by
        by_contra hj7
        have h1 : 2 ^ 8 ≤ 2 ^ j := Nat.pow_le_pow_right (by decide) (by omega)
        have h2 : 2 ^ j * 1 ≤ 2 ^ j * m := Nat.mul_le_mul_left _ h0
        omega
      have hN : 2 ^ a * m = 2 ^ (a - j) * (2 ^ j * m) := by
        rw [← Nat.mul_assoc, ← Nat.pow_add, Nat.sub_add_cancel (by omega)]
      have he : ∀ d, d < a - j → 128 < 2 ^ (d + 1) * (2 ^ j * m) := by
        intro d _
        have : 2 ^ 1 * (2 ^ j * m) ≤ 2 ^ (d + 1) * (2 ^ j * m) :=
          Nat.mul_le_mul_right _ (Nat.pow_le_pow_right (by decide) (by omega))
        omega
      refine ⟨⟨a - j, 2 ^ j * m, hN, hj2, he⟩, ?_⟩
      have hl : leafSize 128 (2 ^ a * m) = 2 ^ j * m := by rw [hN]; exact leafSize_halves hj2 he
      rw [hl]
      intro _ _ _
      exact ⟨Dvd.dvd.mul_right (Nat.pow_dvd_pow 2 hj) m, Dvd.dvd.mul_right (Nat.pow_dvd_pow 2 ha) m⟩

/-- **C112.** `single` with the default block sizes multiplies all matrices of size `N` if and only
if `N ≤ 3` or `N` is a multiple of 128 without odd factor of 32 or more. -/
theorem C112_single (R : Type) [Semiring R] [Nontrivial R] (N reps : Nat) (hr : 0 < reps) :
    Multiplies R true N (fun A B =>
      @Recursive.single_matrix_multiply R (exact R) N A B true 128 128 reps) ↔
      N ≤ 3 ∨ ∃ a m, 7 ≤ a ∧ m < 32 ∧ N = 2 ^ a * m := by
  rw [C110_single R N true 128 128 reps]
  constructor
  · rintro (rfl | ⟨_, h⟩)
    · exact .inl (by decide)
    · exact (fits_iff N).1 h
  · intro h
    exact .inr ⟨hr, (fits_iff N).2 h⟩

private theorem pow2_lt {k : Nat} (h : k ≤ 6) : 2 ^ k < 128 :=
  Nat.lt_of_le_of_lt (Nat.pow_le_pow_right (by decide) h) (by decide)

private theorem pow2_not_dvd {k : Nat} (h : k ≤ 6) : ¬ 128 ∣ 2 ^ k := fun hd =>
  absurd (Nat.le_of_dvd (Nat.two_pow_pos k) hd) (Nat.not_le.2 (pow2_lt h))

private theorem pow2_fits {k : Nat} (h : ¬ (2 ≤ k ∧ k ≤ 6)) :
    2 ^ k ≤ 3 ∨ ∃ a m, 7 ≤ a ∧ m < 32 ∧ 2 ^ k = 2 ^ a * m := by
  rcases Nat.lt_or_ge 6 k with h6 | h6
  · exact .inr ⟨k, 1, h6, by decide, by omega⟩
  · obtain rfl | rfl : k = 0 ∨ k = 1 := by omega
    all_goals exact .inl (by decide)

private theorem failed {e : Env α} {o : Opts} {P : ND (Array α)} (hh : o.help = false)
    (h : Requested e o P) (hP : P = ND.fail .oob) : main e o = ND.fail .oob := by
  rw [driver_requested e o P hh h, hP]
  exact ND.fail_bind _ _

/-- **C112**, powers of two, `single`: up to 2 and from 128 on the program works, for 4, 8, 16, 32
and 64 it accesses memory out of bounds. -/
theorem C112_pow2_single {R : Type} [Semiring R] [Nontrivial R] (e : Env R) (h1 : e.one = 1)
    (hcl : ∀ x, e.close x x = true) (k : Nat) (c : Bool) (v : Nat) :
    @main R (exact R) e (usual (2 ^ k) "single" c v) =
      if 2 ≤ k ∧ k ≤ 6 then ND.fail .oob
      else ND.pure (passed e (usual (2 ^ k) "single" c v) (rowMajor (2 ^ k) (entryA e (2 ^ k)))) := by
  let _ := exact R
  split
  · next h =>
    exact C59_driver_ub e (usual (2 ^ k) "single" c v) rfl rfl rfl
      (Nat.pow_le_pow_right (n := 2) (by decide) h.1) (Nat.le_of_lt (pow2_lt h.2)) (Nat.succ_ne_zero 127)
      (pow2_not_dvd h.2) (Nat.le_refl 1)
  · next h =>
    exact C112_domain e h1 hcl (usual (2 ^ k) "single" c v) rfl true _ (.single rfl (Nat.le_refl 1))
      ((C112_single R (2 ^ k) 1 (by decide)).2 (pow2_fits h))

/-- **C112**, powers of two, `pseudodynamic`: the same on any number of localities. -/
theorem C112_pow2_pseudodynamic {R : Type} [Semiring R] [Nontrivial R] (e : Env R) (h1 : e.one = 1)
    (hcl : ∀ x, e.close x x = true) (hL : 0 < e.localities) (k : Nat) (c : Bool) (v : Nat) :
    @main R (exact R) e (usual (2 ^ k) "pseudodynamic" c v) =
      if 2 ≤ k ∧ k ≤ 6 then ND.fail .oob
      else ND.pure (passed e (usual (2 ^ k) "pseudodynamic" c v)
        (rowMajor (2 ^ k) (entryA e (2 ^ k)))) := by
  let _ := exact R
  rcases Nat.lt_or_ge 6 k with h6 | h6
  · rw [if_neg (by omega)]
    exact C60_check_passes e h1 hcl (usual (2 ^ k) "pseudodynamic" c v) rfl
      (.pseudodynamic rfl ⟨k, rfl⟩ (Nat.succ_pos 127) (.inr (Nat.pow_dvd_pow 2 h6)) (Nat.le_refl 1) (Nat.succ_pos 255) hL)
  · have hlt := pow2_lt h6
    have h0 := Nat.two_pow_pos k
    obtain ⟨aw, haw, _⟩ := (C15_schedule_terminates ⟨256, 10000, e.relOk⟩ (2 ^ k)
      (if 1 < e.localities then e.localities - 1 else e.localities) (by split <;> omega)).1
    have haw' := C111_one_worker ⟨256, 10000, e.relOk⟩ (2 ^ k) _ (by show 2 ^ k ≤ 256; omega) aw haw
    have hmem : ∀ ws ∈ aw, ∀ w ∈ ws, w = ⟨0, 0, 2 ^ k⟩ := by
      intro ws hws w hw
      rw [haw'] at hws
      rcases List.mem_cons.1 hws with rfl | hws
      · simpa using hw
      · rw [(List.mem_replicate.1 hws).2] at hw
        cases hw
    have hfirst : ([⟨0, 0, 2 ^ k⟩] : List StaticImproved.Work) ∈ aw := by
      rw [haw']; exact List.mem_cons_self ..
    split
    · next h =>
      refine failed (o := usual (2 ^ k) "pseudodynamic" c v) rfl (.pseudodynamic rfl)
        (C107_pseudodynamic_ub _ _ _ _ _ _ _ _ _ aw (by simp [vecA, rect]) (by simp [vecB, rect])
          haw ?_ (Nat.le_refl 1))
      intro hl
      have h4 : 2 ^ 2 ≤ 2 ^ k := Nat.pow_le_pow_right (by decide) h.1
      have : LeafIn (2 ^ k) true 128 (leafSize 128 (2 ^ k)) (0 + extent 128 (2 ^ k))
          (0 + extent 128 (2 ^ k)) := hl _ hfirst _ (List.mem_cons_self ..)
      rw [leafSize_le (show (2 ^ k) ≤ 128 by omega), extent_le (show (2 ^ k) ≤ 128 by omega)] at this
      have hx := (this rfl (Nat.succ_ne_zero 127) h4).2.1
      have hc : ceilDiv (2 ^ k) 128 = 1 := by
        unfold ceilDiv
        generalize 2 ^ k = n at *
        omega
      have hx' : (0 + 2 ^ k - 1) * 2 ^ k + ceilDiv (2 ^ k) 128 * 128 ≤ 2 ^ k * 2 ^ k := hx
      rw [hc, Nat.zero_add, Nat.sub_mul] at hx'
      have := Nat.le_mul_self (2 ^ k)
      omega
    · next h =>
      refine C112_domain e h1 hcl (usual (2 ^ k) "pseudodynamic" c v) rfl true _ (.pseudodynamic rfl)
        ((C110_pseudodynamic R _ _ _ _ _ _ _ aw haw h0).2 ⟨(Nat.le_refl 1), ?_, ?_⟩)
      · intro r c' hr hc
        exact ⟨_, hfirst, _, List.mem_cons_self .., by
          unfold StaticImproved.Covers; simpa using ⟨hr, hc⟩⟩
      · intro ws hws w hw
        rw [hmem ws hws w hw]
        exact (fits_iff (2 ^ k)).2 (pow2_fits h)

/-- **C112**, powers of two, `algorithms` and `semi`: they work from 128 on; below that they access
memory out of bounds. -/
theorem C112_pow2_fixed {R : Type} [Semiring R] (e : Env R) (h1 : e.one = 1)
    (hcl : ∀ x, e.close x x = true) (a : String) (ha : a = "algorithms" ∨ a = "semi") (k : Nat)
    (c : Bool) (v : Nat) :
    @main R (exact R) e (usual (2 ^ k) a c v) =
      if k ≤ 6 then ND.fail .oob
      else ND.pure (passed e (usual (2 ^ k) a c v) (rowMajor (2 ^ k) (entryA e (2 ^ k)))) := by
  let _ := exact R
  have h0 := Nat.two_pow_pos k
  split
  · next h =>
    have hnd := pow2_not_dvd h
    rcases ha with rfl | rfl
    · refine failed (o := usual (2 ^ k) "algorithms" c v) rfl (.algorithms rfl rfl) ?_
      have hnd' := C25_nondividing (2 ^ k) (vecA e (2 ^ k)) (vecB e (2 ^ k)) 128 128
        (by simp [vecA, rect]) h0 (by decide) (by decide) (fun h => hnd h.1)
      obtain ⟨o, ho⟩ := C25_outcome (2 ^ k) (vecA e (2 ^ k)) (vecB e (2 ^ k)) 128 128 (by decide)
      funext o'
      refine propext ⟨fun h => hnd' o' h, fun h => ?_⟩
      cases h
      rwa [hnd' o ho] at ho
    · refine failed (o := usual (2 ^ k) "semi" c v) rfl (.semi rfl rfl) ?_
      funext o
      refine propext ((C33_oob _ _ _ _ _ (holds_rect _ _ _) (holds_rect _ _ _) _ h0 (by decide)
        (fun h => hnd h.2) o).trans ?_)
      rfl
  · next h =>
    have hd : 128 ∣ 2 ^ k := Nat.pow_dvd_pow 2 (show 7 ≤ k by omega)
    rcases ha with rfl | rfl
    · exact C60_check_passes e h1 hcl (usual (2 ^ k) "algorithms" c v) rfl
        (.algorithms rfl rfl (Nat.succ_pos 127) (Nat.succ_pos 127) hd hd)
    · exact C60_check_passes e h1 hcl (usual (2 ^ k) "semi" c v) rfl
        (.semi rfl rfl (Nat.succ_pos 127) hd (Nat.dvd_trans (by decide) hd))

/-- **C112**, powers of two, `looped`: it works from 128 on; below that the result is the zero
matrix, and a check passes exactly if all random numbers are close to zero. -/
theorem C112_pow2_looped {R : Type} [Semiring R] (e : Env R) (h1 : e.one = 1)
    (hcl : ∀ x, e.close x x = true) (k : Nat) (c : Bool) (v : Nat) :
    (k ≤ 6 → ∃ b, @main R (exact R) e (usual (2 ^ k) "looped" c v) =
        ND.pure ⟨0, false, if e.root && c then some b else none, rowMajor (2 ^ k) fun _ _ => 0⟩ ∧
      (b = true ↔ ∀ p, p < 2 ^ k * 2 ^ k → e.close 0 (e.rand p) = true)) ∧
    (7 ≤ k → @main R (exact R) e (usual (2 ^ k) "looped" c v) =
      ND.pure (passed e (usual (2 ^ k) "looped" c v) (rowMajor (2 ^ k) (entryA e (2 ^ k))))) := by
  let _ := exact R
  constructor
  · intro h
    refine ⟨std_equal e.close (rowMajor (2 ^ k) fun _ _ => 0) (reference e (2 ^ k)), ?_, ?_⟩
    · rw [driver_requested e (usual (2 ^ k) "looped" c v) _ rfl (.looped rfl rfl)]
      show ND.ofM (Looped.matrix_multiply (2 ^ k) (vecA e (2 ^ k)) (vecB e (2 ^ k)) 128 128) >>= _ = _
      rw [C109_looped_exact (2 ^ k) (vecA e (2 ^ k)) (vecB e (2 ^ k)) _ _ (holds_rect _ _ _)
        (holds_rect _ _ _) (by simp [vecA, rect]) 128 128 (by decide) (by decide), if_neg (pow2_not_dvd h),
        if_pos (.inl (pow2_lt h))]
      refine (ND.pure_bind _ _).trans ?_
      unfold finish
      rw [if_neg (by show ¬ (_ ∧ _ < 2 ^ k * 2 ^ k); simp [rect])]
      rfl
    · refine ((std_equal_iff e.close (2 ^ k) _ _).trans (C52_check_is_A e h1 (2 ^ k) _)).trans ?_
      constructor
      · rintro ⟨_, h⟩ p hp
        have hi : p / 2 ^ k < 2 ^ k := Nat.div_lt_of_lt_mul hp
        have hj : p % 2 ^ k < 2 ^ k := Nat.mod_lt _ (Nat.two_pow_pos k)
        obtain ⟨x, hx, hcl⟩ := h _ hi _ hj
        rw [holds_rect _ _ _ _ hi _ hj] at hx
        cases hx
        rwa [Nat.div_add_mod' p (2 ^ k)] at hcl
      · intro h
        exact ⟨by simp [rect], fun i hi j hj => ⟨_, holds_rect _ _ _ i hi j hj, h _ (idx_lt hi hj)⟩⟩
  · intro h
    have hd : 128 ∣ 2 ^ k := Nat.pow_dvd_pow 2 h
    exact C60_check_passes e h1 hcl (usual (2 ^ k) "looped" c v) rfl
      (.looped rfl rfl (Nat.succ_pos 127) (Nat.succ_pos 127) hd hd)

/-- **C112**, powers of two, the algorithms without block sizes: `combined` always raises,
`kernel_tiled` always works, `kernel_test` works from 512 on and accesses memory that is out of
bounds or not aligned below that, `proposal` never returns. -/
theorem C112_pow2_others {R : Type} [Semiring R] (e : Env R) (h1 : e.one = 1)
    (hcl : ∀ x, e.close x x = true) (k : Nat) (c : Bool) (v : Nat) :
    (∃ msg, @main R (exact R) e (usual (2 ^ k) "combined" c v) = ND.fail (.exception msg)) ∧
    @main R (exact R) e (usual (2 ^ k) "kernel_tiled" c v) =
      ND.pure (passed e (usual (2 ^ k) "kernel_tiled" c v) (rowMajor (2 ^ k) (entryA e (2 ^ k)))) ∧
    (9 ≤ k → @main R (exact R) e (usual (2 ^ k) "kernel_test" c v) =
      ND.pure (passed e (usual (2 ^ k) "kernel_test" c v) (rowMajor (2 ^ k) (entryA e (2 ^ k))))) ∧
    (k ≤ 8 → ∀ o, @main R (exact R) e (usual (2 ^ k) "kernel_test" c v) o →
      o = .error .oob ∨ o = .error .misaligned) ∧
    ∀ rep, ¬ @main R (exact R) e (usual (2 ^ k) "proposal" c v) (.ok rep) := by
  let _ := exact R
  refine ⟨C50_rejected e (usual (2 ^ k) "combined" c v) rfl (.inr ⟨rfl, rfl⟩),
    C60_check_passes e h1 hcl (usual (2 ^ k) "kernel_tiled" c v) rfl (.kernel_tiled rfl (Nat.le_refl 1)),
    fun h => C60_check_passes e h1 hcl (usual (2 ^ k) "kernel_test" c v) rfl
      (.kernel_test rfl ?_ (Nat.le_refl 1)), fun h o ho => ?_, fun rep h => ?_⟩
  · right
    have hd : 512 ∣ 2 ^ k := Nat.pow_dvd_pow 2 h
    exact ⟨Nat.dvd_trans (by decide) hd, .inl (Nat.mod_eq_zero_of_dvd hd)⟩
  · have hlt : 2 ^ k ≤ 2 ^ 8 := Nat.pow_le_pow_right (by decide) h
    have h0 := Nat.two_pow_pos k
    have hns : ¬ SafeSize (2 ^ k) := by
      unfold SafeSize
      omega
    have := (C39_kernel_test_ub (2 ^ k) hns (vecA e (2 ^ k)) (vecB e (2 ^ k)) true 1 (by decide)).2
    rw [driver_requested e (usual (2 ^ k) "kernel_test" c v) _ rfl (.kernel_test rfl)] at ho
    rcases ho with ⟨x, hx, rfl⟩ | ⟨C, hC, _⟩
    · rcases this _ hx with h' | h'
      · cases h'; exact .inl rfl
      · cases h'; exact .inr rfl
    · rcases this _ hC with h' | h' <;> cases h'
  · rw [driver_requested e (usual (2 ^ k) "proposal" c v) _ rfl (.proposal rfl)] at h
    rcases h with ⟨x, _, hx⟩ | ⟨C, hC, _⟩
    · cases hx
    · obtain ⟨x, _, hx⟩ := MemoryLayout.bind_ok' (show Proposal.run _ _ _ _ _ = .ok C from hC.symm)
      exact C47_never_returns _ _ _ _ hx

section Examples
attribute [local instance] exact

/-- an environment: five localities, the numbers 3, 10, 17, … as random numbers, tolerance 0 -/
private def five : Env Int where
  one := 1
  rand k := 7 * k + 3
  close x y := x == y
  absDiff x y := (x - y).natAbs
  root := true
  localities := 5
  relOk _ _ := false
  junk _ := #[]

private theorem five_close : ∀ x, five.close x x = true := fun x => by simp [five]

-- 3 * 2^7, 31 * 2^9: yes; 33 * 2^7 and 100: no
example : Multiplies Int true 384 (fun A B => Recursive.single_matrix_multiply 384 A B true 128 128 1) :=
  (C112_single Int 384 1 (by decide)).2 (.inr ⟨7, 3, by decide, by decide, by decide⟩)

example : ¬ Multiplies Int true 100
    (fun A B => Recursive.single_matrix_multiply 100 A B true 128 128 1) := by
  rw [C112_single Int 100 1 (by decide)]
  rintro (h | ⟨a, m, ha, _, h⟩)
  · omega
  · have : 128 ∣ 100 := h ▸ Dvd.dvd.mul_right (Nat.pow_dvd_pow 2 ha) m
    omega

example : ¬ Multiplies Int true 4224
    (fun A B => Recursive.single_matrix_multiply 4224 A B true 128 128 1) := by
  rw [C112_single Int 4224 1 (by decide)]
  rintro (h | ⟨a, m, ha, hm, h⟩)
  · omega
  · obtain ⟨b, rfl⟩ : ∃ b, a = 7 + b := ⟨a - 7, by omega⟩
    rw [Nat.pow_add] at h
    rcases b with _ | b
    · omega
    · have : 2 ^ 7 * 2 ^ (b + 1) * m = 256 * (2 ^ b * m) := by ring
      omega

example : main five (usual 2 "single" true 0) = ND.pure ⟨0, false, some true, #[3, 10, 17, 24]⟩ :=
  (C112_pow2_single five rfl five_close 1 true 0).trans (by
    rw [if_neg (by decide)]; exact congrArg ND.pure (by rfl))

example : main five (usual 32 "pseudodynamic" true 0) = ND.fail .oob :=
  (C112_pow2_pseudodynamic five rfl five_close (by decide) 5 true 0).trans (if_pos (by decide))

example : main five (usual 1 "semi" false 0) = ND.fail .oob :=
  (C112_pow2_fixed five rfl five_close "semi" (.inr rfl) 0 false 0).trans (if_pos (by decide))

-- `looped` with N = 2: zeros, and the check fails
example : main five (usual 2 "looped" true 0) = ND.pure ⟨0, false, some false, #[0, 0, 0, 0]⟩ := by
  obtain ⟨b, h, hb⟩ := (C112_pow2_looped five rfl five_close 1 true 0).1 (by decide)
  have : b = false := by
    cases b with
    | false => rfl
    | true => exact absurd (hb.1 rfl 0 (by decide)) (by decide)
  subst this
  exact h.trans (congrArg ND.pure (by rfl))

example : main five (usual (2 ^ 20) "kernel_test" true 0) = ND.pure (passed five
    (usual (2 ^ 20) "kernel_test" true 0) (rowMajor (2 ^ 20) (entryA five (2 ^ 20)))) :=
  (C112_pow2_others five rfl five_close 20 true 0).2.2.1 (by decide)

end Examples

end Verif.Props
