import Verif.Proof.StaticImproved
import Verif.Props.Kernel
/-
Properties C15–C23: the load-balancing scheduler and the distributed multiplication
(/repo/src/variants/static_improved.cpp, pseudodynamic.cpp).
-/
set_option linter.unusedSectionVars false
namespace Verif.Props
open Verif.Kernel Verif.Recursive Verif.StaticImproved
variable {α : Type} [Arith α]

theorem iter_inv {p : Params} {N L k : Nat} {s : Sched} (hL : 0 < L) (h : Iter p N L k s) :
    Inv p N L s ∧ cubes s + k ≤ N ^ 3 := by
  induction h with
  | start =>
    refine ⟨Inv.init p N L hL, ?_⟩
    unfold cubes
    rw [init_flatten N L hL]
    simp [Nat.pow_succ]
  | next h hs ih =>
    obtain ⟨mi, mn, j, w, hsp, rfl⟩ := schedStep_some hL hs
    have := cubes_step ih.1 hsp
    exact ⟨ih.1.step hsp, by omega⟩

theorem iter_even {p : Params} {N L e q k : Nat} {s : Sched} (hL : 0 < L) (hN : N = 2 ^ e * q)
    (hq : q ≤ p.min_work_size) (h : Iter p N L k s) : InvEven N L q s := by
  induction h with
  | start => exact InvEven.init hL hN
  | next h hs ih =>
    obtain ⟨mi, mn, j, w, hsp, rfl⟩ := schedStep_some hL hs
    exact ih.step (iter_inv hL h).1 hq hsp

/-- The loop ends in a state reached by iteration, without exhausting the fuel. -/
theorem schedule_state (p : Params) (N L : Nat) (hL : 0 < L) :
    ∃ k s, k ≤ N ^ 3 ∧ Iter p N L k s ∧ schedStep p L s = none ∧
      create_schedule_state p N L = .ok s := by
  have key : ∀ n k s, Iter p N L k s → n + k = N ^ 3 →
      ∃ k s', k ≤ N ^ 3 ∧ Iter p N L k s' ∧ schedStep p L s' = none ∧
        schedLoop p L (n + 1) s = .ok s' := by
    intro n
    induction n with
    | zero =>
      intro k s hs hk
      rw [schedLoop]
      cases h : schedStep p L s with
      | none => exact ⟨k, s, by omega, hs, h, rfl⟩
      | some s' => have := (iter_inv hL (hs.next h)).2; omega
    | succ n ih =>
      intro k s hs hk
      rw [schedLoop]
      cases h : schedStep p L s with
      | none => exact ⟨k, s, by omega, hs, h, rfl⟩
      | some s' => exact ih (k + 1) s' (hs.next h) (by omega)
  unfold create_schedule_state
  rw [if_neg (by omega)]
  exact key (N ^ 3) 0 _ .start (by omega)

theorem schedule_ok {p : Params} {N L : Nat} {aw : List (List Work)}
    (h : create_schedule p N L = .ok aw) :
    0 < L ∧ ∃ k s, Iter p N L k s ∧ schedStep p L s = none ∧
      create_schedule_state p N L = .ok s ∧ s.all_work = aw := by
  have hL : 0 < L := by
    rcases Nat.eq_zero_or_pos L with rfl | h'
    · cases h
    · exact h'
  obtain ⟨k, s, _, h1, h2, h3⟩ := schedule_state p N L hL
  refine ⟨hL, k, s, h1, h2, h3, ?_⟩
  unfold create_schedule at h
  rw [h3] at h
  injection h

/-- **C15.** The schedule computation terminates after at most `N^3` iterations. -/
theorem C15_schedule_terminates (p : Params) (N L : Nat) (hL : 0 < L) :
    (∃ aw, create_schedule p N L = .ok aw ∧ aw.length = L) ∧
    (∃ k s, k ≤ N ^ 3 ∧ Iter p N L k s ∧ schedStep p L s = none) ∧
    ∀ k s, Iter p N L k s → k ≤ N ^ 3 := by
  obtain ⟨k, s, hk, h1, h2, h3⟩ := schedule_state p N L hL
  refine ⟨⟨s.all_work, ?_, (iter_inv hL h1).1.len1⟩, ⟨k, s, hk, h1, h2⟩, fun k s h => ?_⟩
  · unfold create_schedule; rw [h3]; rfl
  · have := (iter_inv hL h).2; omega

theorem countP_le_one {ws : List Work} (h : ws.Pairwise Apart) (r c : Nat) :
    ws.countP (fun w => decide (Covers w r c)) ≤ 1 := by
  induction ws with
  | nil => simp
  | cons w ws ih =>
    rw [List.pairwise_cons] at h
    rw [List.countP_cons]
    by_cases hw : Covers w r c
    · have : ws.countP (fun w => decide (Covers w r c)) = 0 := by
        rw [List.countP_eq_zero]
        intro v hv
        simpa using h.1 v hv r c hw
      simp [hw, this]
    · simpa [hw] using ih h.2

/-- **C16.** All packages of a schedule lie inside the result, and every cell belongs to at
most one package. -/
theorem C16_schedule_disjoint (p : Params) (N L : Nat) (aw : List (List Work))
    (h : create_schedule p N L = .ok aw) :
    (∀ ws ∈ aw, ∀ w ∈ ws, w.x + w.N ≤ N ∧ w.y + w.N ≤ N) ∧
    ∀ r c, aw.flatten.countP (fun w => decide (Covers w r c)) ≤ 1 := by
  obtain ⟨hL, k, s, hi, _, _, rfl⟩ := schedule_ok h
  have hI := (iter_inv hL hi).1
  exact ⟨fun ws hws w hw => hI.inside w (List.mem_flatten.2 ⟨ws, hws, hw⟩),
    countP_le_one hI.apart⟩

/-- **C17.** If `N = 2^e * q` with `q ≤ min_work_size`, every cell belongs to exactly one
package. -/
theorem C17_schedule_covers (p : Params) (N L e q : Nat) (hN : N = 2 ^ e * q)
    (hq : q ≤ p.min_work_size) (aw : List (List Work)) (h : create_schedule p N L = .ok aw)
    (r c : Nat) (hr : r < N) (hc : c < N) :
    aw.flatten.countP (fun w => decide (Covers w r c)) = 1 := by
  obtain ⟨hL, k, s, hi, _, _, rfl⟩ := schedule_ok h
  have h1 := countP_le_one (iter_inv hL hi).1.apart r c
  obtain ⟨w, hw, hwc⟩ := (iter_even hL hN hq hi).cover r c hr hc
  have h2 := List.countP_pos_iff (p := fun w => decide (Covers w r c)).2 ⟨w, hw, by simpa using hwc⟩
  omega

/-- **C18.** In every iteration the recorded loads sum to `N * N` and every package is at
most as large as the recorded load of its locality (so neither `max_work - split_size` nor
`total_work[…] -= 2 * n_new * n_new` wraps around). -/
theorem C18_accounting (p : Params) (N L k : Nat) (s : Sched) (hL : 0 < L)
    (h : Iter p N L k s) :
    s.total_work.sum = N * N ∧
    ∀ (i : Nat) ws, s.all_work[i]? = some ws → ∃ t, s.total_work[i]? = some t ∧
      (ws.map fun w => w.N * w.N).sum ≤ t ∧
      ∀ w ∈ ws, w.N * w.N / 2 ≤ t ∧ 2 * (w.N / 2) * (w.N / 2) ≤ t := by
  have hI := (iter_inv hL h).1
  refine ⟨hI.total, fun i ws hws => ?_⟩
  obtain ⟨hi, hws⟩ := List.getElem?_eq_some_iff.1 hws
  have hi' : i < L := by rw [← hI.len1]; exact hi
  have hi2 : i < s.total_work.length := by rw [hI.len2]; exact hi'
  have hw : s.work i = ws := by rw [Sched.work, work_length hi, hws]
  have hl : s.load i = s.total_work[i] := by
    rw [Sched.load, List.getD_eq_getElem?_getD, List.getElem?_eq_getElem hi2, Option.getD_some]
  refine ⟨s.total_work[i], List.getElem?_eq_getElem hi2, ?_, fun w hmem => ?_⟩
  · rw [← hl, ← hw]; exact hI.area i hi'
  · have h1 := hI.area_le hi' (hw ▸ hmem)
    have h2 := half_sq w.N
    rw [hl] at h1
    rw [Nat.mul_assoc]
    omega

/-- **C18** in the domain of C17: the recorded load of a locality is the number of result
cells assigned to it. -/
theorem C18_accounting_exact (p : Params) (N L e q k : Nat) (s : Sched) (hL : 0 < L)
    (hN : N = 2 ^ e * q) (hq : q ≤ p.min_work_size) (h : Iter p N L k s) :
    s.total_work = s.all_work.map fun ws => (ws.map fun w => w.N * w.N).sum := by
  have hI := (iter_inv hL h).1
  have hE := iter_even hL hN hq h
  apply List.ext_getElem
  · rw [List.length_map, hI.len1, hI.len2]
  · intro i h1 h2
    have hi' : i < L := by rw [← hI.len2]; exact h1
    have := hE.area i hi'
    rw [List.getElem_map]
    rw [Sched.work, work_length (by rw [hI.len1]; exact hi'), Sched.load,
      List.getD_eq_getElem?_getD, List.getElem?_eq_getElem h1, Option.getD_some] at this
    exact this.symm

/-- **C19.** A redistribution step never increases the largest and never decreases the
smallest recorded load (`N * N < 2^63`, as for every matrix that fits into memory). -/
theorem C19_monotone (p : Params) (N L k : Nat) (s s' : Sched) (hL : 0 < L)
    (hN : N * N < 2 ^ 63) (h : Iter p N L k s) (hs : schedStep p L s = some s')
    (lo hi : Nat) (hb : ∀ t ∈ s.total_work, lo ≤ t ∧ t ≤ hi) :
    ∀ t ∈ s'.total_work, lo ≤ t ∧ t ≤ hi := by
  have hI := (iter_inv hL h).1
  obtain ⟨mi, mn, j, w, hsp, rfl⟩ := schedStep_some hL hs
  have hle := hI.move_le hsp
  have hmv := hsp.move hI hN
  have hl := split_lengths (mi := mi) (mn := mn) (j := j) hI.len1 hI.len2
  have hload : ∀ i, i < L → lo ≤ s.load i ∧ s.load i ≤ hi := by
    intro i hi'
    have : i < s.total_work.length := by rw [hI.len2]; exact hi'
    rw [Sched.load, List.getD_eq_getElem?_getD, List.getElem?_eq_getElem this, Option.getD_some]
    exact hb _ (List.getElem_mem this)
  intro t ht
  obtain ⟨i, hi1, rfl⟩ := List.getElem_of_mem ht
  have hi' : i < L := by rw [← hl.2]; exact hi1
  have hl' : (split_work s mi mn j).load i = (split_work s mi mn j).total_work[i] := by
    rw [Sched.load, List.getD_eq_getElem?_getD, List.getElem?_eq_getElem hi1, Option.getD_some]
  rw [← hl']
  have h2 := split_load hsp hI.len2 hle hi'
  have h4 := half_sq w.N
  rw [Nat.mul_assoc] at h2 hle
  generalize w.N / 2 * (w.N / 2) = n at *
  have a1 := hload i hi'
  have a2 := hload mi hsp.mi_lt
  have a3 := hload mn hsp.mn_lt
  have a4 := hsp.min_le mi hsp.mi_lt
  by_cases hm1 : i = mi <;> by_cases hm2 : i = mn
  · simp only [if_pos hm1, if_pos hm2] at h2; omega
  · simp only [if_pos hm1, if_neg hm2] at h2; subst hm1; omega
  · simp only [if_neg hm1, if_pos hm2] at h2; subst hm2; omega
  · simp only [if_neg hm1, if_neg hm2] at h2; omega

/-- **C20.** Every package is the whole matrix or the quarter of a package larger than
`min_work_size`. -/
theorem C20_min_work_size (p : Params) (N L : Nat) (aw : List (List Work))
    (h : create_schedule p N L = .ok aw) (ws : List Work) (hws : ws ∈ aw) (w : Work)
    (hw : w ∈ ws) :
    w = ⟨0, 0, N⟩ ∨ (p.min_work_size + 1) / 2 ≤ w.N := by
  obtain ⟨hL, k, s, hi, _, _, rfl⟩ := schedule_ok h
  rcases (iter_inv hL hi).1.size w (List.mem_flatten.2 ⟨ws, hws, hw⟩) with h | ⟨n, h1, h2⟩
  · exact .inl h
  · exact .inr (by omega)

theorem iter_quartered {p : Params} {N L k : Nat} {s : Sched} (hL : 0 < L) (h : Iter p N L k s) :
    ∀ w ∈ s.all_work.flatten, Quartered p.min_work_size N w := by
  induction h with
  | start =>
    intro w hw
    rw [init_flatten N L hL, List.mem_singleton] at hw
    exact hw ▸ .whole
  | next h hs ih =>
    obtain ⟨mi, mn, j, w, hsp, rfl⟩ := schedStep_some hL hs
    have hI := (iter_inv hL h).1
    intro u hu
    have hu' := (split_perm hsp hI.len1).mem_iff.1 (List.mem_append_left [w] hu)
    rcases List.mem_append.1 hu' with hu' | hu'
    · exact ih u hu'
    · have hw := ih w (mem_flatten_of_work (by rw [hI.len1]; exact hsp.mi_lt) hsp.mem)
      simp only [quarters, List.mem_cons, List.not_mem_nil, or_false] at hu'
      have q : ∀ a b, a ≤ 1 → b ≤ 1 → _ := fun a b ha hb => hw.quarter a b hsp.big ha hb
      rcases hu' with rfl | rfl | rfl | rfl
      · simpa using q 0 0 (by omega) (by omega)
      · simpa using q 1 0 (by omega) (by omega)
      · simpa using q 0 1 (by omega) (by omega)
      · simpa using q 1 1 (by omega) (by omega)

/-- **C20**, where the packages come from: each is the whole matrix or a quarter of a package larger
than `min_work_size`, which itself is the whole matrix or such a quarter, and so on. -/
theorem C20_origin (p : Params) (N L : Nat) (aw : List (List Work))
    (h : create_schedule p N L = .ok aw) (ws : List Work) (hws : ws ∈ aw) (w : Work)
    (hw : w ∈ ws) : Quartered p.min_work_size N w := by
  obtain ⟨hL, k, s, hi, _, _, rfl⟩ := schedule_ok h
  exact iter_quartered hL hi w (List.mem_flatten.2 ⟨ws, hws, hw⟩)

/-- **C21.** When the schedule computation ends, the balance constraints hold, or no package
of a maximally loaded locality is larger than `min_work_size` and can be split such that the
difference to the least loaded locality does not grow. -/
theorem C21_stops_for_reason (p : Params) (N L : Nat) (hL : 0 < L) (hN : N * N < 2 ^ 63) :
    ∃ s, create_schedule_state p N L = .ok s ∧
      (Balanced p s.total_work ∨
        ∀ lo hi, Extent s.total_work lo hi →
          ∀ (i : Nat) ws, s.total_work[i]? = some hi → s.all_work[i]? = some ws →
            ∀ w ∈ ws, p.min_work_size < w.N →
              (hi : Int) - lo < |((hi : Int) - (w.N * w.N / 2 : Nat)) - (lo + (w.N * w.N / 2 : Nat))|) := by
  obtain ⟨k, s, _, h1, h2, h3⟩ := schedule_state p N L hL
  refine ⟨s, h3, ?_⟩
  have hI := (iter_inv hL h1).1
  have hget : ∀ i (h : i < s.total_work.length), s.load i = s.total_work[i] := fun i h => by
    rw [Sched.load, List.getD_eq_getElem?_getD, List.getElem?_eq_getElem h, Option.getD_some]
  have hlen := hI.len2
  rcases schedStep_none hL h2 with hf | hf
  · left
    obtain ⟨lo', hi', hb, ⟨i1, hi1, he1⟩, ⟨i2, hi2, he2⟩, heq⟩ :=
      fulfills_eq p s.total_work (by omega)
    rw [hf] at heq
    intro lo hi ⟨hlo, hhi, hbb⟩
    have hget' : ∀ i (h : i < s.total_work.length), s.total_work.getD i 0 = s.total_work[i] :=
      hget
    have e1 : lo = lo' := by
      obtain ⟨i, hi0, rfl⟩ := List.getElem_of_mem hlo
      have a := (hb i hi0).1
      have b := (hbb _ (List.getElem_mem hi1)).1
      rw [hget' i hi0] at a
      rw [hget' i1 hi1] at he1
      omega
    have e2 : hi = hi' := by
      obtain ⟨i, hi0, rfl⟩ := List.getElem_of_mem hhi
      have a := (hb i hi0).2
      have b := (hbb _ (List.getElem_mem hi2)).2
      rw [hget' i hi0] at a
      rw [hget' i2 hi2] at he2
      omega
    subst e1; subst e2
    simpa using heq.symm
  · right
    intro lo hi ⟨hlo, hhi, hbb⟩ i ws hti hwi w hw hbig
    obtain ⟨hi0, hti⟩ := List.getElem?_eq_some_iff.1 hti
    obtain ⟨hi0', hwi⟩ := List.getElem?_eq_some_iff.1 hwi
    have hwk : s.work i = ws := by rw [Sched.work, work_length hi0', hwi]
    have hiL : i < L := by omega
    have := hf hi lo (fun i' hi' => by
        rw [hget i' (by omega)]; exact hbb _ (List.getElem_mem (by omega)))
      (by
        obtain ⟨i', hi', rfl⟩ := List.getElem_of_mem hlo
        exact ⟨i', by omega, hget i' hi'⟩) i hiL (by rw [hget i hi0, hti]) w (hwk ▸ hw) hbig
    have h5 := hI.area_le hiL (hwk ▸ hw)
    rw [hget i hi0, hti] at h5
    have h6 : hi ≤ N * N := by
      rw [← hI.total, ← hti, ← hget i hi0]; exact getD_le_sum _ _
    have h7 := (hbb hi hhi).1
    unfold work_difference usub toInt64 at this
    simp only at this
    rw [if_pos (show w.N * w.N / 2 ≤ hi by omega)] at this
    rw [if_pos (show hi - w.N * w.N / 2 < 2 ^ 63 by omega)] at this
    rw [Int.abs_eq_natAbs]
    generalize hsp : w.N * w.N / 2 = sp at *
    have hsum : lo + sp < 2 ^ 64 := by omega
    by_cases hlt : lo + sp < 2 ^ 63
    · rw [if_pos hlt] at this; omega
    · -- `lo + split ≥ 2^63 > N * N`: the split cannot keep the difference
      omega

/-- Distributed multiplication in the domain of C17, for any function `G` whose blocks are
returned by the leaf multiplications. -/
theorem matrix_multiply_blocks (p : Params) (N e q : Nat) (A B : Array α) (transposed : Bool)
    (bi br reps L : Nat) (G : Nat → Nat → α) (hN : N = 2 ^ e * q)
    (hq : q ≤ p.min_work_size) (hbr : q ≤ br) (hL : 0 < L) (hr : 0 < reps)
    (hm : ∀ d, d ≤ e → ∀ x y, x + 2 ^ d * q ≤ N → y + 2 ^ d * q ≤ N →
      calculate_submatrix ⟨N, A, B, transposed, bi⟩ x y (2 ^ d * q) =
        .ok (rect (2 ^ d * q) (2 ^ d * q) fun i j => G (x + i) (y + j))) :
    matrix_multiply p N A B transposed bi br reps L = ND.pure (rowMajor N G) := by
  unfold matrix_multiply
  simp only
  generalize hc : (if 1 < L then L - 1 else L) = cl
  have hcl : 0 < cl := by rw [← hc]; split <;> omega
  obtain ⟨⟨aw, haw, _⟩, _⟩ := C15_schedule_terminates p N cl hcl
  rw [haw, ND.ofM_ok, ND.pure_bind']
  obtain ⟨_, k, s, hi, _, _, rfl⟩ := schedule_ok haw
  have hI := (iter_inv hcl hi).1
  have hE := iter_even hcl hN hq hi
  refine nd_repeat_const (I := fun C => C.size = N * N) (rect_size ..) (fun i C hC => ?_)
    (by simp) reps hr
  rw [computePackages_eq (g := fun w => rect w.N w.N fun i j => G (w.x + i) (w.y + j)),
    ND.pure_bind']
  · exact insert_all hC hI.inside hI.apart hE.cover
  · intro w hw
    obtain ⟨d, hd⟩ := hE.pow w hw
    have hin := hI.inside w hw
    rw [hd] at hin ⊢
    by_cases hde : d ≤ e
    · exact distribute_package hbr (fun d' hd' => hm d' (by omega)) hin.1 hin.2
    · -- only possible for empty matrices
      have hq0 : q = 0 := by
        apply Classical.byContradiction; intro h0
        have h1 : 2 ^ e * q < 2 ^ d * q :=
          Nat.mul_lt_mul_of_pos_right (Nat.pow_lt_pow_right (by omega) (by omega)) (by omega)
        omega
      subst hq0
      refine distribute_package (e := d) hbr (fun d' _ x y hx hy => ?_) hin.1 hin.2
      have := hm 0 (by omega) x y (by simpa using hx) (by simpa using hy)
      simpa only [Nat.mul_zero] using this

/-- **C22**, every rounding: without input blocking the distributed multiplication returns
the product, each entry accumulated left to right, for every number of localities, all
balancing parameters and every interleaving. -/
theorem C22_pseudodynamic (p : Params) (N e q : Nat) (A B : Array α) (a b : Nat → Nat → α)
    (transposed : Bool) (br bi reps L : Nat) (hA : Holds A N N a) (hB : Holds B N N b)
    (hN : N = 2 ^ e * q) (hq : q ≤ p.min_work_size) (hbr : q ≤ br) (hL : 0 < L)
    (hr : 0 < reps) (hbi : transposed = false ∨ bi = 0) :
    pseudodynamic_matrix_multiply p N A B transposed br bi reps L =
      ND.pure (rowMajor N fun i j =>
        dot N (a i) (fun k => if transposed then b j k else b k j)) := by
  refine matrix_multiply_blocks p N e q A B transposed bi br reps L _ hN hq hbr hL hr
    fun d hd x y hx hy => ?_
  rw [C09_calculate_submatrix N A B a b transposed bi x y _ hA hB hx hy
    (fun h1 h2 => (hbi.elim (fun h => by rw [h] at h1; cases h1) h2).elim)]
  congr; funext i j
  unfold submatrixEntry
  cases transposed with
  | false => rfl
  | true =>
    have : bi = 0 := hbi.resolve_left (by decide)
    simp [this]

/-- **C22**, every rounding, all flag combinations: the result is one and the same matrix for every
interleaving; each entry is accumulated as by `calculate_submatrix` for a block of one of the sizes
`2 ^ d * q` (the size matters only for `B` transposed with input blocking). -/
theorem C22_pseudodynamic_entries (p : Params) (N e q : Nat) (A B : Array α)
    (a b : Nat → Nat → α) (transposed : Bool) (br bi reps L : Nat) (hA : Holds A N N a)
    (hB : Holds B N N b) (hN : N = 2 ^ e * q) (hq : q ≤ p.min_work_size) (hbr : q ≤ br)
    (hL : 0 < L) (hr : 0 < reps)
    (hdiv : transposed = true → bi ≠ 0 → bi ∣ N ∧ ∀ d, d ≤ e → 4 ≤ 2 ^ d * q → 4 ∣ 2 ^ d * q) :
    ∃ G, pseudodynamic_matrix_multiply p N A B transposed br bi reps L =
        ND.pure (rowMajor N G) ∧
      ∀ i, i < N → ∀ j, j < N → ∃ d, d ≤ e ∧
        G i j = submatrixEntry N a b transposed bi (2 ^ d * q) i j := by
  have hcs : ∀ d, d ≤ e → ∀ x y, x + 2 ^ d * q ≤ N → y + 2 ^ d * q ≤ N →
      calculate_submatrix ⟨N, A, B, transposed, bi⟩ x y (2 ^ d * q) =
        .ok (rect (2 ^ d * q) (2 ^ d * q) fun i j =>
          submatrixEntry N a b transposed bi (2 ^ d * q) (x + i) (y + j)) := by
    intro d hd x y hx hy
    exact C09_calculate_submatrix N A B a b transposed bi x y _ hA hB hx hy
      fun h1 h2 h4 => ⟨(hdiv h1 h2).2 d hd h4, (hdiv h1 h2).1⟩
  unfold pseudodynamic_matrix_multiply matrix_multiply
  simp only
  generalize hc : (if 1 < L then L - 1 else L) = cl
  have hcl : 0 < cl := by rw [← hc]; split <;> omega
  obtain ⟨⟨aw, haw, _⟩, _⟩ := C15_schedule_terminates p N cl hcl
  rw [haw, ND.ofM_ok, ND.pure_bind']
  obtain ⟨_, k, s, hi, _, _, rfl⟩ := schedule_ok haw
  have hI := (iter_inv hcl hi).1
  have hE := iter_even hcl hN hq hi
  -- the leaf size of each package
  have hpk : ∀ w : Work, ∃ d, w ∈ s.all_work.flatten → d ≤ e ∧
      distribute_recursively (calculate_submatrix ⟨N, A, B, transposed, bi⟩) br w.x w.y w.N =
        (pure (rect w.N w.N fun i j =>
          submatrixEntry N a b transposed bi (2 ^ d * q) (w.x + i) (w.y + j)) : ND _) := by
    intro w
    by_cases hw : w ∈ s.all_work.flatten
    · obtain ⟨d, hd⟩ := hE.pow w hw
      have hin := hI.inside w hw
      rw [hd] at hin ⊢
      by_cases hde : d ≤ e
      · obtain ⟨d', hd', h1, h2⟩ := halving_stops hbr d
        have he : 2 ^ d * q = 2 ^ (d - d') * (2 ^ d' * q) := by
          rw [← Nat.mul_assoc, ← Nat.pow_add]; congr 2; omega
        refine ⟨d', fun _ => ⟨by omega, ?_⟩⟩
        rw [he] at hin ⊢
        exact distribute_blocks h1 (hcs d' (by omega)) (d - d') h2 w.x w.y hin.1 hin.2
      · -- only possible for empty matrices
        have hq0 : q = 0 := by
          apply Classical.byContradiction; intro h0
          have h1 : 2 ^ e * q < 2 ^ d * q :=
            Nat.mul_lt_mul_of_pos_right (Nat.pow_lt_pow_right (by omega) (by omega)) (by omega)
          omega
        subst hq0
        refine ⟨0, fun _ => ⟨by omega, ?_⟩⟩
        have h0 := distribute_blocks (br := br) (e := 0) (s := 2 ^ 0 * 0) (by simp) (hcs 0 (by omega))
          (fun t ht => by omega) w.x w.y (by simpa using hin.1) (by simpa using hin.2)
        simpa only [Nat.mul_zero] using h0
    · exact ⟨0, fun h => absurd h hw⟩
  choose d hd using hpk
  have hG : ∃ G : Nat → Nat → α, ∀ w ∈ s.all_work.flatten, ∀ r c, Covers w r c →
      G r c = submatrixEntry N a b transposed bi (2 ^ d w * q) r c := by
    refine ⟨fun r c => match s.all_work.flatten.find? fun w => decide (Covers w r c) with
      | some w => submatrixEntry N a b transposed bi (2 ^ d w * q) r c
      | none => Arith.zero, fun w hw r c hcw => ?_⟩
    have hfind : s.all_work.flatten.find? (fun w' => decide (Covers w' r c)) = some w := by
      cases hf : s.all_work.flatten.find? (fun w' => decide (Covers w' r c)) with
      | none => exact absurd hcw (by simpa using List.find?_eq_none.1 hf w hw)
      | some w' =>
        have hc' : Covers w' r c := by simpa using List.find?_some hf
        have hm' := List.mem_of_find?_eq_some hf
        have : Std.Symm Apart := ⟨fun _ _ h r c h1 h2 => h r c h2 h1⟩
        exact congrArg some (Classical.byContradiction fun hne =>
          hI.apart.forall hm' hw hne _ _ hc' hcw)
    simp only [hfind]
  obtain ⟨G, hG⟩ := hG
  refine ⟨G, ?_, fun i hi' j hj => ?_⟩
  · refine nd_repeat_const (I := fun C => C.size = N * N) (rect_size ..) (fun i C hC => ?_)
      (by simp) reps hr
    rw [computePackages_eq (g := fun w => rect w.N w.N fun i j => G (w.x + i) (w.y + j)),
      ND.pure_bind']
    · exact insert_all hC hI.inside hI.apart hE.cover
    · intro w hw
      rw [(hd w hw).2]
      exact congrArg _ (rect_congr fun i hi j hj => (hG w hw _ _ (by unfold Covers; omega)).symm)
  · obtain ⟨w, hw, hcw⟩ := hE.cover i j hi' hj
    exact ⟨d w, (hd w hw).1, hG w hw _ _ hcw⟩

/-- **C22**, exact arithmetic: all flag combinations. -/
theorem C22_pseudodynamic_exact {R : Type} [Semiring R] (p : Params) (N e q : Nat)
    (A B : Array R) (a b : Nat → Nat → R) (transposed : Bool) (br bi reps L : Nat)
    (hA : Holds A N N a) (hB : Holds B N N b) (hN : N = 2 ^ e * q)
    (hq : q ≤ p.min_work_size) (hbr : q ≤ br) (hL : 0 < L) (hr : 0 < reps)
    (hdiv : transposed = true → bi ≠ 0 → bi ∣ N ∧ ∀ d, d ≤ e → 4 ≤ 2 ^ d * q → 4 ∣ 2 ^ d * q) :
    @pseudodynamic_matrix_multiply R (exact R) p N A B transposed br bi reps L =
      ND.pure (rowMajor N fun i j =>
        ∑ k ∈ Finset.range N, a i k * (if transposed then b j k else b k j)) := by
  let := exact R
  refine matrix_multiply_blocks p N e q A B transposed bi br reps L _ hN hq hbr hL hr
    fun d hd x y hx hy => ?_
  rw [C09_calculate_submatrix N A B a b transposed bi x y _ hA hB hx hy
    (fun h1 h2 h4 => ⟨(hdiv h1 h2).2 d hd h4, (hdiv h1 h2).1⟩)]
  congr; funext i j
  exact submatrixEntry_exact N a b transposed bi _ _ _ fun h1 h2 _ => (hdiv h1 h2).1

/-- **C22** for powers of two: any `block_result ≥ 1`, `min_work_size ≥ 1`, input blocking
disabled or dividing `N`. -/
theorem C22_pseudodynamic_pow2 {R : Type} [Semiring R] (p : Params) (e : Nat)
    (A B : Array R) (a b : Nat → Nat → R) (transposed : Bool) (br bi reps L : Nat)
    (hA : Holds A (2 ^ e) (2 ^ e) a) (hB : Holds B (2 ^ e) (2 ^ e) b)
    (hq : 1 ≤ p.min_work_size) (hbr : 1 ≤ br) (hL : 0 < L) (hr : 0 < reps)
    (hdiv : bi = 0 ∨ bi ∣ 2 ^ e) :
    @pseudodynamic_matrix_multiply R (exact R) p (2 ^ e) A B transposed br bi reps L =
      ND.pure (rowMajor (2 ^ e) fun i j =>
        ∑ k ∈ Finset.range (2 ^ e), a i k * (if transposed then b j k else b k j)) := by
  refine C22_pseudodynamic_exact p (2 ^ e) e 1 A B a b transposed br bi reps L hA hB (by simp)
    hq hbr hL hr fun _ h2 => ⟨hdiv.resolve_left h2, fun d _ h4 => ?_⟩
  rw [Nat.mul_one] at h4 ⊢
  have h2d : 2 ≤ d := by
    apply Classical.byContradiction; intro hn
    have : d = 0 ∨ d = 1 := by omega
    rcases this with rfl | rfl <;> simp at h4
  exact ⟨2 ^ (d - 2), by
    rw [show (4 : Nat) = 2 ^ 2 by rfl, ← Nat.pow_add]; congr 1; omega⟩

/-- If all packages of a schedule are empty, the result is zero. -/
theorem matrix_multiply_empty (p : Params) (N cl : Nat) (A B : Array α) (transposed : Bool)
    (bi br reps L : Nat) (aw : List (List Work)) (hc : (if 1 < L then L - 1 else L) = cl)
    (haw : create_schedule p N cl = .ok aw) (h0 : ∀ w ∈ aw.flatten, w.N = 0) :
    matrix_multiply p N A B transposed bi br reps L = ND.pure (zeros (N * N)) := by
  unfold matrix_multiply
  simp only
  rw [hc, haw, ND.ofM_ok, ND.pure_bind']
  rcases Nat.eq_zero_or_pos reps with rfl | hr
  · exact forStep_nil (Nat.le_refl _) _ _
  · refine nd_repeat_const (I := fun C => C = zeros (N * N)) rfl (fun i C hC => ?_) rfl reps hr
    rw [computePackages_eq (g := fun _ => #[]), ND.pure_bind']
    · have hdo : Tree.Does false (.par ((aw.flatten.map fun w => (w, (#[] : Array α))).map
          fun ws => Tree.act (insert_submatrix N ws.2 ws.1))) [] := by
        rw [List.map_map]
        have := Tree.Does.par (A := false) (l := aw.flatten)
          (f := (fun ws : Work × Array α => Tree.act (insert_submatrix N ws.2 ws.1)) ∘
            fun w => (w, #[])) (us := fun _ => []) (fun w hw => .act ?_) (by
              apply List.pairwise_of_forall
              intro _ _ u hu
              cases hu)
        · have e : aw.flatten.flatMap (fun _ => ([] : List (Upd α))) = [] :=
            List.flatMap_eq_nil_iff.2 fun _ _ => rfl
          rw [e] at this
          exact this
        · unfold insert_submatrix
          simp only [h0 w hw]
          rw [forStep_nil (Nat.le_refl _)]
          exact Act.Does.pure
      rw [hdo.runOn, hC]
      rfl
    · intro w hw
      rw [h0 w hw, distribute_leaf (Nat.zero_le _), calculate_empty]
      rfl

/-- **C23.** `min_work_size = 0`, `max_work_difference = 0`, relative bound never met: with
one computing locality and `N = 1`, or two and `N = 2` (three localities, as the root does not
compute), no cell is scheduled and the result is zero for all inputs. -/
theorem C23_min_work_size_zero (A B : Array α) (transposed : Bool) (br bi reps : Nat) :
    pseudodynamic_matrix_multiply ⟨0, 0, fun _ _ => false⟩ 1 A B transposed br bi reps 1 =
      ND.pure #[Arith.zero] ∧
    pseudodynamic_matrix_multiply ⟨0, 0, fun _ _ => false⟩ 2 A B transposed br bi reps 3 =
      ND.pure #[Arith.zero, Arith.zero, Arith.zero, Arith.zero] := by
  constructor
  · refine matrix_multiply_empty _ 1 1 A B transposed bi br reps 1
      [[⟨0, 0, 0⟩, ⟨0, 0, 0⟩, ⟨0, 0, 0⟩, ⟨0, 0, 0⟩]] rfl (by rfl) (by decide)
  · refine matrix_multiply_empty _ 2 2 A B transposed bi br reps 3
      [[⟨1, 0, 0⟩, ⟨1, 0, 0⟩, ⟨1, 0, 0⟩, ⟨1, 0, 0⟩, ⟨0, 0, 0⟩, ⟨0, 0, 0⟩, ⟨0, 0, 0⟩, ⟨0, 0, 0⟩,
        ⟨1, 1, 0⟩, ⟨1, 1, 0⟩, ⟨0, 1, 0⟩, ⟨0, 1, 0⟩],
       [⟨1, 1, 0⟩, ⟨1, 1, 0⟩, ⟨0, 1, 0⟩, ⟨0, 1, 0⟩]] rfl (by rfl) (by decide)

/-! ### Non-vacuity -/
section Examples
attribute [local instance] exact

/-- A run with several iterations: `N = 4` on three localities. -/
def exParams : Params := ⟨1, 0, fun _ _ => false⟩

-- C15–C21: the schedule of `exParams` has 16 packages of size 1 on 3 localities
example : ∃ aw, create_schedule exParams 4 3 = .ok aw ∧ aw.map List.length = [6, 4, 6] :=
  ⟨_, rfl, rfl⟩

-- C20: the packages of `N = 5` have the sizes 2 and 1 (2 = 5 / 2, 1 = 2 / 2)
example : ∃ aw, create_schedule exParams 5 3 = .ok aw ∧ 1 ∈ (aw.flatten.map (·.N)) ∧
    ∀ ws ∈ aw, ∀ w ∈ ws, Quartered 1 5 w :=
  ⟨_, rfl, by decide, C20_origin exParams 5 3 _ rfl⟩

-- C17: 12 = 2^2 * 3 with min_work_size 3
example : (12 : Nat) = 2 ^ 2 * 3 ∧ 3 ≤ (⟨3, 5, fun _ _ => false⟩ : Params).min_work_size := by decide

-- C18, C19: a reachable state with a successor
example : ∃ s s', Iter exParams 4 3 1 s ∧ schedStep exParams 3 s = some s' ∧
    s.total_work = [8, 8, 0] ∧ s'.total_work = [6, 8, 2] :=
  ⟨_, _, .next .start rfl, rfl, rfl, rfl⟩

-- C22: N = 12 = 2^2 * 3, block_result = 4, four localities
example : pseudodynamic_matrix_multiply ⟨3, 0, fun _ _ => false⟩ 12
    (rect 12 12 fun i j => i + j) (rect 12 12 fun i j => i * j) true 4 0 2 4 =
    ND.pure (rowMajor 12 fun i j => dot 12 (fun k => i + k) (fun k => j * k)) :=
  C22_pseudodynamic _ 12 2 3 _ _ _ _ true 4 0 2 4 (holds_rect 12 12 _) (holds_rect 12 12 _) rfl
    (by decide) (by omega) (by omega) (by omega) (.inr rfl)

-- C22, entries: N = 16 = 2^2 * 4, input blocks of 8, three localities
example : ∃ G, pseudodynamic_matrix_multiply ⟨4, 0, fun _ _ => false⟩ 16
    (rect 16 16 fun i j => i + j) (rect 16 16 fun i j => i * j) true 8 8 1 3 =
      ND.pure (rowMajor 16 G) ∧ ∀ i, i < 16 → ∀ j, j < 16 → ∃ d, d ≤ 2 ∧
        G i j = submatrixEntry 16 (fun i j => i + j) (fun i j => i * j) true 8 (2 ^ d * 4) i j :=
  C22_pseudodynamic_entries _ 16 2 4 _ _ _ _ true 8 8 1 3 (holds_rect 16 16 _) (holds_rect 16 16 _)
    rfl (by decide) (by omega) (by omega) (by omega)
    fun _ _ => ⟨⟨2, rfl⟩, fun d _ _ => Dvd.intro_left _ rfl⟩
end Examples

end Verif.Props
