import Verif.Proof.ScheduleDrop
import Verif.Props.Schedule
/-
Properties C92, C93 and the general part of C23: cells of the result that the scheduler of
/repo/src/variants/static_improved.cpp leaves out.
-/
set_option linter.unusedSectionVars false
namespace Verif.Props
open Verif.Kernel Verif.Recursive Verif.StaticImproved
variable {α : Type} [Arith α]

/-- **C92.** A cell that no package of the schedule covers is zero in every result, for all
parameters, inputs, numbers of repetitions and interleavings. -/
theorem C92_uncovered_zero (p : Params) (N : Nat) (A B : Array α) (transposed : Bool)
    (br bi reps L : Nat) (aw : List (List Work)) (C : Array α)
    (haw : create_schedule p N (if 1 < L then L - 1 else L) = .ok aw)
    (h : pseudodynamic_matrix_multiply p N A B transposed br bi reps L (.ok C))
    (r c : Nat) (hr : r < N) (hc : c < N) (hun : ∀ ws ∈ aw, ∀ w ∈ ws, ¬ Covers w r c) :
    C.size = N * N ∧ C[r * N + c]? = some Arith.zero := by
  unfold pseudodynamic_matrix_multiply matrix_multiply at h
  simp only at h
  rw [haw, ND.ofM_ok, ND.pure_bind'] at h
  obtain ⟨hL, k, s, hi, _, _, rfl⟩ := schedule_ok haw
  have hI := (iter_inv hL hi).1
  refine nd_forStep_inv (I := fun C => C.size = N * N ∧ C[r * N + c]? = some Arith.zero) ?_
    (fun i C C' hC hb => ?_) h
  · have := idx_lt hr hc
    refine ⟨by simp [zeros], ?_⟩
    rw [zeros, Array.getElem?_replicate, if_pos this]
  · rcases hb with ⟨e, _, h2⟩ | ⟨subs, h1, h2⟩
    · cases h2
    · obtain ⟨e1, e2⟩ := computePackages_ok h1
      have := insert_uncovered hC.1 e2 (by rw [e1]; exact hI.inside) (by rw [e1]; exact hI.apart)
        hc (r := r) (by
          rw [e1]
          intro w hw
          obtain ⟨ws, hws, hw⟩ := List.mem_flatten.1 hw
          exact hun ws hws w hw) h2
      exact ⟨this.1, this.2.trans hC.2⟩

theorem iter_parity {p : Params} {N L k : Nat} {s : Sched} (hL : 0 < L) (h : Iter p N L k s) :
    InvParity L s := by
  induction h with
  | start => exact InvParity.init N L
  | next h hs ih =>
    obtain ⟨mi, mn, j, w, hsp, rfl⟩ := schedStep_some hL hs
    exact ih.step (iter_inv hL h).1 hsp

theorem load_mem {s : Sched} {i : Nat} (h : i < s.total_work.length) :
    s.load i = s.total_work[i] := by
  rw [Sched.load, List.getD_eq_getElem?_getD, List.getElem?_eq_getElem h, Option.getD_some]

/-- **C23**, whenever a locality stays without work: with `min_work_size = 0` and
`max_work_difference ≤ 1`, if the computation of the schedule ends with a locality whose recorded
load is 0, then the localities with the largest recorded load got nothing to compute, and some cell
of the result belongs to no package. -/
theorem C23_idle_locality (p : Params) (N L : Nat) (hN : 0 < N) (hN63 : N * N < 2 ^ 63)
    (hmin : p.min_work_size = 0) (hdiff : p.max_work_difference ≤ 1) (s : Sched)
    (hs : create_schedule_state p N L = .ok s) (hidle : 0 ∈ s.total_work) :
    (∀ hi (i : Nat) ws, (∀ t ∈ s.total_work, t ≤ hi) → s.total_work[i]? = some hi →
      s.all_work[i]? = some ws → ∀ w ∈ ws, w.N = 0) ∧
    ∃ r c, r < N ∧ c < N ∧ ∀ ws ∈ s.all_work, ∀ w ∈ ws, ¬ Covers w r c := by
  have hL : 0 < L := by
    rcases Nat.eq_zero_or_pos L with rfl | h'
    · cases hs
    · exact h'
  obtain ⟨k, s', _, h1, h2, h3⟩ := schedule_state p N L hL
  obtain rfl : s = s' := by rw [h3] at hs; cases hs; rfl
  have hI := (iter_inv hL h1).1
  have hNN : 0 < N * N := Nat.mul_pos hN hN
  -- the largest load
  obtain ⟨hi, him, hib⟩ : ∃ hi ∈ s.total_work, ∀ t ∈ s.total_work, t ≤ hi := by
    have hne : s.total_work ≠ [] := fun h => by rw [h] at hidle; cases hidle
    exact ⟨s.total_work.max hne, List.max_mem hne, fun t ht => List.le_max_of_mem ht⟩
  have hipos : 0 < hi := by
    apply Classical.byContradiction; intro h0
    have : s.total_work.sum = 0 := List.sum_eq_zero fun t ht => by
      have := hib t ht; omega
    rw [hI.total] at this; omega
  have hext : Extent s.total_work 0 hi := ⟨hidle, him, fun t ht => ⟨Nat.zero_le _, hib t ht⟩⟩
  have hnone : ∀ hi' (i : Nat) ws, (∀ t ∈ s.total_work, t ≤ hi') → s.total_work[i]? = some hi' →
      s.all_work[i]? = some ws → ∀ w ∈ ws, w.N = 0 := by
    intro hi' i ws hb hti hwi w hw
    have hm' : hi' ∈ s.total_work := List.mem_of_getElem? hti
    obtain rfl : hi' = hi := Nat.le_antisymm (hib _ hm') (hb _ him)
    apply Classical.byContradiction
    intro hw0
    obtain ⟨s', e, hC⟩ := C21_stops_for_reason p N L hL hN63
    obtain rfl : s = s' := by rw [h3] at e; cases e; rfl
    rcases hC with hC | hC
    · have := hC 0 hi' hext
      omega
    · have := hC 0 hi' hext i ws hti hwi w hw (by omega)
      obtain ⟨t, ht, _, h5⟩ := (C18_accounting p N L k s hL h1).2 i ws hwi
      have ht' : t = hi' := by rw [hti] at ht; cases ht; rfl
      have hsq : ((ws.map fun w => w.N * w.N).sum) ≤ t := by
        obtain ⟨t', ht2, h6, _⟩ := (C18_accounting p N L k s hL h1).2 i ws hwi
        rw [ht] at ht2; cases ht2; exact h6
      have hle : w.N * w.N ≤ (ws.map fun w => w.N * w.N).sum :=
        le_map_sum (f := fun w : Work => w.N * w.N) hw
      rw [Int.abs_eq_natAbs] at this
      generalize w.N * w.N = q at *
      omega
  refine ⟨hnone, ?_⟩
  obtain ⟨i, hil, hie⟩ := List.getElem_of_mem him
  have hiL : i < L := by rw [← hI.len2]; exact hil
  -- the area of the packages is smaller than the result
  have harea : (s.all_work.flatten.map fun w => w.N * w.N).sum < N * N := by
    have hil' : i < s.all_work.length := by rw [hI.len1]; exact hiL
    have := area_flatten (aw := s.all_work) (tw := s.total_work) (by rw [hI.len1, hI.len2])
      (fun i' hi' => hI.area i' (by rw [← hI.len2]; exact hi')) hi (.inr ⟨i, hil, ?_⟩)
    · rw [hI.total] at this; omega
    · have h0 : ((s.all_work.getD i []).map fun w => w.N * w.N).sum = 0 := by
        refine List.sum_eq_zero fun x hx => ?_
        obtain ⟨w, hw, rfl⟩ := List.mem_map.1 hx
        rw [work_length hil'] at hw
        rw [hnone hi i _ hib (by rw [List.getElem?_eq_getElem hil, hie])
          (List.getElem?_eq_getElem hil') w hw, Nat.mul_zero]
      rw [h0, List.getD_eq_getElem?_getD, List.getElem?_eq_getElem hil, Option.getD_some, hie]
      omega
  obtain ⟨r, c, hr, hc, hun⟩ := exists_uncovered harea
  exact ⟨r, c, hr, hc, fun ws hws w hw => hun w (List.mem_flatten.2 ⟨ws, hws, hw⟩)⟩

/-- If every locality but the first has an even load and none is idle, the loads are large. -/
theorem sum_ge_of_even {tw : List Nat} (hpos : ∀ t ∈ tw, 0 < t)
    (h2 : ∀ i, 0 < i → i < tw.length → 2 ∣ tw.getD i 0) (hl : 0 < tw.length) :
    2 * tw.length ≤ tw.sum + 1 := by
  cases tw with
  | nil => cases hl
  | cons t tw =>
    have ht := hpos t (by simp)
    have key : ∀ l : List Nat, (∀ t ∈ l, 2 ≤ t) → 2 * l.length ≤ l.sum := by
      intro l hl
      induction l with
      | nil => simp
      | cons a l ih =>
        have h1 := hl a (by simp)
        have h2 := ih fun t ht => hl t (by simp [ht])
        rw [List.length_cons, List.sum_cons]; omega
    have := key tw fun x hx => by
      obtain ⟨i, hi, rfl⟩ := List.getElem_of_mem hx
      have a := h2 (i + 1) (by omega) (by simpa using hi)
      rw [List.getD_cons_succ, List.getD_eq_getElem?_getD, List.getElem?_eq_getElem hi,
        Option.getD_some] at a
      have b := hpos tw[i] (by simp)
      omega
    rw [List.length_cons, List.sum_cons]; omega

/-- **C23**, many localities: with `min_work_size = 0`, `max_work_difference ≤ 1` and any bound on
the relative difference, if `N² + 1` is less than twice the number of computing localities, there is
a cell of the result that is zero in every result, for all inputs. -/
theorem C23_many_localities (p : Params) (N L : Nat) (hN : 0 < N) (hN63 : N * N < 2 ^ 63)
    (hmin : p.min_work_size = 0) (hdiff : p.max_work_difference ≤ 1)
    (hL : N * N + 1 < 2 * (L - 1)) :
    ∃ r c, r < N ∧ c < N ∧
      ∀ (α : Type) [Arith α] (A B C : Array α) (transposed : Bool) (br bi reps : Nat),
        pseudodynamic_matrix_multiply p N A B transposed br bi reps L (.ok C) →
          C[r * N + c]? = some Arith.zero := by
  have hc : (if 1 < L then L - 1 else L) = L - 1 := if_pos (by omega)
  have hL0 : 0 < L - 1 := by omega
  obtain ⟨k, s, _, h1, h2, h3⟩ := schedule_state p N (L - 1) hL0
  have hI := (iter_inv hL0 h1).1
  have hP := iter_parity hL0 h1
  have hidle : 0 ∈ s.total_work := by
    apply Classical.byContradiction
    intro hn
    have := sum_ge_of_even (tw := s.total_work)
      (fun t ht => Nat.pos_of_ne_zero fun h0 => hn (h0 ▸ ht))
      (fun i h0 hi => hP i h0 (by rw [← hI.len2]; exact hi)) (by rw [hI.len2]; exact hL0)
    rw [hI.total, hI.len2] at this
    omega
  obtain ⟨_, r, c, hr, hcc, hun⟩ := C23_idle_locality p N (L - 1) hN hN63 hmin hdiff s h3 hidle
  refine ⟨r, c, hr, hcc, fun α _ A B C transposed br bi reps h => ?_⟩
  exact (C92_uncovered_zero p N A B transposed br bi reps L s.all_work C
    (by rw [hc]; unfold create_schedule; rw [h3]; rfl) h r c hr hcc hun).2

/-- The scheduler splits the whole matrix unless the constraints hold or it is too small. -/
theorem first_split (p : Params) (N L : Nat) (hN : 0 < N) (hL : 2 ≤ L) (hN63 : N * N < 2 ^ 63)
    (hmin : p.min_work_size < N) (hdiff : p.max_work_difference ≤ N * N) :
    ∃ s, schedStep p L (initSched N L) = some s := by
  have hNN : 0 < N * N := Nat.mul_pos hN hN
  cases h : schedStep p L (initSched N L) with
  | some s => exact ⟨s, rfl⟩
  | none =>
    have hl0 := init_load N L 0 (by omega)
    have hl1 := init_load N L 1 (by omega)
    rw [if_pos rfl] at hl0
    rw [if_neg (by omega)] at hl1
    have hb : ∀ i, i < L → 0 ≤ (initSched N L).load i ∧ (initSched N L).load i ≤ N * N := by
      intro i hi
      rw [init_load N L i hi]
      split <;> omega
    rcases schedStep_none (by omega) h with hf | hf
    · obtain ⟨lo, hi, hb', ⟨i1, hi1, he1⟩, ⟨i2, hi2, he2⟩, heq⟩ :=
        fulfills_eq p (initSched N L).total_work (by simp [initSched]; omega)
      have hlen : (initSched N L).total_work.length = L := by simp [initSched]
      have hlo : lo = 0 := by
        have := (hb' 1 (by omega)).1
        have e : (initSched N L).total_work.getD 1 0 = 0 := hl1
        omega
      have hhi : hi = N * N := by
        have a := (hb' 0 (by omega)).2
        have e : (initSched N L).total_work.getD 0 0 = N * N := hl0
        have b := (hb i2 (by omega)).2
        have e2 : (initSched N L).load i2 = hi := he2
        omega
      rw [hf] at heq
      subst hlo hhi
      simp at heq
      omega
    · have := hf (N * N) 0 hb ⟨1, by omega, hl1⟩ 0 (by omega) hl0 ⟨0, 0, N⟩
        (by rw [init_work N L 0 (by omega)]; simp) hmin
      unfold work_difference usub toInt64 at this
      simp only at this
      rw [if_pos (show N * N / 2 ≤ N * N by omega)] at this
      rw [if_pos (show N * N - N * N / 2 < 2 ^ 63 by omega)] at this
      rw [if_pos (show 0 + N * N / 2 < 2 ^ 63 by omega)] at this
      omega

/-- **C93.** If `N` is odd and larger than `min_work_size`, there are at least two computing
localities and the work difference `N²` is not accepted, the last row and the last column of every
result are zero, for all inputs. -/
theorem C93_odd_split (p : Params) (N L : Nat) (hodd : N % 2 = 1) (hN63 : N * N < 2 ^ 63)
    (hmin : p.min_work_size < N) (hdiff : p.max_work_difference ≤ N * N) (hL : 3 ≤ L)
    (A B C : Array α) (transposed : Bool) (br bi reps : Nat)
    (h : pseudodynamic_matrix_multiply p N A B transposed br bi reps L (.ok C)) (i : Nat)
    (hi : i < N) :
    C[(N - 1) * N + i]? = some Arith.zero ∧ C[i * N + (N - 1)]? = some Arith.zero := by
  have hc : (if 1 < L then L - 1 else L) = L - 1 := if_pos (by omega)
  have hL0 : 0 < L - 1 := by omega
  obtain ⟨s1, hs1⟩ := first_split p N (L - 1) (by omega) (by omega) hN63 hmin hdiff
  obtain ⟨k, s, _, h1, h2, h3⟩ := schedule_state p N (L - 1) hL0
  -- the first step loses the last row and the last column
  have hlast : ∀ r c, (∃ v ∈ s1.all_work.flatten, Covers v r c) → r < N - 1 ∧ c < N - 1 := by
    intro r c ⟨v, hv, hvc⟩
    obtain ⟨mi, mn, j, w, hsp, rfl⟩ := schedStep_some hL0 hs1
    have hI := Inv.init p N (L - 1) hL0
    have hw : w = ⟨0, 0, N⟩ := by
      have := mem_flatten_of_work (by rw [hI.len1]; exact hsp.mi_lt) hsp.mem
      rw [init_flatten N (L - 1) hL0] at this
      simpa using this
    have hp := split_perm hsp hI.len1
    rw [init_flatten N (L - 1) hL0, hw] at hp
    have hv' : v ∈ quarters ⟨0, 0, N⟩ := by
      have : (split_work (initSched N (L - 1)) mi mn j).all_work.flatten.Perm (quarters ⟨0, 0, N⟩) :=
        (List.perm_cons (⟨0, 0, N⟩ : Work)).1 (List.perm_append_comm.trans hp)
      exact this.subset hv
    unfold quarters at hv'
    simp only [List.mem_cons, List.not_mem_nil, or_false] at hv'
    unfold Covers at hvc
    rcases hv' with rfl | rfl | rfl | rfl <;> simp only at hvc <;> omega
  have hcov : ∀ k s, Iter p N (L - 1) k s → s = initSched N (L - 1) ∨
      ∀ r c, (∃ v ∈ s.all_work.flatten, Covers v r c) → ∃ v ∈ s1.all_work.flatten, Covers v r c := by
    intro k s h
    induction h with
    | start => exact .inl rfl
    | next h hs ih =>
      right
      rcases ih with rfl | ih
      · rw [hs1] at hs
        cases hs
        exact fun _ _ h => h
      · obtain ⟨mi, mn, j, w, hsp, rfl⟩ := schedStep_some hL0 hs
        exact fun r c hv => ih r c (covered_step (iter_inv hL0 h).1 hsp hv)
  have hun : ∀ r c, ¬ (r < N - 1 ∧ c < N - 1) → ∀ ws ∈ s.all_work, ∀ w ∈ ws, ¬ Covers w r c := by
    intro r c hrc ws hws w hw hcw
    rcases hcov k s h1 with rfl | hh
    · rw [hs1] at h2; cases h2
    · exact hrc (hlast r c (hh r c ⟨w, List.mem_flatten.2 ⟨ws, hws, hw⟩, hcw⟩))
  have haw : create_schedule p N (if 1 < L then L - 1 else L) = .ok s.all_work := by
    rw [hc]; unfold create_schedule; rw [h3]; rfl
  exact ⟨(C92_uncovered_zero p N A B transposed br bi reps L _ C haw h (N - 1) i (by omega) hi
      (hun _ _ (by omega))).2,
    (C92_uncovered_zero p N A B transposed br bi reps L _ C haw h i (N - 1) hi (by omega)
      (hun _ _ (by omega))).2⟩

theorem calculate_ok {s : Multiplier α} (h : s.transposed = false) (x y bs : Nat) :
    ∃ C, calculate_submatrix s x y bs = .ok C := by
  unfold calculate_submatrix
  rw [h]
  obtain ⟨C, hC, _⟩ := C05_kernel_total s.A s.B (zeros (bs * bs)) s.N x y bs
  exact ⟨C, by simpa using hC⟩

/-- **C94.** `single::matrix_multiply` has exactly one outcome, whatever the schedule, for all
parameters and vectors of any length; without transposition it is a matrix of `N * N` elements. -/
theorem C94_single (N : Nat) (A B : Array α) (transposed : Bool) (br bi reps : Nat) :
    ∃ o, (∀ o', single_matrix_multiply N A B transposed br bi reps o' ↔ o' = o) ∧
      (transposed = false → ∃ C, o = .ok C ∧ C.size = N * N) := by
  unfold single_matrix_multiply
  rcases Nat.eq_zero_or_pos reps with rfl | hr
  · rw [forStep_nil (Nat.le_refl _)]
    exact ⟨.ok (zeros (N * N)), fun o' => Iff.rfl, fun _ => ⟨_, rfl, by simp [zeros]⟩⟩
  · rw [nd_repeat _ _ _ hr]
    obtain ⟨o, h1, h2, h3⟩ := distribute_det
      (mult := calculate_submatrix ⟨N, A, B, transposed, bi⟩) (br := br)
      (fun _ _ _ _ h => calculate_size h) N 0 0
    refine ⟨o, fun o' => by rw [h1]; exact Iff.rfl, fun ht => ?_⟩
    obtain ⟨C, rfl⟩ := h3 (calculate_ok ht)
    exact ⟨C, rfl, h2 C rfl⟩

/-- **C94** for `pseudodynamic::matrix_multiply` on any number of localities. -/
theorem C94_pseudodynamic (p : Params) (N : Nat) (A B : Array α) (transposed : Bool)
    (br bi reps L : Nat) (hL : 0 < L) :
    ∃ o, (∀ o', pseudodynamic_matrix_multiply p N A B transposed br bi reps L o' ↔ o' = o) ∧
      (transposed = false → ∃ C, o = .ok C ∧ C.size = N * N) := by
  unfold pseudodynamic_matrix_multiply matrix_multiply
  simp only
  generalize hc : (if 1 < L then L - 1 else L) = cl
  have hcl : 0 < cl := by rw [← hc]; split <;> omega
  obtain ⟨⟨aw, haw, _⟩, _⟩ := C15_schedule_terminates p N cl hcl
  rw [haw, ND.ofM_ok, ND.pure_bind']
  obtain ⟨_, k, s, hi, _, _, rfl⟩ := schedule_ok haw
  have hI := (iter_inv hcl hi).1
  obtain ⟨os, h1, h2, h3⟩ := computePackages_det (s := ⟨N, A, B, transposed, bi⟩) br
    s.all_work.flatten
  rw [h1]
  obtain ⟨o, h4, h5⟩ := nd_repeat_det (n := reps) (z := zeros (N * N))
    (body := fun _ C => ND.ofM os >>= fun subs =>
      ND.runOn C (.par (subs.map fun ws => .act (insert_submatrix N ws.2 ws.1))))
    (I := fun C : Array α => C.size = N * N) (ok := ∃ subs, os = .ok subs) (by simp [zeros])
    (fun i C hC => by
      cases os with
      | error e => exact ⟨.error e, ofM_error_bind _ _, nofun, nofun⟩
      | ok subs =>
        obtain ⟨e1, e2⟩ := h2 subs rfl
        obtain ⟨C', h6, h7⟩ := insert_det hC e2 (by rw [e1]; exact hI.inside)
          (by rw [e1]; exact hI.apart)
        exact ⟨.ok C', by rw [ND.ofM_ok, ND.pure_bind']; exact h6, fun _ h => by cases h; exact h7, fun _ => ⟨C', rfl⟩⟩)
  refine ⟨o, fun o' => by rw [h4]; exact Iff.rfl, fun ht => ?_⟩
  exact h5 (h3 (calculate_ok ht))

/-! ### Non-vacuity -/
section Examples
attribute [local instance] exact

/-- `min_work_size = 0`, `max_work_difference = 0`, relative bound 1/2. -/
def dropParams : Params := ⟨0, 0, fun d m => decide (2 * d < m)⟩

-- C92: a schedule that does not cover the cell (2, 2)
example : ∃ aw, create_schedule ⟨1, 0, fun _ _ => false⟩ 3 (if 1 < 3 then 3 - 1 else 3) = .ok aw ∧
    ∀ ws ∈ aw, ∀ w ∈ ws, ¬ Covers w 2 2 := ⟨_, rfl, by decide⟩

-- C92, C93, C94: a run on three localities, it returns
example : ∃ C, pseudodynamic_matrix_multiply ⟨1, 0, fun _ _ => false⟩ 3
    (rect 3 3 fun i j => i + j) (rect 3 3 fun i j => i * j) false 2 0 1 3 (.ok C) ∧
    C[8]? = some 0 ∧ C[2]? = some 0 := by
  obtain ⟨o, h1, h2⟩ := C94_pseudodynamic ⟨1, 0, fun _ _ => false⟩ 3
    (rect 3 3 fun i j => i + j) (rect 3 3 fun i j => i * j) false 2 0 1 3 (by omega)
  obtain ⟨C, rfl, _⟩ := h2 rfl
  have h := (h1 (.ok C)).2 rfl
  exact ⟨C, h, (C93_odd_split _ 3 3 rfl (by omega) (by decide) (by decide) (by omega)
      _ _ C false 2 0 1 h 2 (by omega)).1,
    (C93_odd_split _ 3 3 rfl (by omega) (by decide) (by decide) (by omega)
      _ _ C false 2 0 1 h 0 (by omega)).2⟩

-- C23: the schedule of two rows on three computing localities leaves one of them idle
example : ∃ s, create_schedule_state dropParams 2 3 = .ok s ∧ 0 ∈ s.total_work :=
  ⟨_, rfl, by decide⟩

-- C23: a 3×3 multiplication on seven localities
example : ∃ r c, r < 3 ∧ c < 3 ∧
    ∀ (α : Type) [Arith α] (A B C : Array α) (transposed : Bool) (br bi reps : Nat),
      pseudodynamic_matrix_multiply dropParams 3 A B transposed br bi reps 7 (.ok C) →
        C[r * 3 + c]? = some Arith.zero :=
  C23_many_localities dropParams 3 7 (by omega) (by omega) rfl (by decide) (by omega)

end Examples

end Verif.Props
