import Verif.SpecBalance
import Verif.Props.Schedule
/-
C111: how many packages and busy localities a schedule has, and how well it is balanced.
-/
set_option linter.unusedSectionVars false
namespace Verif.Props
open Verif.StaticImproved

theorem splits_le {m n : Nat} (h : n ≤ m) : splits m n = 0 := by
  rw [splits, if_pos h]

theorem splits_gt {m n : Nat} (h : m < n) : splits m n = 1 + 4 * splits m (n / 2) := by
  rw [splits, if_neg (by omega)]

/-- **C111.** Size `N ≤ 2^d * m`: at most `(4^d - 1) / 3` splits. -/
theorem C111_splits (m d : Nat) : ∀ n, n ≤ 2 ^ d * m → 3 * splits m n + 1 ≤ 4 ^ d := by
  induction d with
  | zero =>
    intro n h
    rw [Nat.pow_zero, Nat.one_mul] at h
    rw [splits_le h]
    decide
  | succ d ih =>
    intro n h
    rcases Nat.lt_or_ge m n with hlt | hle
    · rw [splits_gt hlt]
      have h2 : n ≤ 2 * (2 ^ d * m) := by
        rw [Nat.pow_succ] at h
        calc n ≤ 2 ^ d * 2 * m := h
          _ = 2 * (2 ^ d * m) := by rw [Nat.mul_comm (2 ^ d) 2, Nat.mul_assoc]
      have := ih (n / 2) (by omega)
      rw [Nat.pow_succ]
      omega
    · rw [splits_le hle]
      have : 0 < 4 ^ (d + 1) := Nat.pow_pos (by decide)
      omega

theorem splits_step {p : Params} {L N : Nat} {s : Sched} {mi mn j : Nat} {w : Work}
    (hI : Inv p N L s) (h : Split p L s mi mn j w) :
    ((split_work s mi mn j).all_work.flatten.map fun w => splits p.min_work_size w.N).sum + 1 =
      (s.all_work.flatten.map fun w => splits p.min_work_size w.N).sum ∧
    (split_work s mi mn j).all_work.flatten.length = s.all_work.flatten.length + 3 := by
  have hp := split_perm h hI.len1
  constructor
  · have hp := (hp.map fun w => splits p.min_work_size w.N).sum_nat
    simp only [List.map_append, List.sum_append, quarters, List.map_cons, List.map_nil,
      List.sum_cons, List.sum_nil] at hp
    rw [splits_gt h.big] at hp
    omega
  · have := hp.length_eq
    simp only [List.length_append, quarters, List.length_cons, List.length_nil] at this
    omega

theorem countP_modify {β : Type} (q : β → Bool) (f : β → β) (l : List β) (i : Nat) :
    (l.modify i f).countP q ≤ l.countP q + 1 := by
  induction l generalizing i with
  | nil => simp
  | cons x l ih =>
    cases i with
    | zero =>
      simp only [List.modify_zero_cons, List.countP_cons]
      split <;> split <;> omega
    | succ i =>
      simp only [List.modify_succ_cons, List.countP_cons]
      have := ih i
      omega

/-- Modifying a non-empty list does not make more lists non-empty. -/
theorem countP_modify_le {β : Type} (q : β → Bool) (f : β → β) (l : List β) (i : Nat) (d : β)
    (hi : i < l.length) (h : q (l.getD i d) = true) : (l.modify i f).countP q ≤ l.countP q := by
  induction l generalizing i with
  | nil => simp
  | cons x l ih =>
    cases i with
    | zero =>
      simp only [List.getD_cons_zero] at h
      simp only [List.modify_zero_cons, List.countP_cons, h, if_true]
      split <;> omega
    | succ i =>
      simp only [List.modify_succ_cons, List.countP_cons]
      have := ih i (by simpa using hi) (by simpa using h)
      omega

theorem busy_step {p : Params} {L N : Nat} {s : Sched} {mi mn j : Nat} {w : Work}
    (hI : Inv p N L s) (h : Split p L s mi mn j w) :
    busy (split_work s mi mn j).all_work ≤ busy s.all_work + 1 := by
  have hmi := h.mi_lt
  have hmn := h.mn_lt
  have hlen := hI.len1
  unfold split_work busy
  simp only [List.modify_modify_eq]
  refine Nat.le_trans (countP_modify _ _ _ _) (Nat.add_le_add_right ?_ 1)
  refine countP_modify_le _ _ _ _ [] (by omega) ?_
  have := h.j_lt
  unfold Sched.work at this
  cases hx : s.all_work.getD mi [] with
  | nil => rw [hx] at this; simp at this
  | cons => rfl

theorem iter_counts {p : Params} {N L k : Nat} {s : Sched} (hL : 0 < L) (h : Iter p N L k s) :
    (s.all_work.flatten.map fun w => splits p.min_work_size w.N).sum + k =
      splits p.min_work_size N ∧
    s.all_work.flatten.length = 3 * k + 1 ∧ busy s.all_work ≤ k + 1 := by
  induction h with
  | start =>
    refine ⟨?_, ?_, ?_⟩
    · rw [init_flatten N L hL]; simp
    · rw [init_flatten N L hL]; simp
    · unfold initSched busy
      refine Nat.le_trans (countP_modify _ _ _ _) ?_
      rw [List.countP_replicate]
      simp
  | next h hs ih =>
    have hI := (iter_inv hL h).1
    obtain ⟨mi, mn, j, w, hsp, rfl⟩ := schedStep_some hL hs
    have h1 := splits_step hI hsp
    have h2 := busy_step hI hsp
    omega

/-- **C111.** The schedule computation makes at most `splits min_work_size N` iterations. After `k`
of them there are `3 k + 1` packages on at most `k + 1` localities. -/
theorem C111_iterations (p : Params) (N L k : Nat) (s : Sched) (hL : 0 < L)
    (h : Iter p N L k s) :
    k ≤ splits p.min_work_size N ∧ s.all_work.flatten.length = 3 * k + 1 ∧
      busy s.all_work ≤ k + 1 := by
  have := iter_counts hL h
  omega

/-- **C111.** A schedule for `N ≤ 2^d * min_work_size` has at most `4^d` packages, and at most
`(4^d + 2) / 3` localities have anything to do, however many there are. -/
theorem C111_busy (p : Params) (N L d : Nat) (hd : N ≤ 2 ^ d * p.min_work_size)
    (aw : List (List Work)) (h : create_schedule p N L = .ok aw) :
    aw.flatten.length ≤ 4 ^ d ∧ 3 * busy aw ≤ 4 ^ d + 2 := by
  obtain ⟨hL, k, s, hi, _, _, rfl⟩ := schedule_ok h
  have h1 := iter_counts hL hi
  have h2 := C111_splits p.min_work_size d N hd
  omega

/-- **C111.** `N ≤ min_work_size`: one locality computes everything. -/
theorem C111_one_worker (p : Params) (N L : Nat) (hN : N ≤ p.min_work_size)
    (aw : List (List Work)) (h : create_schedule p N L = .ok aw) :
    aw = [⟨0, 0, N⟩] :: List.replicate (L - 1) [] := by
  obtain ⟨hL, k, s, hi, _, _, rfl⟩ := schedule_ok h
  have h1 := (iter_counts hL hi).1
  rw [splits_le hN] at h1
  obtain rfl : k = 0 := by omega
  cases hi
  obtain ⟨n, rfl⟩ : ∃ n, L = n + 1 := ⟨L - 1, by omega⟩
  rfl

/-- **C111.** `N ≤ 2 * min_work_size` (with the default 256: up to `N = 512`): at most two
localities compute. -/
theorem C111_two_workers (p : Params) (N L : Nat) (hN : N ≤ 2 * p.min_work_size)
    (aw : List (List Work)) (h : create_schedule p N L = .ok aw) : busy aw ≤ 2 := by
  have := C111_busy p N L 1 (by simpa using hN) aw h
  omega

/-- **C111.** Quality of the balance. When the schedule computation ends, the constraints of the
user hold, or the packages of the most loaded localities are all too small to be split, or the
largest load is less than twice the smallest one. -/
theorem C111_quality (p : Params) (N L : Nat) (hL : 0 < L) (hN : N * N < 2 ^ 63) :
    ∃ s, create_schedule_state p N L = .ok s ∧ ∀ lo hi, Extent s.total_work lo hi →
      Balanced p s.total_work ∨
      (∀ (i : Nat) ws, s.total_work[i]? = some hi → s.all_work[i]? = some ws →
        ∀ w ∈ ws, w.N ≤ p.min_work_size) ∨
      hi < 2 * lo ∧ L * hi < 2 * (N * N) := by
  obtain ⟨s, hs, h⟩ := C21_stops_for_reason p N L hL hN
  refine ⟨s, hs, fun lo hi he => ?_⟩
  rcases h with h | h
  · exact .inl h
  right
  by_cases hall : ∀ (i : Nat) ws, s.total_work[i]? = some hi → s.all_work[i]? = some ws →
      ∀ w ∈ ws, w.N ≤ p.min_work_size
  · exact .inl hall
  right
  obtain ⟨k, s', _, hi', _, hs'⟩ := schedule_state p N L hL
  rw [hs] at hs'
  cases hs'
  obtain ⟨htot, hacc⟩ := C18_accounting p N L k s hL hi'
  have hlen := (iter_inv hL hi').1.len2
  have hlt : hi < 2 * lo := by
    simp only [not_forall] at hall
    obtain ⟨i, ws, hti, hwi, w, hw, hbig⟩ := hall
    have h1 := h lo hi he i ws hti hwi w hw (by omega)
    obtain ⟨t, ht, _, h2⟩ := hacc i ws hwi
    rw [hti] at ht
    cases ht
    have h3 := (h2 w hw).1
    have hle := (he.2.2 _ he.1).2
    obtain ⟨t, ht, h4, _⟩ := hacc i ws hwi
    rw [hti] at ht
    cases ht
    have h5 : w.N * w.N ≤ (ws.map fun w => w.N * w.N).sum :=
      List.le_sum_of_mem (List.mem_map.2 ⟨w, hw, rfl⟩)
    have e : ((w.N * w.N / 2 : Nat) : Int) = (w.N * w.N : Nat) / 2 := by omega
    generalize w.N * w.N = A at *
    generalize hh : A / 2 = H at *
    rcases abs_cases ((hi : Int) - (H : Nat) - ((lo : Int) + (H : Nat))) with ⟨ha, _⟩ | ⟨ha, _⟩ <;>
      rw [ha] at h1 <;> omega
  refine ⟨hlt, ?_⟩
  have hsum : L * lo ≤ N * N := by
    rw [← htot, ← hlen]
    have : ∀ l : List Nat, (∀ t ∈ l, lo ≤ t) → l.length * lo ≤ l.sum := by
      intro l
      induction l with
      | nil => simp
      | cons a l ih =>
        intro hl
        rw [List.length_cons, List.sum_cons, Nat.add_mul, Nat.one_mul]
        have h1 := hl a (by simp)
        have h2 := ih fun t ht => hl t (by simp [ht])
        omega
    exact this _ fun t ht => (he.2.2 t ht).1
  calc L * hi < L * (2 * lo) := Nat.mul_lt_mul_of_pos_left hlt hL
    _ = 2 * (L * lo) := by rw [Nat.mul_left_comm]
    _ ≤ 2 * (N * N) := Nat.mul_le_mul_left 2 hsum

section Examples

/-- default parameters, 512 × 512, 100 localities: at most two of them compute -/
example (aw : List (List Work)) (h : create_schedule ⟨256, 10000, fun _ _ => false⟩ 512 100 = .ok aw) :
    busy aw ≤ 2 :=
  C111_two_workers _ 512 100 (by decide) aw h

/-- 8 × 8 with packages of at least 4, five localities: 4 packages on 2 localities -/
example : create_schedule ⟨4, 1, fun _ _ => false⟩ 8 5 =
    .ok [[⟨0, 0, 4⟩, ⟨4, 0, 4⟩], [⟨0, 4, 4⟩, ⟨4, 4, 4⟩], [], [], []] := by rfl

/-- 8 × 8 with packages of at least 2, four localities: perfectly balanced -/
example : ∃ s, create_schedule_state ⟨2, 1, fun _ _ => false⟩ 8 4 = .ok s ∧
    s.total_work = [16, 16, 16, 16] := ⟨_, rfl, rfl⟩

/-- three localities and the bound 0: no constraint ever holds, the largest load is less than twice
the smallest one -/
example : ∃ s, create_schedule_state ⟨0, 0, fun _ _ => false⟩ 8 3 = .ok s ∧
    Extent s.total_work 20 22 := ⟨_, rfl, by unfold Extent; decide⟩

example (aw : List (List Work)) (h : create_schedule ⟨256, 10000, fun _ _ => false⟩ 100 3 = .ok aw) :
    aw = [[⟨0, 0, 100⟩], [], []] :=
  C111_one_worker _ 100 3 (by decide) aw h

end Examples

end Verif.Props
