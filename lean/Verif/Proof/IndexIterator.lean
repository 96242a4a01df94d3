import Verif.Model.IndexIterator
import Verif.Core.Loop
import Mathlib.Data.List.Forall2
/-
Helper lemmas about the index iterator.
-/
set_option linter.unusedSectionVars false
namespace Verif.IndexIterator

/-- One dimension of an iteration: minimum, maximum, step. -/
abbrev Dim := Nat × Nat × Nat

/-- Number of positions in one dimension (a dimension without room has one position). -/
def cnt (d : Dim) : Nat := max 1 (ceilDiv (d.2.1 - d.1) d.2.2)

def total : List Dim → Nat
  | [] => 1
  | d :: ds => cnt d * total ds

/-- Closed form of the `n`-th position. -/
def pos : List Dim → Nat → List Nat
  | [], _ => []
  | d :: ds, n => (d.1 + n % cnt d * d.2.2) :: pos ds (n / cnt d)

/-- `increment`, by recursion over the dimensions. -/
def incRec : List Dim → List Nat → Option (List Nat)
  | d :: ds, c :: cs =>
    if c + d.2.2 < d.2.1 then some ((c + d.2.2) :: cs)
    else (incRec ds cs).map (d.1 :: ·)
  | _, _ => none

theorem foldl_set_cons (mn : Nat → Nat) (c : Nat) (cs : List Nat) (d : Nat) :
    (List.range (d + 1)).foldl (fun cur i => cur.set i (mn i)) (c :: cs) =
      mn 0 :: (List.range d).foldl (fun cur i => cur.set i (mn (i + 1))) cs := by
  rw [List.range_succ_eq_map, List.foldl_cons, List.set_cons_zero, List.foldl_map]
  generalize List.range d = l
  induction l generalizing cs with
  | nil => rfl
  | cons a l ih => rw [List.foldl_cons, List.foldl_cons, List.set_cons_succ, ih]

theorem incRec_eq (ds : List Dim) (cur : List Nat) (h : cur.length = ds.length) :
    ((List.range cur.length).find? fun d =>
        decide (cur.getD d 0 + (ds.map (·.2.2)).getD d 0 < (ds.map (·.2.1)).getD d 0)).map
      (fun d => (List.range d).foldl (fun cur i => cur.set i ((ds.map (·.1)).getD i 0))
        (cur.set d (cur.getD d 0 + (ds.map (·.2.2)).getD d 0))) = incRec ds cur := by
  induction ds generalizing cur with
  | nil =>
    have : cur = [] := List.length_eq_zero_iff.1 h
    subst this; rfl
  | cons d ds ih =>
    cases cur with
    | nil => simp at h
    | cons c cs =>
      have ih := ih cs (by simpa using h)
      rw [incRec, List.length_cons, List.range_succ_eq_map, List.find?_cons]
      simp only [List.map_cons, List.getD_cons_zero]
      by_cases hc : c + d.2.2 < d.2.1
      · simp [hc]
      · rw [if_neg hc, ← ih, List.find?_map]
        simp only [decide_eq_false hc, Option.map_map]
        congr 1
        funext i
        simp only [Function.comp, List.set_cons_succ, List.getD_cons_succ]
        rw [foldl_set_cons (fun i => (d.1 :: ds.map (·.1)).getD i 0)]
        rfl

theorem increment_eq (ds : List Dim) (cur : List Nat) (h : cur.length = ds.length) :
    increment (ds.map (·.1)) (ds.map (·.2.1)) (ds.map (·.2.2)) cur = (incRec ds cur).getD cur := by
  rw [← incRec_eq ds cur h, increment]
  split
  · rename_i h; rw [h]; rfl
  · rename_i h; rw [h]; rfl

theorem cnt_pos (d : Dim) : 0 < cnt d := by unfold cnt; omega

theorem total_pos (ds : List Dim) : 0 < total ds := by
  induction ds with
  | nil => exact Nat.one_pos
  | cons d ds ih => exact Nat.mul_pos (cnt_pos d) ih

theorem pos_length (ds : List Dim) (n : Nat) : (pos ds n).length = ds.length := by
  induction ds generalizing n with
  | nil => rfl
  | cons d ds ih => simp [pos, ih]

theorem pos_zero (ds : List Dim) : pos ds 0 = ds.map (·.1) := by
  induction ds with
  | nil => rfl
  | cons d ds ih => simp [pos, ih]

theorem room_iff {d : Dim} (hs : 0 < d.2.2) {t : Nat} :
    d.1 + t * d.2.2 + d.2.2 < d.2.1 ↔ t + 1 < cnt d := by
  have := @lt_ceilDiv (t + 1) (d.2.1 - d.1) d.2.2 hs
  unfold cnt
  rw [Nat.succ_mul] at this
  omega

theorem incRec_pos (ds : List Dim) (hs : ∀ d ∈ ds, 0 < d.2.2) (n : Nat) (hn : n < total ds) :
    incRec ds (pos ds n) = if n + 1 < total ds then some (pos ds (n + 1)) else none := by
  induction ds generalizing n with
  | nil =>
    rw [total] at hn ⊢
    rw [if_neg (by omega)]; rfl
  | cons d ds ih =>
    rw [pos, incRec, total]
    rw [total] at hn
    have hc := cnt_pos d
    have hdm := Nat.div_add_mod n (cnt d)
    have hml := Nat.mod_lt n hc
    have hdiv : n / cnt d < total ds := (Nat.div_lt_iff_lt_mul hc).2 (by rw [Nat.mul_comm]; exact hn)
    have hmul : cnt d * (n / cnt d + 1) ≤ cnt d * total ds := Nat.mul_le_mul_left _ hdiv
    rw [Nat.mul_add, Nat.mul_one] at hmul
    by_cases hr : n % cnt d + 1 < cnt d
    · rw [if_pos ((room_iff (hs d (by simp))).2 hr), if_pos (by omega), pos]
      have e1 : (n + 1) % cnt d = n % cnt d + 1 := by
        rw [← hdm, Nat.add_assoc, Nat.mul_add_mod, Nat.mod_eq_of_lt hr, hdm]
      have e2 : (n + 1) / cnt d = n / cnt d := by
        rw [← hdm, Nat.add_assoc, Nat.mul_add_div hc, Nat.div_eq_of_lt hr, hdm]; omega
      rw [e1, e2, Nat.succ_mul, Nat.add_assoc]
    · rw [if_neg (fun h => hr ((room_iff (hs d (by simp))).1 h))]
      rw [ih (fun d' hd' => hs d' (by simp [hd'])) _ hdiv]
      have e0 : n + 1 = cnt d * (n / cnt d + 1) := by rw [Nat.mul_add, Nat.mul_one]; omega
      have e1 : (n + 1) % cnt d = 0 := by rw [e0, Nat.mul_mod_right]
      have e2 : (n + 1) / cnt d = n / cnt d + 1 := by rw [e0, Nat.mul_div_cancel_left _ hc]
      by_cases hlt : n / cnt d + 1 < total ds
      · rw [if_pos hlt, if_pos, Option.map_some, pos, e1, e2, Nat.zero_mul, Nat.add_zero (d.1)]
        rw [e0]
        exact Nat.mul_lt_mul_of_pos_left hlt hc
      · rw [if_neg hlt, if_neg, Option.map_none]
        rw [e0, show n / cnt d + 1 = total ds by omega]
        omega

/-- Position of the iterator after `n` increments. -/
theorem iter_eq (ds : List Dim) (hs : ∀ d ∈ ds, 0 < d.2.2) (n : Nat) :
    iter (ds.map (·.1)) (ds.map (·.2.1)) (ds.map (·.2.2)) n = pos ds (min n (total ds - 1)) := by
  have ht := total_pos ds
  induction n with
  | zero => rw [iter, Nat.zero_min, pos_zero]
  | succ n ih =>
    rw [iter, ih, increment_eq ds _ (pos_length _ _), incRec_pos ds hs _ (by omega)]
    by_cases h : n + 1 < total ds
    · rw [show min n (total ds - 1) = n by omega, show min (n + 1) (total ds - 1) = n + 1 by omega,
        if_pos h, Option.getD_some]
    · rw [show min n (total ds - 1) = total ds - 1 by omega,
        show min (n + 1) (total ds - 1) = total ds - 1 by omega, if_neg (by omega), Option.getD_none]

/-- Coordinate `d` of a list. -/
theorem pos_inj (ds : List Dim) (hs : ∀ d ∈ ds, 0 < d.2.2) {n m : Nat} (hn : n < total ds)
    (hm : m < total ds) (h : pos ds n = pos ds m) : n = m := by
  induction ds generalizing n m with
  | nil => rw [total] at hn hm; omega
  | cons d ds ih =>
    rw [pos, pos] at h
    rw [total] at hn hm
    have hc := cnt_pos d
    injection h with h1 h2
    have hd : ∀ k, k < cnt d * total ds → k / cnt d < total ds := fun k hk =>
      (Nat.div_lt_iff_lt_mul hc).2 (by rw [Nat.mul_comm]; exact hk)
    have h2 := ih (fun d' hd' => hs d' (by simp [hd'])) (hd n hn) (hd m hm) h2
    have h1 : n % cnt d = m % cnt d :=
      Nat.eq_of_mul_eq_mul_right (hs d (by simp)) (Nat.add_left_cancel h1)
    rw [← Nat.div_add_mod n (cnt d), ← Nat.div_add_mod m (cnt d), h1, h2]

/-- The positions are exactly the points with coordinates `min + t * step`, `t < cnt`. -/
theorem mem_pos (ds : List Dim) (p : List Nat) :
    (∃ n, n < total ds ∧ pos ds n = p) ↔
      List.Forall₂ (fun (d : Dim) x => ∃ t, t < cnt d ∧ x = d.1 + t * d.2.2) ds p := by
  induction ds generalizing p with
  | nil =>
    constructor
    · rintro ⟨n, _, rfl⟩; exact .nil
    · intro h; cases h; exact ⟨0, Nat.one_pos, rfl⟩
  | cons d ds ih =>
    have hc := cnt_pos d
    constructor
    · rintro ⟨n, hn, rfl⟩
      rw [total] at hn
      exact .cons ⟨n % cnt d, Nat.mod_lt _ hc, rfl⟩ ((ih _).1 ⟨n / cnt d,
        (Nat.div_lt_iff_lt_mul hc).2 (by rw [Nat.mul_comm]; exact hn), rfl⟩)
    · intro h
      cases h with
      | cons h1 h2 =>
        obtain ⟨t, ht, rfl⟩ := h1
        obtain ⟨n, hn, rfl⟩ := (ih _).2 h2
        refine ⟨cnt d * n + t, ?_, ?_⟩
        · rw [total]
          have : cnt d * (n + 1) ≤ cnt d * total ds := Nat.mul_le_mul_left _ hn
          rw [Nat.mul_add, Nat.mul_one] at this
          omega
        · rw [pos, Nat.mul_add_mod, Nat.mod_eq_of_lt ht, Nat.mul_add_div hc, Nat.div_eq_of_lt ht,
            Nat.add_zero]

end Verif.IndexIterator
