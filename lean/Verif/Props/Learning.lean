import Verif.Model.Learning
import Verif.Core.Loop
/-
Properties C81–C82: the loop template of the directory learning.
-/
namespace Verif.Props
open Verif.Learning
variable {σ ω : Type}

/-- All tuples of length `d` with entries from `lo` to `hi - 1`. -/
private def tuples (lo hi : Nat) : Nat → List (List Nat)
  | 0 => [[]]
  | d + 1 => (steps lo hi 1).flatMap fun x => (tuples lo hi d).map (x :: ·)

private theorem mem_steps_one {lo hi x : Nat} : x ∈ steps lo hi 1 ↔ lo ≤ x ∧ x < hi := by
  rw [mem_steps (by decide)]
  constructor
  · rintro ⟨t, rfl, h⟩
    omega
  · rintro ⟨h, h'⟩
    exact ⟨x - lo, by omega, h'⟩

private theorem mem_tuples (lo hi d : Nat) (t : List Nat) :
    t ∈ tuples lo hi d ↔ t.length = d ∧ ∀ x ∈ t, lo ≤ x ∧ x < hi := by
  induction d generalizing t with
  | zero => cases t <;> simp [tuples]
  | succ d ih =>
    simp only [tuples, List.mem_flatMap, List.mem_map, ih, mem_steps_one]
    cases t with
    | nil => simp
    | cons y t =>
      simp only [List.cons.injEq, List.length_cons, Nat.add_right_cancel_iff, List.mem_cons,
        forall_eq_or_imp]
      constructor
      · rintro ⟨x, hx, u, ⟨hu, hb⟩, rfl, rfl⟩
        exact ⟨hu, hx, hb⟩
      · rintro ⟨hl, hy, hb⟩
        exact ⟨y, hy, t, ⟨hl, hb⟩, rfl, rfl⟩

private theorem sorted_tuples (lo hi d : Nat) : (tuples lo hi d).Pairwise (· < ·) := by
  induction d with
  | zero => simp [tuples]
  | succ d ih =>
    rw [tuples, List.pairwise_flatMap]
    refine ⟨fun x _ => List.pairwise_map.2 (ih.imp fun h => List.Lex.cons h), ?_⟩
    refine List.Pairwise.imp (R := (· < ·)) (fun {x y} h a ha b hb => ?_) ?_
    · obtain ⟨a, _, rfl⟩ := List.mem_map.1 ha
      obtain ⟨b, _, rfl⟩ := List.mem_map.1 hb
      exact List.Lex.rel h
    · refine List.pairwise_map.2 (List.pairwise_lt_range.imp fun h => ?_)
      omega

private theorem length_tuples (lo hi d : Nat) : (tuples lo hi d).length = (hi - lo) ^ d := by
  induction d with
  | zero => rfl
  | succ d ih =>
    have : (steps lo hi 1).length = hi - lo := by simp [steps, ceilDiv]
    simp only [tuples, List.length_flatMap, List.length_map, ih, List.map_const', List.sum_replicate_nat,
      this]
    rw [Nat.pow_succ, Nat.mul_comm]

private theorem execute_eq (call : Functor σ ω) (lo hi d : Nat) (f : σ) (args : List Nat) (w : ω) :
    execute_looped call lo hi d f args w =
      (tuples lo hi d).foldlM (fun w t => (call f (args ++ t) w).map (·.2)) w := by
  induction d generalizing args w with
  | zero =>
    simp only [execute_looped, tuples, List.foldlM_cons, List.foldlM_nil, List.append_nil]
    cases call f args w <;> rfl
  | succ d ih =>
    rw [execute_looped, forStep_eq (by decide), tuples]
    generalize steps lo hi 1 = xs
    induction xs generalizing w with
    | nil => rfl
    | cons x xs ihx =>
      rw [List.foldlM_cons, List.flatMap_cons, List.foldlM_append, List.foldlM_map, ih]
      simp only [List.append_assoc, List.singleton_append]
      exact congrArg _ (funext fun w => ihx w)

/-- **C81.** `execute_looped<dim>` calls the function object once for every tuple of `dim` numbers
in `[min, max)`, in lexicographic order, `(max - min) ^ dim` times in all; every call sees the state the
object had at the beginning; the first exception ends the iteration. -/
theorem C81_calls (lo hi d : Nat) : ∃ l : List (List Nat),
    l.Pairwise (· < ·) ∧ (∀ t, t ∈ l ↔ t.length = d ∧ ∀ x ∈ t, lo ≤ x ∧ x < hi) ∧
    l.length = (hi - lo) ^ d ∧
    ∀ (σ ω : Type) (call : Functor σ ω) (f : σ) (w : ω),
      (Looper.mk d lo hi).iterate_simple call f w =
        l.foldlM (fun w t => (call f t w).map (·.2)) w :=
  ⟨tuples lo hi d, sorted_tuples lo hi d, mem_tuples lo hi d, length_tuples lo hi d,
    fun _ _ call f w => execute_eq call lo hi d f [] w⟩

private def piece (t : List Nat) : String :=
  "(" ++ toString (t.getD 0 0) ++ ", " ++ toString (t.getD 1 0) ++ ")"

private theorem print_foldl (xs : List String) (out : String) :
    xs.foldl (fun out x => out ++ ", " ++ x) out = String.intercalate ", " (out :: xs) := by
  induction xs generalizing out with
  | nil => simp
  | cons x xs ih =>
    rw [List.foldl_cons, ih]
    cases xs <;> simp [String.append_assoc]

private theorem print_step (t : List Nat) (ht : t.length = 2) (out : String) :
    (printPair () t out).map (·.2) =
      .ok ((if t = [0, 0] then out else out ++ ", ") ++ piece t) := by
  obtain ⟨i, j, rfl⟩ : ∃ i j, t = [i, j] := by
    match t, ht with
    | [i, j], _ => exact ⟨i, j, rfl⟩
  have h : (i > 0 ∨ j > 0) ↔ ¬ [i, j] = [0, 0] := by
    simp only [List.cons.injEq, and_true]
    omega
  simp only [printPair, piece, List.getD_cons_zero, List.getD_cons_succ, h, ite_not, String.append_assoc]
  rfl

/-- **C82.** The program prints the pairs of numbers below 10 (in general: below `n`) in
lexicographic order, separated by commas, and ends the line. -/
theorem C82_output (n : Nat) : run n = .ok (String.intercalate ", "
    ((List.range n).flatMap fun i => (List.range n).map fun j =>
      "(" ++ toString i ++ ", " ++ toString j ++ ")") ++ "\n") := by
  have hp : ((List.range n).flatMap fun i => (List.range n).map fun j =>
      "(" ++ toString i ++ ", " ++ toString j ++ ")") = (tuples 0 n 2).map piece := by
    simp only [tuples, steps_one, List.map_cons, List.map_nil, List.map_flatMap,
      ← List.map_eq_flatMap]
    simp only [List.map_map]
    rfl
  have hf : ∀ (l : List (List Nat)), (∀ t ∈ l, t.length = 2) → ∀ out,
      l.foldlM (fun w t => (printPair () t w).map (·.2)) out =
        .ok (l.foldl (fun out t => (if t = [0, 0] then out else out ++ ", ") ++ piece t) out) := by
    intro l
    induction l with
    | nil => intros; rfl
    | cons t l ih =>
      intro hl out
      rw [List.foldlM_cons, print_step t (hl t (by simp)), List.foldl_cons,
        ← ih (fun t h => hl t (by simp [h]))]
      rfl
  have hr : ∀ (l : List (List Nat)), (∀ t ∈ l, t ≠ [0, 0]) → ∀ out,
      l.foldl (fun out t => (if t = [0, 0] then out else out ++ ", ") ++ piece t) out =
        (l.map piece).foldl (fun out x => out ++ ", " ++ x) out := by
    intro l
    induction l with
    | nil => intros; rfl
    | cons t l ih =>
      intro hl out
      rw [List.foldl_cons, if_neg (hl t (by simp)), ih (fun t h => hl t (by simp [h]))]
      rfl
  have hrun : run n = (execute_looped printPair 0 n 2 () [] "").map (· ++ "\n") := by
    unfold run Looper.iterate_simple
    cases execute_looped printPair 0 n 2 () [] "" <;> rfl
  rw [hrun, execute_eq, hp]
  simp only [List.nil_append]
  rw [hf _ fun t h => ((mem_tuples _ _ _ _).1 h).1]
  have hs := sorted_tuples 0 n 2
  rcases Nat.eq_zero_or_pos n with rfl | hn
  · rfl
  have h0 : ∃ l, tuples 0 n 2 = [0, 0] :: l := by
    obtain ⟨m, rfl⟩ : ∃ m, n = m + 1 := ⟨n - 1, by omega⟩
    simp only [tuples, steps_one, List.range_succ_eq_map, List.flatMap_cons, List.map_cons,
      List.map_nil, List.cons_append]
    exact ⟨_, rfl⟩
  obtain ⟨l, hl⟩ := h0
  rw [hl] at hs ⊢
  rw [List.foldl_cons, if_pos rfl, hr l (fun t h he => ?_), print_foldl]
  · rfl
  · have := List.rel_of_pairwise_cons hs h
    rw [he] at this
    exact absurd this (by decide)

/-- **C82.** The program prints the hundred pairs of numbers below ten. -/
theorem C82_main : main = .ok (String.intercalate ", "
    ((List.range 10).flatMap fun i => (List.range 10).map fun j =>
      "(" ++ toString i ++ ", " ++ toString j ++ ")") ++ "\n") := C82_output 10

section Examples

/-- the tuples for dimension 2 and bounds 3, 5 -/
example : (Looper.mk 2 3 5).iterate_simple (fun (_ : Unit) t (w : List (List Nat)) => pure ((), w ++ [t]))
    () [] = .ok [[3, 3], [3, 4], [4, 3], [4, 4]] := by rfl

/-- a counter kept in the function object is lost: every call sees 7 -/
example : (Looper.mk 1 0 3).iterate_simple (fun (c : Nat) _ (w : List Nat) => pure (c + 1, w ++ [c]))
    7 [] = .ok [7, 7, 7] := by rfl

example : run 2 = .ok "(0, 0), (0, 1), (1, 0), (1, 1)\n" := by rw [C82_output]; rfl

end Examples
end Verif.Props
