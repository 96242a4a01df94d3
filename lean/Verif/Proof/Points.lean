import Verif.Proof.Iterate
import Verif.Core.Mat
import Mathlib.Data.List.Perm.Basic
import Mathlib.Data.List.Sort
import Mathlib.Data.List.GetD
/-
Helper lemmas about updates made at the points of a three-dimensional grid.
-/
set_option linter.unusedSectionVars false
namespace Verif.IndexIterator
variable {ι α : Type}

theorem MDoes.foldlM {l : List ι} {f : Array α → ι → M (Array α)} {us : ι → List (Upd α)}
    (h : ∀ i ∈ l, MDoes (fun a => f a i) (us i)) :
    MDoes (fun a => l.foldlM f a) (l.flatMap us) := by
  intro a ha
  show l.foldlM f a = _
  induction l generalizing a with
  | nil => rfl
  | cons i l ih =>
    have hi : f a i = .ok (applyA (us i) a) := h i (by simp) a fun u hu => ha u (by simp [hu])
    rw [List.foldlM_cons, hi]
    rw [List.flatMap_cons, applyA_append]
    refine ih (fun j hj => h j (by simp [hj])) _ fun u hu => ?_
    rw [applyA_size]
    exact ha u (by simp only [List.flatMap_cons, List.mem_append]; exact .inr hu)

/-- Only the iterations selected by `q` touch cell `p`. -/
theorem cellFold_filter {l : List ι} {us : ι → List (Upd α)} {p : Nat} {x : α} (q : ι → Bool)
    (h : ∀ i ∈ l, q i = false → ∀ u ∈ us i, u.1 ≠ p) :
    cellFold (l.flatMap us) p x = cellFold ((l.filter q).flatMap us) p x := by
  induction l generalizing x with
  | nil => rfl
  | cons i l ih =>
    have ih := fun x => ih (x := x) fun i hi => h i (by simp [hi])
    rw [List.flatMap_cons, cellFold_append, List.filter_cons]
    cases hq : q i with
    | true => rw [if_pos rfl, List.flatMap_cons, cellFold_append, ih]
    | false =>
      rw [cellFold_none (us := us i) (h i (by simp) hq), ih]
      rfl

theorem getD_three {p : List Nat} (h : p.length = 3) :
    p = [p.getD 0 0, p.getD 1 0, p.getD 2 0] := by
  match p, h with
  | [a, b, c], _ => rfl

theorem onGrid_three {X Y K sx sy sk : Nat} {p : List Nat} :
    OnGrid [0, 0, 0] [X, Y, K] [sx, sy, sk] p ↔ p.length = 3 ∧
      (∃ t, p.getD 0 0 = t * sx ∧ p.getD 0 0 < X) ∧ (∃ t, p.getD 1 0 = t * sy ∧ p.getD 1 0 < Y) ∧
      (∃ t, p.getD 2 0 = t * sk ∧ p.getD 2 0 < K) := by
  unfold OnGrid
  refine and_congr Iff.rfl ⟨fun h => ?_, fun h d hd => ?_⟩
  · have h0 := h 0 (by simp)
    have h1 := h 1 (by simp)
    have h2 := h 2 (by simp)
    simp only [List.getD_cons_zero, List.getD_cons_succ, Nat.zero_add] at h0 h1 h2
    exact ⟨h0, h1, h2⟩
  · obtain ⟨h0, h1, h2⟩ := h
    match d, hd with
    | 0, _ => simpa using h0
    | 1, _ => simpa using h1
    | 2, _ => simpa using h2

/-- The points with given first two coordinates, in order. -/
theorem filter_k {l : List (List Nat)} {X Y K sx sy sk : Nat} (hl : l.Pairwise SomeLt)
    (hm : ∀ p, p ∈ l ↔ OnGrid [0, 0, 0] [X, Y, K] [sx, sy, sk] p) (hk : 0 < sk) {x y : Nat}
    (hx : ∃ t, x = t * sx ∧ x < X) (hy : ∃ t, y = t * sy ∧ y < Y) :
    l.filter (fun p => decide (p.getD 0 0 = x ∧ p.getD 1 0 = y)) =
      (steps 0 K sk).map fun k => [x, y, k] := by
  have h1 : (l.filter (fun p => decide (p.getD 0 0 = x ∧ p.getD 1 0 = y))).Pairwise
      fun p q => p.getD 2 0 < q.getD 2 0 := by
    refine (List.Pairwise.and_mem.1 (hl.filter _)).imp ?_
    rintro p q ⟨hp, hq, d, hd⟩
    obtain ⟨hp, hp'⟩ := List.mem_filter.1 hp
    obtain ⟨hq, hq'⟩ := List.mem_filter.1 hq
    have hp' := of_decide_eq_true hp'
    have hq' := of_decide_eq_true hq'
    have l1 := (onGrid_three.1 ((hm p).1 hp)).1
    have l2 := (onGrid_three.1 ((hm q).1 hq)).1
    match d with
    | 0 => omega
    | 1 => omega
    | 2 => exact hd
    | d + 3 =>
      rw [List.getD_eq_default _ _ (by omega), List.getD_eq_default _ _ (by omega)] at hd
      omega
  have h2 : ((steps 0 K sk).map fun k => [x, y, k]).Pairwise
      fun p q => p.getD 2 0 < q.getD 2 0 := by
    rw [List.pairwise_map]
    exact (steps_sorted 0 K sk hk).imp fun h => h
  refine List.Perm.eq_of_pairwise (fun a b _ _ h h' => by omega) h1 h2 ?_
  refine (List.perm_ext_iff_of_nodup ?_ ?_).2 fun p => ?_
  · exact h1.imp fun h he => by subst he; omega
  · exact h2.imp fun h he => by subst he; omega
  · rw [List.mem_filter, hm, onGrid_three, List.mem_map]
    constructor
    · rintro ⟨⟨h3, _, _, t, hk1, hk2⟩, he⟩
      obtain ⟨e0, e1⟩ := of_decide_eq_true he
      refine ⟨p.getD 2 0, (mem_steps hk).2 ⟨t, by omega, hk2⟩, ?_⟩
      rw [← e0, ← e1]
      exact (getD_three h3).symm
    · rintro ⟨k, hk', rfl⟩
      obtain ⟨t, e, hlt⟩ := (mem_steps hk).1 hk'
      refine ⟨⟨rfl, hx, hy, t, by simpa using e, hlt⟩, by simp⟩

end Verif.IndexIterator
