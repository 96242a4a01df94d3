import Verif.Proof.Components
/-
Lemmas about `print_schedule` of Model/Components.lean: the text can be read back.
-/
namespace Verif.Components
open Verif.Kernel Verif.Recursive Verif.StaticImproved Verif.Console

theorem split_at {c : Char} : ∀ {a a' r r' : Text}, c ∉ a → c ∉ a' → a ++ c :: r = a' ++ c :: r' →
    a = a' ∧ r = r'
  | [], [], _, _, _, _, h => by simpa using h
  | [], d :: a', _, _, _, h', h => by
    simp only [List.nil_append, List.cons_append, List.cons.injEq] at h
    exact absurd (h.1 ▸ List.mem_cons_self) h'
  | d :: a, [], _, _, h', _, h => by
    simp only [List.nil_append, List.cons_append, List.cons.injEq] at h
    exact absurd (h.1 ▸ List.mem_cons_self) h'
  | d :: a, d' :: a', r, r', h1, h2, h => by
    simp only [List.cons_append, List.cons.injEq] at h
    obtain ⟨rfl, h⟩ := h
    obtain ⟨h3, h4⟩ := split_at (fun hc => h1 (List.mem_cons_of_mem _ hc))
      (fun hc => h2 (List.mem_cons_of_mem _ hc)) h
    exact ⟨by rw [h3], h4⟩

theorem not_mem_dec {c : Char} (hc : c.isDigit = false) (n : Nat) : c ∉ dec n := fun h => by
  have := Nat.isDigit_of_mem_toDigits (by decide) (by decide) h
  rw [hc] at this
  cases this

theorem range_flatMap {β γ : Type} (f : Nat → β → List γ) (d : β) : ∀ (l : List β) (k : Nat),
    (List.range l.length).flatMap (fun i => f (k + i) (l.getD i d)) =
      (l.zipIdx k).flatMap fun p => f p.2 p.1
  | [], _ => rfl
  | b :: l, k => by
    rw [List.length_cons, List.range_succ_eq_map, List.flatMap_cons, List.flatMap_map, List.zipIdx_cons,
      List.flatMap_cons, ← range_flatMap f d l (k + 1)]
    simp only [List.getD_cons_zero, List.getD_cons_succ, Nat.add_zero]
    congr 2
    funext i
    rw [Nat.succ_eq_add_one, Nat.add_right_comm, Nat.add_assoc]

/-- The sizes of one line, the first of them with index `k`. -/
def sizes (k : Nat) (ws : List Work) : Text :=
  (ws.zipIdx k).flatMap fun p =>
    (if p.2 > 0 then ", ".toList else []) ++ ("[".toList ++ dec p.1.N ++ "]".toList)

theorem localityLine_eq (i : Nat) (ws : List Work) :
    localityLine i ws = "locality: ".toList ++ dec i ++ " = ".toList ++ sizes 0 ws := by
  unfold localityLine sizes
  rw [← range_flatMap (fun j (w : Work) => (if j > 0 then ", ".toList else []) ++
    ("[".toList ++ dec w.N ++ "]".toList)) ⟨0, 0, 0⟩ ws 0]
  simp only [Nat.zero_add]

theorem sizes_inj : ∀ {ws ws' : List Work} {k : Nat}, sizes k ws = sizes k ws' →
    ws.map (·.N) = ws'.map (·.N)
  | [], [], _, _ => rfl
  | [], w' :: ws', k, h => by
    simp [sizes, List.zipIdx_cons] at h
  | w :: ws, [], k, h => by
    simp [sizes, List.zipIdx_cons] at h
  | w :: ws, w' :: ws', k, h => by
    simp only [sizes, List.zipIdx_cons, List.flatMap_cons, List.append_assoc] at h
    have h := List.append_cancel_left (List.append_cancel_left h)
    obtain ⟨h1, h2⟩ := split_at (not_mem_dec (by decide) _) (not_mem_dec (by decide) _)
      (show dec w.N ++ ']' :: sizes (k + 1) ws = dec w'.N ++ ']' :: sizes (k + 1) ws' from h)
    rw [List.map_cons, List.map_cons, dec_inj h1, sizes_inj h2]

theorem newline_sizes (ws : List Work) (k : Nat) : '\n' ∉ sizes k ws := by
  intro h
  obtain ⟨p, _, h⟩ := List.mem_flatMap.1 h
  simp only [List.mem_append] at h
  rcases h with h | (h | h) | h
  · split at h <;> simp at h
  · simp at h
  · exact not_mem_dec (by decide) _ h
  · simp at h

theorem newline_line (i : Nat) (ws : List Work) : '\n' ∉ localityLine i ws := by
  rw [localityLine_eq]
  simp only [List.mem_append]
  rintro (((h | h) | h) | h)
  · simp at h
  · exact not_mem_dec (by decide) _ h
  · simp at h
  · exact newline_sizes _ _ h

theorem lines_inj : ∀ {aw aw' : List (List Work)} {k : Nat},
    ((aw.zipIdx k).flatMap fun p => localityLine p.2 p.1 ++ endl) =
      ((aw'.zipIdx k).flatMap fun p => localityLine p.2 p.1 ++ endl) →
    aw.map (·.map (·.N)) = aw'.map (·.map (·.N))
  | [], [], _, _ => rfl
  | [], ws' :: aw', k, h => by
    simp [List.zipIdx_cons, endl] at h
  | ws :: aw, [], k, h => by
    simp [List.zipIdx_cons, endl] at h
  | ws :: aw, ws' :: aw', k, h => by
    simp only [List.zipIdx_cons, List.flatMap_cons, List.append_assoc, endl, List.cons_append,
      List.nil_append] at h
    obtain ⟨h1, h2⟩ := split_at (newline_line _ _) (newline_line _ _) h
    rw [localityLine_eq, localityLine_eq] at h1
    rw [List.map_cons, List.map_cons, sizes_inj (List.append_cancel_left h1), lines_inj h2]

theorem print_schedule_inj {aw aw' : List (List Work)} (h : print_schedule aw = print_schedule aw') :
    aw.map (·.map (·.N)) = aw'.map (·.map (·.N)) := by
  have e : ∀ aw, print_schedule aw = "-----work-distribution:-----".toList ++ endl ++
      (aw.zipIdx 0).flatMap fun p => localityLine p.2 p.1 ++ endl := by
    intro aw
    unfold print_schedule
    rw [← range_flatMap (fun i ws => localityLine i ws ++ endl) [] aw 0]
    simp only [Nat.zero_add]
  rw [e, e] at h
  exact lines_inj (List.append_cancel_left h)

theorem print_schedule_congr {aw aw' : List (List Work)}
    (h : aw.map (·.map (·.N)) = aw'.map (·.map (·.N))) : print_schedule aw = print_schedule aw' := by
  have hlen : aw.length = aw'.length := by simpa using congrArg List.length h
  unfold print_schedule
  rw [hlen]
  congr 1
  congr 1
  funext i
  have hi : (aw.getD i []).map (·.N) = (aw'.getD i []).map (·.N) := by
    have := congrArg (fun l : List (List Nat) => l.getD i []) h
    simp only [List.getD_eq_getElem?_getD, List.getElem?_map] at this ⊢
    cases h1 : aw[i]? <;> cases h2 : aw'[i]? <;> simp_all
  generalize aw.getD i [] = ws at hi
  generalize aw'.getD i [] = ws' at hi
  have hl : ws.length = ws'.length := by simpa using congrArg List.length hi
  unfold localityLine
  rw [hl]
  congr 2
  congr 1
  funext j
  have hj : (ws.getD j ⟨0, 0, 0⟩).N = (ws'.getD j ⟨0, 0, 0⟩).N := by
    have := congrArg (fun l : List Nat => l.getD j 0) hi
    simp only [List.getD_eq_getElem?_getD, List.getElem?_map] at this ⊢
    cases h1 : ws[j]? <;> cases h2 : ws'[j]? <;> simp_all
  rw [hj]

end Verif.Components
