import Verif.Model.Console
import Verif.SpecConsole
/-
Searching in the output of the program (C108).
-/
set_option linter.unusedSectionVars false
namespace Verif.Console

/-- The shortest text without an end of line that is followed by `stop`. -/
def group (stop : Text) : Text → Option Text
  | [] => if stop = [] then some [] else none
  | c :: t => if stop.isPrefixOf (c :: t) then some []
      else if c = '\n' then none else (group stop t).map (c :: ·)

/-- The first match. -/
def search (key stop : Text) : Text → Option Text
  | [] => if key = [] then group stop [] else none
  | c :: t =>
    match (if key.isPrefixOf (c :: t) then group stop ((c :: t).drop key.length) else none) with
    | some g => some g
    | none => search key stop t

theorem group_some {stop : Text} : ∀ {t g : Text}, group stop t = some g →
    (∃ after, t = g ++ stop ++ after) ∧ '\n' ∉ g ∧
      ∀ g' after', t = g' ++ stop ++ after' → g.length ≤ g'.length
  | [], g, h => by
    simp only [group] at h
    split at h
    · next hs => cases h; simp [hs]
    · cases h
  | c :: t, g, h => by
    simp only [group] at h
    split at h
    · next hs =>
      cases h
      obtain ⟨r, hr⟩ := List.isPrefixOf_iff_prefix.1 hs
      exact ⟨⟨r, by simp [hr]⟩, by simp, by simp⟩
    · next hs =>
      split at h
      · cases h
      · next hc =>
        cases hg : group stop t with
        | none => rw [hg] at h; cases h
        | some g0 =>
          rw [hg] at h
          cases h
          obtain ⟨⟨a, ha⟩, h1, h2⟩ := group_some hg
          refine ⟨⟨a, by simp [ha]⟩, ?_, fun g' after' h' => ?_⟩
          · simp only [List.mem_cons, not_or]
            exact ⟨fun h => hc h.symm, h1⟩
          · cases g' with
            | nil =>
              exact absurd (List.isPrefixOf_iff_prefix.2 ⟨after', by simpa using h'.symm⟩) hs
            | cons d g' =>
              simp only [List.cons_append, List.cons.injEq] at h'
              have := h2 g' after' h'.2
              simpa using this

theorem group_none {stop : Text} : ∀ {t : Text}, group stop t = none →
    ∀ g after, t = g ++ stop ++ after → '\n' ∈ g
  | [], h, g, after, ht => by
    simp only [group] at h
    split at h
    · cases h
    · next hs =>
      have := congrArg List.length ht
      simp only [List.length_nil, List.length_append] at this
      exact absurd (List.eq_nil_of_length_eq_zero (by omega)) hs
  | c :: t, h, g, after, ht => by
    simp only [group] at h
    split at h
    · cases h
    · next hs =>
      cases g with
      | nil => exact absurd (List.isPrefixOf_iff_prefix.2 ⟨after, by simpa using ht.symm⟩) hs
      | cons d g =>
        simp only [List.cons_append, List.cons.injEq] at ht
        split at h
        · next hc => rw [← ht.1, hc]; exact List.mem_cons_self
        · have hg : group stop t = none := by
            cases hg : group stop t with
            | none => rfl
            | some _ => rw [hg] at h; cases h
          exact List.mem_cons_of_mem _ (group_none hg g after ht.2)

theorem search_some {key stop : Text} : ∀ {t g : Text}, search key stop t = some g →
    ∃ before, Matches key stop t before g ∧ ∀ before' g', Matches key stop t before' g' →
      before.length < before'.length ∨ (before.length = before'.length ∧ g.length ≤ g'.length)
  | [], g, h => by
    simp only [search] at h
    split at h
    · next hk =>
      obtain ⟨⟨a, ha⟩, h1, h2⟩ := group_some h
      refine ⟨[], ⟨⟨a, by simpa [hk] using ha⟩, h1⟩, ?_⟩
      rintro before' g' ⟨⟨a', ha'⟩, h1'⟩
      have hb : before' = [] := by
        have := congrArg List.length ha'
        simp only [List.length_nil, List.length_append] at this
        exact List.eq_nil_of_length_eq_zero (by omega)
      exact .inr ⟨by rw [hb], h2 g' a' (by simpa [hk, hb] using ha')⟩
    · cases h
  | c :: t, g, h => by
    simp only [search] at h
    split at h
    · next g0 hm =>
      cases h
      split at hm
      · next hk =>
        obtain ⟨r, hr⟩ := List.isPrefixOf_iff_prefix.1 hk
        rw [← hr, List.drop_left] at hm
        obtain ⟨⟨a, ha⟩, h1, h2⟩ := group_some hm
        refine ⟨[], ⟨⟨a, by rw [← hr, ha]; simp⟩, h1⟩, ?_⟩
        rintro before' g' ⟨⟨a', ha'⟩, h1'⟩
        cases before' with
        | nil =>
          refine .inr ⟨rfl, h2 g' a' ?_⟩
          rw [← hr] at ha'
          simpa using ha'
        | cons _ _ => exact .inl (by simp)
      · cases hm
    · next hm =>
      obtain ⟨before, ⟨⟨a, ha⟩, h1⟩, h2⟩ := search_some h
      refine ⟨c :: before, ⟨⟨a, by simp [ha]⟩, h1⟩, ?_⟩
      rintro before' g' ⟨⟨a', ha'⟩, h1'⟩
      cases before' with
      | nil =>
        exfalso
        have hk : key.isPrefixOf (c :: t) = true :=
          List.isPrefixOf_iff_prefix.2 ⟨g' ++ stop ++ a', by simpa using ha'.symm⟩
        rw [if_pos hk, ha'] at hm
        simp only [List.nil_append, List.append_assoc, List.drop_left] at hm
        exact h1' (group_none hm g' a' (by simp))
      | cons d before' =>
        simp only [List.cons_append, List.cons.injEq] at ha'
        have := h2 before' g' ⟨⟨a', ha'.2⟩, h1'⟩
        simp only [List.length_cons]
        omega

theorem search_none {key stop : Text} : ∀ {t : Text}, search key stop t = none →
    ∀ before g, ¬ Matches key stop t before g
  | [], h, before, g, hm => by
    obtain ⟨⟨a, ha⟩, h1⟩ := hm
    have := congrArg List.length ha
    simp only [List.length_nil, List.length_append] at this
    have hk : key = [] := List.eq_nil_of_length_eq_zero (by omega)
    have hs : stop = [] := List.eq_nil_of_length_eq_zero (by omega)
    simp [search, hk, group, hs] at h
  | c :: t, h, before, g, hm => by
    simp only [search] at h
    split at h
    · cases h
    · next hn =>
      obtain ⟨⟨a, ha⟩, h1⟩ := hm
      cases before with
      | nil =>
        have hk : key.isPrefixOf (c :: t) = true :=
          List.isPrefixOf_iff_prefix.2 ⟨g ++ stop ++ a, by simpa using ha.symm⟩
        rw [if_pos hk, ha] at hn
        simp only [List.nil_append, List.append_assoc, List.drop_left] at hn
        exact h1 (group_none hn g a (by simp))
      | cons d before =>
        simp only [List.cons_append, List.cons.injEq] at ha
        exact search_none h before g ⟨⟨a, ha.2⟩, h1⟩

theorem reads_of_search {key stop : String} {t g : Text}
    (h : search key.toList stop.toList t = some g) : Reads key stop t g := search_some h

theorem unreadable_of_search {key stop : String} {t : Text}
    (h : search key.toList stop.toList t = none) : Unreadable key stop t := search_none h

/-! ### Texts in which a key cannot begin -/

/-- One of the two texts begins with the other. -/
def compat : Text → Text → Bool
  | [], _ => true
  | _, [] => true
  | a :: k, b :: t => a == b && compat k t

/-- No occurrence of `key` begins in the text, whatever follows it. -/
def quiet (key : Text) : Text → Bool
  | [] => true
  | c :: t => !compat key (c :: t) && quiet key t

theorem compat_of_prefix : ∀ {key l r : Text}, key.isPrefixOf (l ++ r) = true → compat key l = true
  | [], _, _, _ => by simp [compat]
  | _ :: _, [], _, _ => by simp [compat]
  | a :: k, b :: l, r, h => by
    simp only [List.cons_append, List.isPrefixOf, Bool.and_eq_true] at h
    simp only [compat, Bool.and_eq_true]
    exact ⟨h.1, compat_of_prefix h.2⟩

theorem search_quiet {key stop : Text} : ∀ {l r : Text}, quiet key l = true →
    search key stop (l ++ r) = search key stop r
  | [], _, _ => rfl
  | c :: l, r, h => by
    simp only [quiet, Bool.and_eq_true, Bool.not_eq_true'] at h
    have hk : ¬ key.isPrefixOf (c :: l ++ r) = true := fun hp => by
      rw [compat_of_prefix hp] at h; exact absurd h.1 (by decide)
    rw [List.cons_append, search]
    rw [List.cons_append] at hk
    rw [if_neg hk]
    exact search_quiet h.2

theorem quiet_append {key : Text} : ∀ {l r : Text}, quiet key l = true → quiet key r = true →
    quiet key (l ++ r) = true
  | [], _, _, h => h
  | c :: l, r, hl, hr => by
    simp only [quiet, Bool.and_eq_true, Bool.not_eq_true'] at hl
    simp only [List.cons_append, quiet, Bool.and_eq_true, Bool.not_eq_true']
    refine ⟨?_, quiet_append hl.2 hr⟩
    rw [← Bool.not_eq_true]
    intro h
    have : ∀ {k l r : Text}, compat k (l ++ r) = true → compat k l = true := by
      intro k
      induction k with
      | nil => intros; simp [compat]
      | cons a k ih =>
        intro l r h
        cases l with
        | nil => simp [compat]
        | cons b l =>
          simp only [List.cons_append, compat, Bool.and_eq_true] at h ⊢
          exact ⟨h.1, ih h.2⟩
    rw [← List.cons_append] at h
    rw [this h] at hl
    exact absurd hl.1 (by decide)

/-- The first character of the key does not occur. -/
theorem quiet_head {k : Char} {ks : Text} : ∀ {l : Text}, k ∉ l → quiet (k :: ks) l = true
  | [], _ => rfl
  | c :: l, h => by
    simp only [List.mem_cons, not_or] at h
    simp only [quiet, compat, Bool.and_eq_true, Bool.not_eq_true', Bool.and_eq_false_iff]
    exact ⟨.inl (by simpa using h.1), quiet_head h.2⟩

/-- The second character of the key does not occur, and another character follows. -/
theorem quiet_second {k k' d : Char} {ks : Text} (hd : d ≠ k) (hd' : d ≠ k') :
    ∀ {l : Text}, k' ∉ l → quiet (k :: k' :: ks) (l ++ [d]) = true
  | [], _ => by simp [quiet, compat, Ne.symm hd]
  | c :: l, h => by
    simp only [List.mem_cons, not_or] at h
    rw [List.cons_append, quiet, quiet_second hd hd' h.2, Bool.and_true]
    have : ∃ c' l', l ++ [d] = c' :: l' ∧ c' ≠ k' := by
      cases l with
      | nil => exact ⟨d, [], rfl, hd'⟩
      | cons c' l =>
        simp only [List.mem_cons, not_or] at h
        exact ⟨c', l ++ [d], rfl, fun e => h.2.1 e.symm⟩
    obtain ⟨c', l', hl, hc⟩ := this
    rw [hl]
    simp [compat, Ne.symm hc]

/-- A text in which the key does not occur, followed by a character that the key does not contain. -/
theorem quiet_end {key : Text} {d : Char} (hn : d ∉ key) (h0 : key ≠ []) : ∀ {l : Text},
    ¬ key <:+: l → quiet key (l ++ [d]) = true
  | [], _ => by
    cases key with
    | nil => exact absurd rfl h0
    | cons k ks =>
      simp only [List.mem_cons, not_or] at hn
      simp [quiet, compat, Ne.symm hn.1]
  | c :: l, h => by
    have hl : ¬ key <:+: l := fun h' => h (h'.trans ⟨[c], [], by simp⟩)
    rw [List.cons_append, quiet, quiet_end hn h0 hl, Bool.and_true]
    have : ∀ {k t : Text}, d ∉ k → compat k (t ++ [d]) = true → k <+: t := by
      intro k
      induction k with
      | nil => intros; exact List.nil_prefix
      | cons a k ih =>
        intro t hk hc
        simp only [List.mem_cons, not_or] at hk
        cases t with
        | nil =>
          simp only [List.nil_append, compat, Bool.and_eq_true, beq_iff_eq] at hc
          exact absurd hc.1.symm hk.1
        | cons b t =>
          simp only [List.cons_append, compat, Bool.and_eq_true, beq_iff_eq] at hc
          rw [hc.1]
          exact List.cons_prefix_cons.2 ⟨rfl, ih hk.2 hc.2⟩
    rw [Bool.not_eq_true', ← Bool.not_eq_true]
    intro hc
    rw [← List.cons_append] at hc
    exact h (this hn hc).isInfix

theorem quiet_lines {key : Text} (hn : '\n' ∉ key) (h0 : key ≠ []) : ∀ {ls : List Text},
    (∀ l ∈ ls, ¬ key <:+: l) → quiet key (lines ls) = true
  | [], _ => rfl
  | l :: ls, h => by
    rw [lines, List.flatMap_cons]
    exact quiet_append (quiet_end hn h0 (h l List.mem_cons_self))
      (quiet_lines hn h0 fun l' h' => h l' (List.mem_cons_of_mem _ h'))

/-! ### Finding a number -/

theorem group_numeral {s : Char} {ss g r : Text} (h : ∀ c ∈ g, c ≠ s ∧ c ≠ '\n') :
    group (s :: ss) (g ++ (s :: ss ++ r)) = some g := by
  induction g with
  | nil =>
    simp only [List.nil_append, List.cons_append, group]
    rw [if_pos]
    simp only [List.isPrefixOf, BEq.rfl, Bool.true_and]
    exact List.isPrefixOf_iff_prefix.2 ⟨r, rfl⟩
  | cons c g ih =>
    have hc := h c List.mem_cons_self
    rw [List.cons_append, group, if_neg, if_neg hc.2, ih fun d hd => h d (List.mem_cons_of_mem _ hd)]
    · rfl
    · simp [List.isPrefixOf, Ne.symm hc.1]

theorem search_hit {k : Char} {ks stop t g : Text} (h : group stop t = some g) :
    search (k :: ks) stop (k :: ks ++ t) = some g := by
  rw [List.cons_append, search, if_pos]
  · rw [← List.cons_append, List.drop_left, h]
  · exact List.isPrefixOf_iff_prefix.2 ⟨t, rfl⟩

/-! ### Numbers -/

theorem not_mem_dec {c : Char} (hc : c.isDigit = false) (n : Nat) : c ∉ dec n := fun h => by
  have := Nat.isDigit_of_mem_toDigits (by decide) (by decide) h
  rw [hc] at this
  cases this

theorem numeral_not_mem {t : Text} (h : Numeral t) {c : Char} (hd : c.isDigit = false)
    (hc : c ∉ ['+', '-', '.', 'e', 'i', 'n', 'f', 'a']) : c ∉ t := fun hm => by
  rcases h c hm with h' | h'
  · rw [hd] at h'; cases h'
  · exact hc h'

/-! ### The parts of the output -/

/-- A key that does not begin in a number that is followed by `d`. -/
def clear (key : Text) (d : Char) : Bool :=
  match key with
  | k :: k' :: _ => d != k && !k.isDigit && (!['+', '-', '.', 'e', 'i', 'n', 'f', 'a'].contains k ||
      (d != k' && !k'.isDigit && !['+', '-', '.', 'e', 'i', 'n', 'f', 'a'].contains k'))
  | _ => false

theorem quiet_numeral {key t : Text} {d : Char} (h : Numeral t) (hc : clear key d = true) :
    quiet key (t ++ [d]) = true := by
  unfold clear at hc
  split at hc
  · next k k' ks =>
    simp only [Bool.and_eq_true, bne_iff_ne, ne_eq, Bool.not_eq_true', Bool.or_eq_true,
      List.contains_eq_mem, decide_eq_false_iff_not] at hc
    obtain ⟨⟨h1, h2⟩, h3 | ⟨⟨h3, h4⟩, h5⟩⟩ := hc
    · refine quiet_head ?_
      simp only [List.mem_append, List.mem_singleton, not_or]
      exact ⟨numeral_not_mem h h2 h3, fun e => h1 e.symm⟩
    · exact quiet_second h1 h3 (numeral_not_mem h h4 h5)
  · cases hc

theorem quiet_numeral' {key t r : Text} {d : Char} (h : Numeral t) (hc : clear key d = true)
    (hr : quiet key r = true) : quiet key (t ++ d :: r) = true := by
  rw [show t ++ d :: r = t ++ [d] ++ r by simp]
  exact quiet_append (quiet_numeral h hc) hr

theorem quiet_dec {k : Char} {ks : Text} (hk : k.isDigit = false) (n : Nat) :
    quiet (k :: ks) (dec n) = true := quiet_head (not_mem_dec hk n)

end Verif.Console
