import Verif.Core.Upd
/-
Races on one given location.
-/
namespace Verif
variable {α R S : Type}

/-- Two different tasks that may both run now are about to access `l` and at least one of them
writes. -/
inductive RaceOn (l : Loc) : Tree α → Prop
  | here {ts t u w} (n n' : Nat) :
      n ≠ n' → ts[n]? = some t → ts[n']? = some u → Next t l true → Next u l w → RaceOn l (.par ts)
  | seq {t ts} : RaceOn l t → RaceOn l (.seq (t :: ts))
  | par {t ts} : t ∈ ts → RaceOn l t → RaceOn l (.par ts)

theorem race_iff {t : Tree α} : Race t ↔ ∃ l, RaceOn l t := by
  constructor
  · intro h
    induction h with
    | here n n' hne ht hu h1 h2 => exact ⟨_, .here n n' hne ht hu h1 h2⟩
    | seq _ ih => obtain ⟨l, h⟩ := ih; exact ⟨l, .seq h⟩
    | par hm _ ih => obtain ⟨l, h⟩ := ih; exact ⟨l, .par hm h⟩
  · rintro ⟨l, h⟩
    induction h with
    | here n n' hne ht hu h1 h2 => exact .here n n' hne ht hu h1 h2
    | seq _ ih => exact .seq ih
    | par hm _ ih => exact .par hm ih

theorem WP.next_cell {A F} {t : Tree α} {Q c i w} (h : WP A F t Q c) (hn : Next t (.cell i) w) :
    F i := by
  induction h with
  | act h =>
    cases hn with
    | rd => exact h.1
    | wr => exact h.1
  | seqNil h => cases hn
  | seqCons P hP h1 h2 ih1 ih2 => cases hn with | seq hn => exact ih1 hn
  | par Fs Qs hloc hsub hdis hts hend ih =>
    cases hn with
    | par n ht hn => exact hsub n _ (ih n _ ht hn)

/-- Verified programs that may use flags race at most on flags. -/
theorem WP.no_race_cell {A F} {t : Tree α} {Q c i} (h : WP A F t Q c) : ¬ RaceOn (.cell i) t := by
  induction h with
  | act h => intro hr; cases hr
  | seqNil h => intro hr; cases hr
  | seqCons P hP h1 h2 ih1 ih2 => intro hr; cases hr with | seq hr => exact ih1 hr
  | par Fs Qs hloc hsub hdis hts hend ih =>
    intro hr
    cases hr with
    | here n n' hne ht hu h1 h2 =>
      exact hne (hdis _ _ _ ((hts n _ ht).next_cell h1) ((hts n' _ hu).next_cell h2))
    | par hm hr =>
      obtain ⟨n, hn⟩ := List.mem_iff_getElem?.1 hm
      exact ih n _ hn hr

theorem Tree.Does.no_race_cell {A} {t : Tree α} {us} (h : Tree.Does A t us) {m m' : Mem α} {t'}
    (hs : PSteps m t m' t') (i : Nat) : ¬ RaceOn (.cell i) t' :=
  ((h (fun _ => True) (fun _ _ => trivial) m.cell).steps hs).1.no_race_cell

/-! ### reaching a given state -/

theorem PSteps.trans {m m' m'' : Mem α} {t t' t''} (h : PSteps m t m' t')
    (h' : PSteps m' t' m'' t'') : PSteps m t m'' t'' := by
  induction h with
  | refl => exact h'
  | step hs _ ih => exact .step hs (ih h')

theorem PSteps.seq {m m' : Mem α} {t t'} (h : PSteps m t m' t') (ts : List (Tree α)) :
    PSteps m (.seq (t :: ts)) m' (.seq (t' :: ts)) := by
  induction h with
  | refl => exact .refl
  | step hs _ ih => exact .step (.seqStep hs) ih

theorem PSteps.par {m m' : Mem α} {t t'} (h : PSteps m t m' t') :
    ∀ {ts : List (Tree α)} {n : Nat}, ts[n]? = some t →
      PSteps m (.par ts) m' (.par (ts.set n t')) := by
  induction h with
  | @refl m t =>
    intro ts n hn
    obtain ⟨hlt, rfl⟩ := List.getElem?_eq_some_iff.1 hn
    rw [List.set_getElem_self]
    exact .refl
  | @step m t m' t' m'' t'' hs _ ih =>
    intro ts n hn
    obtain ⟨hlt, _⟩ := List.getElem?_eq_some_iff.1 hn
    have := ih (ts := ts.set n t') (n := n) (by simp [hlt])
    rw [List.set_set] at this
    exact .step (.parStep n hn hs) this

theorem Act.wp_reach {F} {p : Act α R} {Q : R → (Nat → α) → Prop} (k : R → Act α Unit) :
    ∀ {m : Mem α}, p.wp false F Q m.cell →
      ∃ r m', PSteps m (.act (p.bind k)) m' (.act (k r)) ∧ m'.flag = m.flag ∧ Q r m'.cell := by
  induction p with
  | ret r => intro m h; exact ⟨r, m, .refl, rfl, h⟩
  | fail e => intro m h; exact h.elim
  | rd i k' ih =>
    intro m h
    obtain ⟨r, m', h1, h2, h3⟩ := ih _ h.2
    exact ⟨r, m', .step .rd h1, h2, h3⟩
  | wr i v k' ih =>
    intro m h
    obtain ⟨r, m', h1, h2, h3⟩ := ih (m := m.set i v) h.2
    exact ⟨r, m', .step .wr h1, h2, h3⟩
  | rdFlag j k' ih => intro m h; exact absurd h.1 (by decide)
  | wrFlag j b k' ih => intro m h; exact absurd h.1 (by decide)

theorem Act.Does.reach {p : Act α Unit} {us} (h : Act.Does false p () us) (k : Unit → Act α Unit)
    (m : Mem α) : ∃ m', PSteps m (.act (p >>= k)) m' (.act (k ())) ∧ m'.flag = m.flag := by
  obtain ⟨r, m', h1, h2, _⟩ := Act.wp_reach k (m := m) (h (fun _ => True) (fun _ _ => trivial) m.cell)
  exact ⟨m', h1, h2⟩

theorem WP.step_flag {F} {t : Tree α} {Q} {m m' : Mem α} {t'} (hs : PStep m t m' t')
    (h : WP false F t Q m.cell) : m'.flag = m.flag := by
  induction hs generalizing F Q with
  | rd => rfl
  | wr => rfl
  | rdFlag => rfl
  | wrFlag => cases h with | act h => exact absurd h.1 (by decide)
  | seqStep _ ih => cases h with | seqCons P _ h1 _ => exact ih h1
  | seqNext => rfl
  | parStep n hn _ ih => cases h with | par Fs Qs _ _ _ hts _ => exact ih (hts n _ hn)

theorem WP.steps_flag {F} {t : Tree α} {Q} {m m' : Mem α} {t'} (hs : PSteps m t m' t')
    (h : WP false F t Q m.cell) : m'.flag = m.flag := by
  induction hs with
  | refl => rfl
  | step hs _ ih => rw [ih (h.step hs).1, h.step_flag hs]

/-- A program without effects can run to its end. -/
theorem Tree.Does.idle {t : Tree α} (h : Tree.Does false t []) (m : Mem α) :
    ∃ d, PSteps m t m d ∧ Done d := by
  obtain ⟨m', d, hs, hd⟩ := exists_end m t
  have hw := h (fun _ => False) (fun _ hu => by cases hu) m.cell
  obtain ⟨h1, h2⟩ := hw.steps hs
  have : m' = m := by
    have e1 : m'.cell = m.cell := funext fun i => h2 i id
    have e2 : m'.flag = m.flag := hw.steps_flag hs
    cases m; cases m'; cases e1; cases e2; rfl
  subst this
  rcases hd with hd | ⟨e, hf⟩
  · exact ⟨d, hs, hd⟩
  · exact absurd hf h1.not_failed

/-! ### programs without concurrency -/

/-- At most one task at a time. -/
inductive Tree.Serial : Tree α → Prop
  | act {p} : Tree.Serial (.act p)
  | seq {ts} : (∀ t ∈ ts, Tree.Serial t) → Tree.Serial (.seq ts)
  | par {ts} : ts.length ≤ 1 → (∀ t ∈ ts, Tree.Serial t) → Tree.Serial (.par ts)

theorem Tree.Serial.step {m m' : Mem α} {t t' : Tree α} (hs : PStep m t m' t') (h : t.Serial) :
    t'.Serial := by
  induction hs with
  | rd => exact .act
  | wr => exact .act
  | rdFlag => exact .act
  | wrFlag => exact .act
  | seqStep _ ih =>
    cases h with
    | seq h =>
      refine .seq fun u hu => ?_
      rcases List.mem_cons.1 hu with rfl | hu
      · exact ih (h _ (by simp))
      · exact h u (by simp [hu])
  | seqNext => cases h with | seq h => exact .seq fun u hu => h u (by simp [hu])
  | parStep n hn _ ih =>
    cases h with
    | par hl h =>
      refine .par (by simpa using hl) fun u hu => ?_
      rcases List.mem_or_eq_of_mem_set hu with hu | rfl
      · exact h u hu
      · exact ih (h _ (List.mem_of_getElem? hn))

theorem Tree.Serial.no_race {t : Tree α} (h : t.Serial) : ¬ Race t := by
  intro hr
  induction hr with
  | here n n' hne ht hu _ _ =>
    cases h with
    | par hl _ =>
      have h1 := (List.getElem?_eq_some_iff.1 ht).1
      have h2 := (List.getElem?_eq_some_iff.1 hu).1
      omega
  | seq _ ih => cases h with | seq h => exact ih (h _ (by simp))
  | par hm _ ih => cases h with | par _ h => exact ih (h _ hm)

theorem Tree.Serial.raceFree {t : Tree α} (h : t.Serial) (m : Mem α) : RaceFree m t := by
  intro m' t' hs
  induction hs with
  | refl => exact h.no_race
  | step hs _ ih => exact ih (h.step hs)

end Verif
