import Verif.Core.Act
/-
Reasoning about fork/join programs: termination of every schedule, a weakest
precondition with footprints, preservation, progress and race freedom.
-/
namespace Verif
variable {α R S : Type}

/-! ### Termination of every schedule -/

/-- A step of the tree in some memory. -/
def TStep (t t' : Tree α) : Prop := ∃ m m', PStep m t m' t'

/-- `TAcc t`: no infinite schedule starts in `t`. -/
abbrev TAcc (t : Tree α) : Prop := Acc (fun t' t => TStep t t') t

theorem tacc_act (p : Act α Unit) : TAcc (.act p) := by
  induction p with
  | ret r => exact Acc.intro _ fun t' ⟨m, m', h⟩ => by cases h
  | fail e => exact Acc.intro _ fun t' ⟨m, m', h⟩ => by cases h
  | rd i k ih => exact Acc.intro _ fun t' ⟨m, m', h⟩ => by cases h; exact ih _
  | wr i v k ih => exact Acc.intro _ fun t' ⟨m, m', h⟩ => by cases h; exact ih
  | rdFlag j k ih => exact Acc.intro _ fun t' ⟨m, m', h⟩ => by cases h; exact ih _
  | wrFlag j b k ih => exact Acc.intro _ fun t' ⟨m, m', h⟩ => by cases h; exact ih

theorem tacc_seq_cons {t : Tree α} {ts} (h : TAcc t) (hs : TAcc (.seq ts)) :
    TAcc (.seq (t :: ts)) := by
  induction h with
  | intro t _ ih =>
    refine Acc.intro _ fun t' ⟨m, m', h⟩ => ?_
    cases h with
    | seqStep h => exact ih _ ⟨_, _, h⟩
    | seqNext _ => exact hs

theorem tacc_seq (ts : List (Tree α)) (h : ∀ t ∈ ts, TAcc t) : TAcc (.seq ts) := by
  induction ts with
  | nil => exact Acc.intro _ fun t' ⟨m, m', h⟩ => by cases h
  | cons t ts ih =>
    exact tacc_seq_cons (h t (by simp)) (ih fun t ht => h t (by simp [ht]))

/-- A step of one element of a list of trees. -/
def LStep (ts ts' : List (Tree α)) : Prop :=
  ∃ n t t', ts[n]? = some t ∧ TStep t t' ∧ ts' = ts.set n t'

theorem lacc_cons {t : Tree α} {ts} (h : TAcc t) (hs : Acc (fun l' l => LStep l l') ts) :
    Acc (fun l' l => LStep l l') (t :: ts) := by
  induction h generalizing ts with
  | intro t ht ih =>
    induction hs with
    | intro ts hts ihs =>
      refine Acc.intro _ fun l' ⟨n, u, u', hn, hu, he⟩ => ?_
      cases n with
      | zero =>
        simp at hn; subst hn
        simp at he; subst he
        exact ih _ hu (Acc.intro _ hts)
      | succ n =>
        simp at hn he; subst he
        exact ihs _ ⟨n, u, u', hn, hu, rfl⟩

theorem lacc (ts : List (Tree α)) (h : ∀ t ∈ ts, TAcc t) : Acc (fun l' l => LStep l l') ts := by
  induction ts with
  | nil => exact Acc.intro _ fun l' ⟨n, u, u', hn, _⟩ => by simp at hn
  | cons t ts ih => exact lacc_cons (h t (by simp)) (ih fun t ht => h t (by simp [ht]))

theorem tacc_par (ts : List (Tree α)) (h : ∀ t ∈ ts, TAcc t) : TAcc (.par ts) := by
  have := lacc ts h
  clear h
  induction this with
  | intro ts _ ih =>
    refine Acc.intro _ fun t' ⟨m, m', h⟩ => ?_
    cases h with
    | parStep n hn h => exact ih _ ⟨n, _, _, hn, ⟨_, _, h⟩, rfl⟩

/-- **No schedule of a fork/join program is infinite.** -/
theorem tacc : (t : Tree α) → TAcc t
  | .act p => tacc_act p
  | .seq ts => tacc_seq ts fun t _ => tacc t
  | .par ts => tacc_par ts fun t _ => tacc t

/-! ### Weakest preconditions with footprints -/

/-- `Act.wp A F p Q c`: task `p`, started with cells `c` while no other task touches the
cells in `F`, only accesses cells in `F`, raises no error and ends in a state satisfying
`Q`.  If `A` is true the task may also access flags, whose values are then arbitrary. -/
def Act.wp (A : Bool) (F : Nat → Prop) : Act α R → (R → (Nat → α) → Prop) → (Nat → α) → Prop
  | .ret r, Q, c => Q r c
  | .fail _, _, _ => False
  | .rd i k, Q, c => F i ∧ (k (c i)).wp A F Q c
  | .wr i v k, Q, c => F i ∧ k.wp A F Q (fun j => if j = i then v else c j)
  | .rdFlag _ k, Q, c => A = true ∧ ∀ b, (k b).wp A F Q c
  | .wrFlag _ _ k, Q, c => A = true ∧ k.wp A F Q c

/-- `Q` only looks at the cells in `F`. -/
def Local (F : Nat → Prop) (Q : (Nat → α) → Prop) : Prop :=
  ∀ c c' : Nat → α, (∀ i, F i → c i = c' i) → Q c → Q c'

/-- The analogue of `Act.wp` for fork/join trees. -/
inductive WP (A : Bool) : (Nat → Prop) → Tree α → ((Nat → α) → Prop) → (Nat → α) → Prop
  | act {F p Q c} : p.wp A F (fun _ => Q) c → WP A F (.act p) Q c
  | seqNil {F Q} {c : Nat → α} : Q c → WP A F (.seq []) Q c
  | seqCons {F t ts Q c} (P : (Nat → α) → Prop) : Local F P → WP A F t P c →
      (∀ c', P c' → WP A F (.seq ts) Q c') → WP A F (.seq (t :: ts)) Q c
  | par {F ts Q c} (Fs : Nat → Nat → Prop) (Qs : Nat → (Nat → α) → Prop) :
      (∀ n, Local (Fs n) (Qs n)) →
      (∀ n i, Fs n i → F i) →
      (∀ n n' i, Fs n i → Fs n' i → n = n') →
      (∀ n t, ts[n]? = some t → WP A (Fs n) t (Qs n) c) →
      (∀ c', (∀ n, n < ts.length → Qs n c') →
        (∀ i, F i → (∀ n, n < ts.length → ¬ Fs n i) → c' i = c i) → Q c') →
      WP A F (.par ts) Q c

theorem Act.wp_mono {A F} {p : Act α R} {Q Q' : R → (Nat → α) → Prop} {c}
    (h : p.wp A F Q c) (hq : ∀ r c, Q r c → Q' r c) : p.wp A F Q' c := by
  induction p generalizing c with
  | ret r => exact hq _ _ h
  | fail e => exact h
  | rd i k ih => exact ⟨h.1, ih _ h.2⟩
  | wr i v k ih => exact ⟨h.1, ih h.2⟩
  | rdFlag j k ih => exact ⟨h.1, fun b => ih _ (h.2 b)⟩
  | wrFlag j b k ih => exact ⟨h.1, ih h.2⟩

theorem Act.wp_bind {A F} {p : Act α R} {f : R → Act α S} {Q : S → (Nat → α) → Prop} {c} :
    (p.bind f).wp A F Q c ↔ p.wp A F (fun r c => (f r).wp A F Q c) c := by
  induction p generalizing c with
  | ret r => exact Iff.rfl
  | fail e => exact Iff.rfl
  | rd i k ih => exact and_congr Iff.rfl (ih _)
  | wr i v k ih => exact and_congr Iff.rfl ih
  | rdFlag j k ih => exact and_congr Iff.rfl (forall_congr' fun b => ih b)
  | wrFlag j b k ih => exact and_congr Iff.rfl ih

theorem Act.wp_frame {A F} {p : Act α R} {Q : R → (Nat → α) → Prop} {c c' : Nat → α}
    (hQ : ∀ r, Local F (Q r)) (hc : ∀ i, F i → c i = c' i) (h : p.wp A F Q c) :
    p.wp A F Q c' := by
  induction p generalizing c c' with
  | ret r => exact hQ _ _ _ hc h
  | fail e => exact h
  | rd i k ih => exact ⟨h.1, by rw [← hc i h.1]; exact ih _ hc h.2⟩
  | wr i v k ih =>
    refine ⟨h.1, ih (fun j hj => ?_) h.2⟩
    show (if j = i then v else c j) = (if j = i then v else c' j)
    rw [hc j hj]
  | rdFlag j k ih => exact ⟨h.1, fun b => ih _ hc (h.2 b)⟩
  | wrFlag j b k ih => exact ⟨h.1, ih hc h.2⟩

theorem WP.frame {A F} {t : Tree α} {Q c} (h : WP A F t Q c) (hQ : Local F Q) :
    ∀ {c'}, (∀ i, F i → c i = c' i) → WP A F t Q c' := by
  induction h with
  | act h => intro c' hc; exact .act (Act.wp_frame (fun _ => hQ) hc h)
  | seqNil h => intro c' hc; exact .seqNil (hQ _ _ hc h)
  | seqCons P hP h1 h2 ih1 ih2 => intro c' hc; exact .seqCons P hP (ih1 hP hc) h2
  | par Fs Qs hloc hsub hdis hts hend ih =>
    intro c' hc
    refine .par Fs Qs hloc hsub hdis
      (fun n t ht => ih n t ht (hloc n) fun i hi => hc i (hsub n i hi)) fun d hd hu => ?_
    exact hend d hd fun i hi hn => by rw [hu i hi hn, hc i hi]

theorem WP.done {A F} {t : Tree α} {Q c} (h : WP A F t Q c) (hd : Done t) : Q c := by
  induction h with
  | act h => cases hd; exact h
  | seqNil h => exact h
  | seqCons P hP h1 h2 ih1 ih2 => cases hd
  | @par F ts Q c Fs Qs hloc hsub hdis hts hend ih =>
    cases hd with
    | par hd =>
      refine hend _ (fun n hn => ?_) (fun _ _ _ => rfl)
      have : ts[n]? = some ts[n] := List.getElem?_eq_getElem hn
      exact ih n _ this (hd _ (List.mem_of_getElem? this))

theorem WP.not_failed {A F} {t : Tree α} {Q c e} (h : WP A F t Q c) : ¬ Failed e t := by
  induction h with
  | act h => intro hf; cases hf; exact h
  | seqNil h => intro hf; cases hf
  | seqCons P hP h1 h2 ih1 ih2 => intro hf; cases hf with | seq hf => exact ih1 hf
  | par Fs Qs hloc hsub hdis hts hend ih =>
    intro hf
    cases hf with
    | par hm hf =>
      obtain ⟨n, hn⟩ := List.mem_iff_getElem?.1 hm
      exact ih n _ hn hf

/-- Preservation: a step keeps the precondition and only changes cells in the footprint. -/
theorem WP.step {A F} {t : Tree α} {Q} {m m' : Mem α} {t'} (hs : PStep m t m' t')
    (h : WP A F t Q m.cell) :
    WP A F t' Q m'.cell ∧ ∀ i, ¬ F i → m'.cell i = m.cell i := by
  induction hs generalizing F Q with
  | rd => cases h with | act h => exact ⟨.act h.2, fun _ _ => rfl⟩
  | wr =>
    cases h with
    | act h =>
      refine ⟨.act h.2, fun j hj => ?_⟩
      show (if j = _ then _ else _) = _
      rw [if_neg]; rintro rfl; exact hj h.1
  | rdFlag => cases h with | act h => exact ⟨.act (h.2 _), fun _ _ => rfl⟩
  | wrFlag => cases h with | act h => exact ⟨.act h.2, fun _ _ => rfl⟩
  | seqStep hs ih =>
    cases h with
    | seqCons P hP h1 h2 =>
      obtain ⟨h3, h4⟩ := ih h1
      exact ⟨.seqCons P hP h3 h2, h4⟩
  | seqNext hd =>
    cases h with
    | seqCons P hP h1 h2 => exact ⟨h2 _ (h1.done hd), fun _ _ => rfl⟩
  | parStep n hn hs ih =>
    rename_i t t' ts
    cases h with
    | par Fs Qs hloc hsub hdis hts hend =>
      obtain ⟨h3, h4⟩ := ih (hts n t hn)
      refine ⟨.par Fs Qs hloc hsub hdis (fun n' u hu => ?_) (fun d hd hu => ?_),
        fun i hi => h4 i fun hf => hi (hsub n i hf)⟩
      · rw [List.getElem?_set] at hu
        split at hu
        · rename_i heq
          subst heq
          split at hu
          · cases hu; exact h3
          · cases hu
        · rename_i hne
          exact (hts n' u hu).frame (hloc n') fun i hi =>
            (h4 i fun hf => hne (hdis _ _ _ hf hi)).symm
      · rw [List.length_set] at hd hu
        refine hend d hd fun i hi hno => ?_
        rw [hu i hi hno]
        have hlt : n < ts.length := by
          rcases Nat.lt_or_ge n ts.length with h | h
          · exact h
          · rw [List.getElem?_eq_none h] at hn; cases hn
        exact h4 i (hno n hlt)

theorem WP.steps {A F} {t : Tree α} {Q} {m m' : Mem α} {t'} (hs : PSteps m t m' t')
    (h : WP A F t Q m.cell) :
    WP A F t' Q m'.cell ∧ ∀ i, ¬ F i → m'.cell i = m.cell i := by
  induction hs with
  | refl => exact ⟨h, fun _ _ => rfl⟩
  | step hs _ ih =>
    obtain ⟨h1, h2⟩ := h.step hs
    obtain ⟨h3, h4⟩ := ih h1
    exact ⟨h3, fun i hi => by rw [h4 i hi, h2 i hi]⟩

/-- Progress: a tree is finished, has failed, or some task can make a step. -/
theorem progress (m : Mem α) : (t : Tree α) →
    Done t ∨ (∃ e, Failed e t) ∨ ∃ m' t', PStep m t m' t'
  | .act p => by
    cases p with
    | ret r => exact .inl .act
    | fail e => exact .inr (.inl ⟨e, .act⟩)
    | rd i k => exact .inr (.inr ⟨_, _, .rd⟩)
    | wr i v k => exact .inr (.inr ⟨_, _, .wr⟩)
    | rdFlag j k => exact .inr (.inr ⟨_, _, .rdFlag⟩)
    | wrFlag j b k => exact .inr (.inr ⟨_, _, .wrFlag⟩)
  | .seq [] => .inl .seq
  | .seq (t :: ts) => by
    rcases progress m t with h | ⟨e, h⟩ | ⟨m', t', h⟩
    · exact .inr (.inr ⟨_, _, .seqNext h⟩)
    · exact .inr (.inl ⟨e, .seq h⟩)
    · exact .inr (.inr ⟨_, _, .seqStep h⟩)
  | .par ts => by
    by_cases hd : ∀ t ∈ ts, Done t
    · exact .inl (.par hd)
    · have : ∃ t, t ∈ ts ∧ ¬ Done t := by
        apply Classical.byContradiction; intro hh
        exact hd fun t ht => Classical.byContradiction fun hn => hh ⟨t, ht, hn⟩
      obtain ⟨t, ht, hn⟩ := this
      rcases progress m t with h | ⟨e, h⟩ | ⟨m', t', h⟩
      · exact absurd h hn
      · exact .inr (.inl ⟨e, .par ht h⟩)
      · obtain ⟨n, hn⟩ := List.mem_iff_getElem?.1 ht
        exact .inr (.inr ⟨_, _, .parStep n hn h⟩)

/-- Every program has at least one outcome. -/
theorem exists_end (m : Mem α) (t : Tree α) :
    ∃ m' t', PSteps m t m' t' ∧ (Done t' ∨ ∃ e, Failed e t') := by
  have h := tacc t
  induction h generalizing m with
  | intro t _ ih =>
    rcases progress m t with h | h | ⟨m', t', h⟩
    · exact ⟨m, t, .refl, .inl h⟩
    · exact ⟨m, t, .refl, .inr h⟩
    · obtain ⟨m'', t'', h1, h2⟩ := ih t' ⟨_, _, h⟩ m'
      exact ⟨m'', t'', .step h h1, h2⟩

theorem WP.run {A F} {t : Tree α} {Q} {c : Nat → α} {fl} (h : WP A F t Q c) :
    (∀ o, ND.run c fl t o → ∃ c', o = .ok c' ∧ Q c' ∧ ∀ i, ¬ F i → c' i = c i) ∧
    ∃ o, ND.run c fl t o := by
  constructor
  · rintro o (⟨m', t', hs, hd, rfl⟩ | ⟨m', t', e, hs, hf, rfl⟩)
    · obtain ⟨h1, h2⟩ := WP.steps (m := ⟨c, fl⟩) hs h
      exact ⟨_, rfl, h1.done hd, h2⟩
    · obtain ⟨h1, h2⟩ := WP.steps (m := ⟨c, fl⟩) hs h
      exact absurd hf h1.not_failed
  · obtain ⟨m', t', hs, hd | ⟨e, hf⟩⟩ := exists_end ⟨c, fl⟩ t
    · exact ⟨_, .inl ⟨m', t', hs, hd, rfl⟩⟩
    · exact ⟨_, .inr ⟨m', t', e, hs, hf, rfl⟩⟩

/-! ### Race freedom -/

theorem WP.next {F} {t : Tree α} {Q c l w} (h : WP false F t Q c) (hn : Next t l w) :
    ∃ i, l = .cell i ∧ F i := by
  induction h with
  | act h =>
    cases hn with
    | rd => exact ⟨_, rfl, h.1⟩
    | wr => exact ⟨_, rfl, h.1⟩
    | rdFlag => exact absurd h.1 (by decide)
    | wrFlag => exact absurd h.1 (by decide)
  | seqNil h => cases hn
  | seqCons P hP h1 h2 ih1 ih2 => cases hn with | seq hn => exact ih1 hn
  | par Fs Qs hloc hsub hdis hts hend ih =>
    cases hn with
    | par n ht hn =>
      obtain ⟨i, h1, h2⟩ := ih n _ ht hn
      exact ⟨i, h1, hsub n i h2⟩

theorem WP.no_race {F} {t : Tree α} {Q c} (h : WP false F t Q c) : ¬ Race t := by
  induction h with
  | act h => intro hr; cases hr
  | seqNil h => intro hr; cases hr
  | seqCons P hP h1 h2 ih1 ih2 => intro hr; cases hr with | seq hr => exact ih1 hr
  | par Fs Qs hloc hsub hdis hts hend ih =>
    intro hr
    cases hr with
    | here n n' hne ht hu h1 h2 =>
      obtain ⟨i, rfl, hi⟩ := (hts n _ ht).next h1
      obtain ⟨i', he, hi'⟩ := (hts n' _ hu).next h2
      cases he
      exact hne (hdis _ _ _ hi hi')
    | par hm hr =>
      obtain ⟨n, hn⟩ := List.mem_iff_getElem?.1 hm
      exact ih n _ hn hr

theorem WP.raceFree {F} {t : Tree α} {Q} {m : Mem α} (h : WP false F t Q m.cell) :
    RaceFree m t := fun _ _ hs => (h.steps hs).1.no_race

end Verif
