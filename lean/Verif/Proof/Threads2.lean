import Verif.Proof.Threads
import Verif.Core.Mat
/-
Enough threads, groups of iterations, and how many threads can be busy.
-/
namespace Verif
variable {α : Type}

namespace Pool

/-! ### Enough threads -/

/-- steps of a pool with an unlimited number of threads -/
inductive Reach : Mem α → Pool α → Mem α → Pool α → Prop
  | refl {m w} : Reach m w m w
  | step {m w m' w' m'' w''} : Step True m w m' w' → Reach m' w' m'' w'' → Reach m w m'' w''

theorem Reach.trans {m m' m'' : Mem α} {w w' w'' : Pool α} (h : Reach m w m' w')
    (h' : Reach m' w' m'' w'') : Reach m w m'' w'' := by
  induction h with
  | refl => exact h'
  | step h _ ih => exact .step h (ih h')

theorem Reach.one {m m' : Mem α} {w w' : Pool α} (h : Step True m w m' w') : Reach m w m' w' :=
  .step h .refl

theorem Reach.seq {m m' : Mem α} {w w' : Pool α} (h : Reach m w m' w') (ws : List (Pool α)) :
    Reach m (.seq (w :: ws)) m' (.seq (w' :: ws)) := by
  induction h with
  | refl => exact .refl
  | step h _ ih => exact .step (.seqStep h) ih

theorem Reach.par {m m' : Mem α} {w w' : Pool α} (h : Reach m w m' w') :
    ∀ {ws : List (Pool α)} {n : Nat}, ws[n]? = some w → Reach m (.par ws) m' (.par (ws.set n w')) := by
  induction h with
  | @refl m w =>
    intro ws n hn
    have : ws.set n w = ws := by
      refine List.ext_getElem? fun k => ?_
      rw [List.getElem?_set]
      split
      · rename_i hk
        subst hk
        obtain ⟨hl, he⟩ := List.getElem?_eq_some_iff.1 hn
        simp [hl, he]
      · rfl
    rw [this]
    exact .refl
  | step h _ ih =>
    intro ws n hn
    refine .step (.parStep n hn h) ?_
    have hl := (List.getElem?_eq_some_iff.1 hn).1
    have := ih (ws := ws.set n _) (n := n) (by rw [List.getElem?_set_self hl])
    rwa [List.set_set] at this

theorem Reach.legal {m m' : Mem α} {w w' : Pool α} (h : Reach m w m' w') (hi : Legal w) :
    Legal w' := by
  induction h with
  | refl => exact hi
  | step h _ ih => exact ih (h.legal hi)

/-- Tasks that have nothing left to do can be finished. -/
theorem finish (m : Mem α) (w : Pool α) (hi : Legal w) (hd : Done w.tree) :
    ∃ w', Reach m w m w' ∧ Finished w' ∧ w'.tree = w.tree := by
  have h := pacc w
  induction h with
  | intro w _ ih =>
    have go : ∀ m' w', Step True m w m' w' →
        ∃ w', Reach m w m w' ∧ Finished w' ∧ w'.tree = w.tree := by
      intro m' w' hs
      rcases hs.sound hi with ⟨rfl, he⟩ | hp
      · obtain ⟨w'', h1, h2, h3⟩ := ih w' ⟨_, _, hs⟩ (hs.legal hi) (he ▸ hd)
        exact ⟨w'', .step hs h1, h2, h3.trans he.symm⟩
      · exact absurd ⟨_, _, hp⟩ (done_atEnd (m := m) hd)
    rcases progress m w hi with h | ⟨e, h⟩ | ⟨m', w', h⟩ | ⟨_, m', w', h⟩
    · exact ⟨w, .refl, h, rfl⟩
    · exact (failed_not_done h hd).elim
    · exact go m' w' (h.mono False.elim)
    · exact go m' w' h

/-- With enough threads every step of the program can be done. -/
theorem simulate (m : Mem α) : (w : Pool α) → Legal w → ∀ m' t', PStep m w.tree m' t' →
    ∃ w', Reach m w m' w' ∧ w'.tree = t'
  | .act s p, hi, m', t', h => by
    simp only [tree] at h
    have hw : ∃ p', t' = .act p' := by cases h <;> exact ⟨_, rfl⟩
    obtain ⟨p', rfl⟩ := hw
    cases s with
    | waiting => exact ⟨.act .running p', .step (.take trivial) (.one (.work h)), by simp [tree]⟩
    | running => exact ⟨.act .running p', .one (.work h), by simp [tree]⟩
    | finished => cases hi; cases h
  | .seq [], hi, m', t', h => by simp only [tree, List.map_nil] at h; cases h
  | .seq (w :: ws), hi, m', t', h => by
    have hw : Legal w := by cases hi; assumption
    simp only [tree, List.map_cons] at h
    cases h with
    | seqStep h =>
      obtain ⟨w', h1, h2⟩ := simulate m w hw _ _ h
      exact ⟨_, h1.seq ws, by simp [tree, h2]⟩
    | seqNext hd =>
      obtain ⟨w', h1, h2, h3⟩ := finish m w hw hd
      exact ⟨.seq ws, (h1.seq ws).trans (.one (.seqNext h2)), by simp [tree]⟩
  | .par ws, hi, m', t', h => by
    have hw : ∀ w ∈ ws, Legal w := by cases hi; assumption
    simp only [tree] at h
    cases h with
    | parStep n hn h =>
      rw [List.getElem?_map] at hn
      obtain ⟨w, hw', rfl⟩ := Option.map_eq_some_iff.1 hn
      clear hn
      have hn : ws[n]? = some w := hw'
      have hm := List.mem_of_getElem? hn
      obtain ⟨w', h1, h2⟩ := simulate m w (hw w hm) _ _ h
      exact ⟨_, h1.par hn, by simp [tree, List.map_set, h2]⟩

theorem simulates {m m' : Mem α} {t t' : Tree α} (h : PSteps m t m' t') :
    ∀ w : Pool α, Legal w → w.tree = t → ∃ w', Reach m w m' w' ∧ w'.tree = t' := by
  induction h with
  | refl => intro w _ he; exact ⟨w, .refl, he⟩
  | step h _ ih =>
    rintro w hi rfl
    obtain ⟨w1, h1, h2⟩ := simulate _ w hi _ _ h
    obtain ⟨w2, h3, h4⟩ := ih w1 (h1.legal hi) h2
    exact ⟨w2, h1.trans h3, h4⟩

theorem sum_le {β γ : Type} (l : List β) (f : β → Nat) (k : β → γ) (g : γ → Nat)
    (h : ∀ x ∈ l, f x ≤ g (k x)) : (l.map f).sum ≤ ((l.map k).map g).sum := by
  induction l with
  | nil => simp
  | cons x l ih =>
    have := h x (by simp)
    have := ih fun y hy => h y (by simp [hy])
    simp only [List.map_cons, List.sum_cons]
    omega

theorem Legal.busy_le {w : Pool α} (h : Legal w) : w.busy ≤ w.tree.width := by
  induction h with
  | waiting => simp [busy]
  | running => simp [busy, tree, Tree.width]
  | finished => simp [busy]
  | nil => simp [busy]
  | @cons w ts _ ih =>
    have : ((ts.map fresh).map busy).sum = 0 := by
      rw [List.map_map]; exact sum_zero fun t _ => busy_fresh t
    simp only [busy, tree, Tree.width, List.map_cons, List.sum_cons, List.foldr_cons]
    omega
  | par _ ih =>
    simp only [busy, tree, Tree.width]
    exact sum_le _ _ _ _ ih

end Pool

theorem foldr_max_le {l : List Nat} {n : Nat} (h : ∀ x ∈ l, x ≤ n) : l.foldr max 0 ≤ n := by
  induction l with
  | nil => simp
  | cons x l ih =>
    have := h x (by simp)
    have := ih fun y hy => h y (by simp [hy])
    simp only [List.foldr_cons]
    omega

theorem width_step {m m' : Mem α} {t t' : Tree α} (h : PStep m t m' t') : t'.width ≤ t.width := by
  induction h with
  | rd => simp [Tree.width]
  | wr => simp [Tree.width]
  | rdFlag => simp [Tree.width]
  | wrFlag => simp [Tree.width]
  | seqStep _ ih => simp only [Tree.width, List.map_cons, List.foldr_cons]; omega
  | seqNext => simp only [Tree.width, List.map_cons, List.foldr_cons]; omega
  | @parStep _ t t' ts n hn hstep ih =>
    simp only [Tree.width]
    clear hstep
    induction ts generalizing n with
    | nil => simp at hn
    | cons z l ihl =>
      cases n with
      | zero => simp at hn; subst hn; simp; omega
      | succ n =>
        simp at hn
        have := ihl n hn
        simp only [List.set_cons_succ, List.map_cons, List.sum_cons]
        omega

theorem width_steps {m m' : Mem α} {t t' : Tree α} (h : PSteps m t m' t') : t'.width ≤ t.width := by
  induction h with
  | refl => exact Nat.le_refl _
  | step h _ ih => exact Nat.le_trans ih (width_step h)

theorem atEnd_steps {m m' : Mem α} {t t' : Tree α} (h : AtEnd m t) (hs : PSteps m t m' t') :
    m' = m ∧ t' = t := by
  cases hs with
  | refl => exact ⟨rfl, rfl⟩
  | step hs _ => exact absurd ⟨_, _, hs⟩ h

namespace Pool

theorem Step.width {m m' : Mem α} {w w' : Pool α} {free : Prop} (h : Step free m w m' w')
    (hi : Legal w) : w'.tree.width ≤ w.tree.width := by
  rcases h.sound hi with ⟨_, h⟩ | h
  · exact Nat.le_of_eq (by rw [h])
  · exact width_step h

/-- A step that takes a task raises the number of busy threads, all others need no free thread. -/
theorem Step.takes {m m' : Mem α} {w w' : Pool α} (h : Step True m w m' w') :
    Step False m w m' w' ∨ w'.busy = w.busy + 1 := by
  induction h with
  | take => exact .inr (by simp [Pool.busy])
  | work h => exact .inl (.work h)
  | leave => exact .inl .leave
  | seqStep _ ih =>
    rcases ih with h | h
    · exact .inl (.seqStep h)
    · exact .inr (by simp only [Pool.busy, List.map_cons, List.sum_cons]; omega)
  | seqNext h => exact .inl (.seqNext h)
  | @parStep _ t t' ts n hn _ ih =>
    rcases ih with h | h
    · exact .inl (.parStep n hn h)
    · have := sum_set (y := t') hn
      exact .inr (by simp only [Pool.busy]; omega)

theorem Reach.steps {threads : Nat} {m m' : Mem α} {w w' : Pool α} (h : Reach m w m' w')
    (hi : Legal w) (hw : w.tree.width ≤ threads) : Steps threads m w m' w' := by
  induction h with
  | refl => exact .refl
  | step h _ ih =>
    have h' := h.width hi
    refine .step ?_ (ih (h.legal hi) (by omega))
    rcases h.takes with h1 | h1
    · exact h1.mono False.elim
    · have := (h.legal hi).busy_le
      exact h.mono fun _ => by omega

theorem startNext (m : Mem α) {l b} : (w : Pool α) → Legal w → Verif.Next w.tree l b →
    ∃ w', Reach m w m w' ∧ w'.tree = w.tree ∧ Next w' l b
  | .act s p, hi, h => by
    simp only [tree] at h
    cases s with
    | waiting => exact ⟨_, .one (.take trivial), by simp [tree], .act h⟩
    | running => exact ⟨_, .refl, rfl, .act h⟩
    | finished => cases hi; cases h
  | .seq [], hi, h => by simp only [tree, List.map_nil] at h; cases h
  | .seq (w :: ws), hi, h => by
    have hw : Legal w := by cases hi; assumption
    simp only [tree, List.map_cons] at h
    cases h with
    | seq h =>
      obtain ⟨w', h1, h2, h3⟩ := startNext m w hw h
      exact ⟨_, h1.seq ws, by simp [tree, h2], .seq h3⟩
  | .par ws, hi, h => by
    have hw : ∀ w ∈ ws, Legal w := by cases hi; assumption
    simp only [tree] at h
    cases h with
    | par n hn h =>
      rw [List.getElem?_map] at hn
      obtain ⟨w, hw', rfl⟩ := Option.map_eq_some_iff.1 hn
      clear hn
      have hn : ws[n]? = some w := hw'
      have hm := List.mem_of_getElem? hn
      obtain ⟨w', h1, h2, h3⟩ := startNext m w (hw w hm) h
      obtain ⟨hl, he⟩ := List.getElem?_eq_some_iff.1 hn
      refine ⟨_, h1.par hn, ?_, .par n (by rw [List.getElem?_set_self hl]) h3⟩
      simp only [tree, List.map_set, h2]
      congr 1
      subst he
      rw [← List.map_set, List.set_getElem_self]

theorem startRace (m : Mem α) : (w : Pool α) → Legal w → Verif.Race w.tree →
    ∃ w', Reach m w m w' ∧ w'.tree = w.tree ∧ Race w'
  | .act s p, hi, h => by simp only [tree] at h; cases h
  | .seq [], hi, h => by simp only [tree, List.map_nil] at h; cases h
  | .seq (w :: ws), hi, h => by
    have hw : Legal w := by cases hi; assumption
    simp only [tree, List.map_cons] at h
    cases h with
    | seq h =>
      obtain ⟨w', h1, h2, h3⟩ := startRace m w hw h
      exact ⟨_, h1.seq ws, by simp [tree, h2], .seq h3⟩
  | .par ws, hi, h => by
    have hw : ∀ w ∈ ws, Legal w := by cases hi; assumption
    simp only [tree] at h
    have hset : ∀ {vs : List (Pool α)} {n : Nat} {w w' : Pool α}, vs[n]? = some w →
        w'.tree = w.tree → (Pool.par (vs.set n w')).tree = (Pool.par vs).tree := by
      intro vs n w w' hn h2
      obtain ⟨hl, he⟩ := List.getElem?_eq_some_iff.1 hn
      simp only [tree, List.map_set, h2]
      congr 1
      subst he
      rw [← List.map_set, List.set_getElem_self]
    cases h with
    | par hm h =>
      obtain ⟨w, hw', rfl⟩ := List.mem_map.1 hm
      clear hm
      have hm : w ∈ ws := hw'
      obtain ⟨w', h1, h2, h3⟩ := startRace m w (hw w hm) h
      obtain ⟨n, hn⟩ := List.mem_iff_getElem?.1 hm
      refine ⟨_, h1.par hn, hset hn h2, .par (List.mem_iff_getElem?.2 ⟨n, ?_⟩) h3⟩
      rw [List.getElem?_set_self (List.getElem?_eq_some_iff.1 hn).1]
    | here n n' hne ht hu h1 h2 =>
      rw [List.getElem?_map] at ht hu
      obtain ⟨w, hn, rfl⟩ := Option.map_eq_some_iff.1 ht
      obtain ⟨u, hn', rfl⟩ := Option.map_eq_some_iff.1 hu
      obtain ⟨w', a1, a2, a3⟩ := startNext m w (hw w (List.mem_of_getElem? hn)) h1
      obtain ⟨u', b1, b2, b3⟩ := startNext m u (hw u (List.mem_of_getElem? hn')) h2
      have hl := (List.getElem?_eq_some_iff.1 hn).1
      have hl' := (List.getElem?_eq_some_iff.1 hn').1
      have hu' : (ws.set n w')[n']? = some u := by rw [List.getElem?_set_ne hne, hn']
      refine ⟨_, (a1.par hn).trans (b1.par hu'), (hset hu' b2).trans (hset hn a2),
        .here n n' hne (t := w') (u := u') ?_ ?_ a3 b3⟩
      · rw [List.getElem?_set_ne (Ne.symm hne), List.getElem?_set_self hl]
      · rw [List.getElem?_set_self (by simpa using hl')]

/-- every run of a pool can be continued to its end -/
theorem exists_last (threads : Nat) (w : Pool α) (m : Mem α) : ∃ m' w', Steps threads m w m' w' ∧
    ¬ ∃ m'' w'', Step (w'.busy < threads) m' w' m'' w'' := by
  have h := pacc w
  induction h generalizing m with
  | intro w _ ih =>
    by_cases he : ∃ m'' w'', Step (w.busy < threads) m w m'' w''
    · obtain ⟨m', w', hs⟩ := he
      obtain ⟨m'', w'', h1, h2⟩ := ih w' ⟨m, m', hs.mono fun _ => trivial⟩ m'
      exact ⟨m'', w'', .step hs h1, h2⟩
    · exact ⟨m, w, .refl, he⟩

end Pool

/-- A pool with enough threads shows everything that can happen. -/
theorem EveryPoolRun.all {threads : Nat} {m : Mem α} {t : Tree α} {P} (ht : t.width ≤ threads)
    (h : EveryPoolRun threads m t P) : RaceFree m t ∧ Ends m t P := by
  have key : ∀ m' t', PSteps m t m' t' → ∃ w, Pool.Steps threads m (.fresh t) m' w ∧ w.tree = t' := by
    intro m' t' hs
    obtain ⟨w, h1, h2⟩ := Pool.simulates hs (.fresh t) (Pool.legal_fresh t) (Pool.tree_fresh t)
    exact ⟨w, h1.steps (Pool.legal_fresh t) (by rwa [Pool.tree_fresh]), h2⟩
  have hwid : ∀ m' w, Pool.Steps threads m (.fresh t) m' w → w.Legal ∧ w.tree.width ≤ threads := by
    intro m' w hs
    have ⟨h1, h2⟩ := hs.sound (Pool.legal_fresh t)
    refine ⟨h2, ?_⟩
    rw [Pool.tree_fresh] at h1
    refine Nat.le_trans ?_ ht
    exact width_steps h1
  constructor
  · intro m' t' hs hr
    obtain ⟨w, h1, rfl⟩ := key m' t' hs
    have ⟨hi, hw⟩ := hwid m' w h1
    obtain ⟨w', h2, h3, h4⟩ := Pool.startRace m' w hi hr
    exact h.raceFree m' w' (h1.trans (h2.steps hi hw)) h4
  · intro m' t' hs he
    obtain ⟨w, h1, rfl⟩ := key m' t' hs
    have ⟨hi, hw⟩ := hwid m' w h1
    obtain ⟨m'', w', h2, h3⟩ := Pool.exists_last threads w m'
    have ⟨h4, h5⟩ := h.ends m'' w' (h1.trans h2) h3
    have ⟨h6, h7⟩ := h2.sound hi
    have := atEnd_steps he h6
    rw [← this.1, ← this.2]
    exact ⟨h4.done h7, h5⟩

/-! ### Groups -/

theorem set_perm {β : Type} {ts rest : List β} {x : β} (h : ts.Perm (x :: rest)) :
    ∃ k, ts[k]? = some x ∧ ∀ y, (ts.set k y).Perm (y :: rest) := by
  have hm : x ∈ ts := h.mem_iff.2 (by simp)
  obtain ⟨l1, l2, rfl⟩ := List.append_of_mem hm
  refine ⟨l1.length, by simp, fun y => ?_⟩
  have h1 : (l1 ++ x :: l2).Perm (x :: (l1 ++ l2)) := List.perm_middle
  have h2 := (h1.symm.trans h).cons_inv
  rw [List.set_append_right _ _ (Nat.le_refl _)]
  simp only [Nat.sub_self, List.set_cons_zero]
  exact List.perm_middle.trans (h2.cons y)

theorem two_perm {β : Type} {ts rest : List β} {x y : β} (h : ts.Perm (x :: y :: rest)) :
    ∃ k k' : Nat, k ≠ k' ∧ ts[k]? = some x ∧ ts[k']? = some y := by
  have hm : x ∈ ts := h.mem_iff.2 (by simp)
  obtain ⟨l1, l2, rfl⟩ := List.append_of_mem hm
  have h1 : (l1 ++ x :: l2).Perm (x :: (l1 ++ l2)) := List.perm_middle
  have h2 := (h1.symm.trans h).cons_inv
  have hy : y ∈ l1 ++ l2 := h2.mem_iff.2 (by simp)
  rcases List.mem_append.1 hy with hy | hy
  · obtain ⟨k, hk⟩ := List.mem_iff_getElem?.1 hy
    have hl := (List.getElem?_eq_some_iff.1 hk).1
    refine ⟨l1.length, k, by omega, by simp, ?_⟩
    rw [List.getElem?_append_left hl, hk]
  · obtain ⟨k, hk⟩ := List.mem_iff_getElem?.1 hy
    refine ⟨l1.length, l1.length + 1 + k, by omega, by simp, ?_⟩
    rw [List.getElem?_append_right (by omega)]
    have : l1.length + 1 + k - l1.length = k + 1 := by omega
    rw [this]
    simpa using hk

/-- a permutation of the images comes from a permutation -/
theorem perm_map {β γ : Type} (f : γ → β) {l : List β} {ps : List γ} (h : l.Perm (ps.map f)) :
    ∃ qs : List γ, qs.Perm ps ∧ l = qs.map f := by
  induction l generalizing ps with
  | nil => exact ⟨[], by simpa using h.symm, rfl⟩
  | cons x l ih =>
    have hx : x ∈ ps.map f := h.mem_iff.1 (by simp)
    obtain ⟨p, hp, rfl⟩ := List.mem_map.1 hx
    obtain ⟨l1, l2, rfl⟩ := List.append_of_mem hp
    rw [List.map_append, List.map_cons] at h
    have h2 := (h.trans List.perm_middle).cons_inv
    rw [← List.map_append] at h2
    obtain ⟨qs, h3, rfl⟩ := ih h2
    exact ⟨p :: qs, (h3.cons p).trans List.perm_middle.symm, rfl⟩

/-- States of the program and of the program with groups that correspond to each other. -/
inductive Matched : Tree α → Tree α → Prop
  | act (p : Act α Unit) : Matched (.act p) (.act p)
  | seq (ps : List (Tree α × Tree α)) : (∀ p ∈ ps, Matched p.1 p.2) →
      Matched (.seq (ps.map (·.1))) (.seq (ps.map (·.2)))
  | par {ts : List (Tree α)} (over : List (Tree α)) (gs : List (List (Tree α × Tree α))) :
      (∀ p ∈ gs.flatten, Matched p.1 p.2) → (∀ t ∈ over, Done t) →
      ts.Perm (gs.flatten.map (·.1) ++ over) →
      Matched (.par ts) (.par (gs.map fun g => .seq (g.map (·.2))))

theorem zip_cases {β : Type} {R : β → β → Prop} {ts us : List β} (hl : ts.length = us.length)
    (h : ∀ (n : Nat) t u, ts[n]? = some t → us[n]? = some u → R t u) :
    ∃ ps : List (β × β), ts = ps.map (·.1) ∧ us = ps.map (·.2) ∧ ∀ p ∈ ps, R p.1 p.2 := by
  refine ⟨ts.zip us, ?_, ?_, ?_⟩
  · rw [List.map_fst_zip (by omega)]
  · rw [List.map_snd_zip (by omega)]
  · intro p hp
    obtain ⟨n, hn⟩ := List.mem_iff_getElem?.1 hp
    have := List.getElem?_zip_eq_some.1 hn
    exact h n _ _ this.1 this.2

theorem split_groups {β γ : Type} (f : γ → β) : ∀ (groups : List (List β)) (qs : List γ),
    groups.flatten = qs.map f → ∃ gs : List (List γ), gs.flatten = qs ∧ groups = gs.map (·.map f)
  | [], qs, h => by
    have : qs = [] := by simpa using h.symm
    exact ⟨[], by simp [this], rfl⟩
  | g :: groups, qs, h => by
    rw [List.flatten_cons] at h
    obtain ⟨q1, q2, rfl, h1, h2⟩ := List.append_eq_map_iff.1 h
    obtain ⟨gs, h3, h4⟩ := split_groups f groups q2 h2.symm
    exact ⟨q1 :: gs, by simp [h3], by simp [h1, h4]⟩

theorem Grouped.matched {t u : Tree α} (h : Grouped t u) : Matched t u := by
  induction h with
  | act p => exact .act p
  | seq hl _ ih =>
    obtain ⟨ps, rfl, rfl, h⟩ := zip_cases hl ih
    exact .seq ps h
  | par groups hl _ hp ih =>
    obtain ⟨ps, rfl, rfl, h⟩ := zip_cases hl ih
    obtain ⟨qs, hq, he⟩ := perm_map _ hp
    obtain ⟨gs, rfl, rfl⟩ := split_groups _ _ _ he
    rw [List.map_map]
    refine .par [] gs (fun p hp => h p (hq.mem_iff.1 hp)) (by simp) ?_
    rw [List.append_nil]
    exact (hq.map _).symm


theorem Matched.done {t u : Tree α} (h : Matched t u) (hd : Done u) : Done t := by
  induction h with
  | act p => exact hd
  | seq ps _ _ =>
    cases ps with
    | nil => exact .seq
    | cons p ps => cases hd
  | par over gs _ ho hp _ =>
    cases hd with
    | par hd =>
      have : gs.flatten = [] := by
        refine List.flatten_eq_nil_iff.2 fun g hg => ?_
        have := hd _ (List.mem_map_of_mem hg)
        cases g with
        | nil => rfl
        | cons p g => cases this
      rw [this] at hp
      exact .par fun t ht => ho t (by simpa using hp.mem_iff.1 ht)

/-- the element at the front of a group, and the permutation with it in front -/
theorem group_split {β γ : Type} {ts over : List β} {f : γ → β} {gs : List (List γ)} {n : Nat} {p : γ}
    {g : List γ} (hn : gs[n]? = some (p :: g)) (hp : ts.Perm (gs.flatten.map f ++ over)) :
    ∃ rest, ts.Perm (f p :: rest) ∧ (∀ q : γ, ((gs.set n (q :: g)).flatten.map f ++ over).Perm (f q :: rest)) ∧
      ((gs.set n g).flatten.map f ++ over).Perm rest := by
  obtain ⟨hl, he⟩ := List.getElem?_eq_some_iff.1 hn
  obtain ⟨g1, g2, rfl, rfl⟩ : ∃ g1 g2, gs = g1 ++ (p :: g) :: g2 ∧ n = g1.length := by
    refine ⟨gs.take n, gs.drop (n + 1), ?_, by simp; omega⟩
    rw [← he, List.getElem_cons_drop, List.take_append_drop]
  refine ⟨g1.flatten.map f ++ (g.map f ++ (g2.flatten.map f ++ over)), ?_, fun q => ?_, ?_⟩
  · refine hp.trans ?_
    simp only [List.flatten_append, List.flatten_cons, List.map_append, List.map_cons,
      List.append_assoc, List.cons_append]
    exact List.perm_middle
  · rw [List.set_append_right _ _ (Nat.le_refl _)]
    simp only [Nat.sub_self, List.set_cons_zero, List.flatten_append, List.flatten_cons,
      List.map_append, List.map_cons, List.append_assoc, List.cons_append]
    exact List.perm_middle
  · rw [List.set_append_right _ _ (Nat.le_refl _)]
    simp only [Nat.sub_self, List.set_cons_zero, List.flatten_append, List.flatten_cons,
      List.map_append, List.append_assoc]
    exact List.Perm.refl _

theorem mem_flatten_set {γ : Type} {gs : List (List γ)} {n : Nat} {g : List γ} {x : γ}
    (h : x ∈ (gs.set n g).flatten) : x ∈ gs.flatten ∨ x ∈ g := by
  obtain ⟨l, hl, hx⟩ := List.mem_flatten.1 h
  rcases List.mem_or_eq_of_mem_set hl with hl | rfl
  · exact .inl (List.mem_flatten.2 ⟨l, hl, hx⟩)
  · exact .inr hx

theorem Matched.step {t u u' : Tree α} {m m' : Mem α} (h : Matched t u) (hs : PStep m u m' u') :
    ∃ t', PSteps m t m' t' ∧ Matched t' u' := by
  induction h generalizing u' m' with
  | act p =>
    have : ∃ p', u' = .act p' := by cases hs <;> exact ⟨_, rfl⟩
    obtain ⟨p', rfl⟩ := this
    exact ⟨_, .step hs .refl, .act p'⟩
  | seq ps hps ih =>
    cases ps with
    | nil => cases hs
    | cons p ps =>
      simp only [List.map_cons] at hs ⊢
      cases hs with
      | seqStep hs =>
        obtain ⟨t', h1, h2⟩ := ih p (by simp) hs
        refine ⟨_, h1.seq _, ?_⟩
        exact .seq ((t', _) :: ps) (by
          intro q hq
          rcases List.mem_cons.1 hq with rfl | hq
          · exact h2
          · exact hps q (by simp [hq]))
      | seqNext hd =>
        exact ⟨_, .step (.seqNext ((hps p (by simp)).done hd)) .refl,
          .seq ps fun q hq => hps q (by simp [hq])⟩
  | @par ts over gs hgs ho hp ih =>
    cases hs with
    | parStep n hn hs =>
      rw [List.getElem?_map] at hn
      obtain ⟨g, hg, rfl⟩ := Option.map_eq_some_iff.1 hn
      have hmem := List.mem_of_getElem? hg
      cases g with
      | nil => cases hs
      | cons p g =>
        obtain ⟨rest, h1, h2, h3⟩ := group_split hg hp
        have hpm : p ∈ gs.flatten := List.mem_flatten.2 ⟨_, hmem, by simp⟩
        obtain ⟨k, hk, hset⟩ := set_perm h1
        simp only [List.map_cons] at hs
        cases hs with
        | @seqStep _ _ u1 _ hs =>
          obtain ⟨t', h4, h5⟩ := ih p hpm hs
          refine ⟨_, h4.par hk, ?_⟩
          have : (gs.map fun g => Tree.seq (g.map (·.2))).set n (.seq (u1 :: g.map (·.2))) =
              (gs.set n ((t', u1) :: g)).map fun g => Tree.seq (g.map (·.2)) := by
            rw [List.map_set]; rfl
          rw [this]
          refine .par over _ (fun q hq => ?_) ho ((hset t').trans (h2 (t', u1)).symm)
          rcases mem_flatten_set hq with hq | hq
          · exact hgs q hq
          · rcases List.mem_cons.1 hq with rfl | hq
            · exact h5
            · exact hgs q (List.mem_flatten.2 ⟨_, hmem, by simp [hq]⟩)
        | seqNext hd =>
          have hd' := (hgs p hpm).done hd
          refine ⟨.par ts, .refl, ?_⟩
          have : (gs.map fun g => Tree.seq (g.map (·.2))).set n (.seq (g.map (·.2))) =
              (gs.set n g).map fun g => Tree.seq (g.map (·.2)) := by
            rw [List.map_set]
          rw [this]
          refine .par (p.1 :: over) _ (fun q hq => ?_) (fun t ht => ?_) ?_
          · rcases mem_flatten_set hq with hq | hq
            · exact hgs q hq
            · exact hgs q (List.mem_flatten.2 ⟨_, hmem, by simp [hq]⟩)
          · rcases List.mem_cons.1 ht with rfl | ht
            · exact hd'
            · exact ho t ht
          · exact h1.trans ((h3.symm.cons _).trans List.perm_middle.symm)

theorem Matched.steps {t u u' : Tree α} {m m' : Mem α} (hs : PSteps m u m' u') (h : Matched t u) :
    ∃ t', PSteps m t m' t' ∧ Matched t' u' := by
  induction hs generalizing t with
  | refl => exact ⟨t, .refl, h⟩
  | step hs _ ih =>
    obtain ⟨t1, h1, h2⟩ := h.step hs
    obtain ⟨t2, h3, h4⟩ := ih h2
    exact ⟨t2, h1.trans h3, h4⟩

theorem Matched.failed {t u : Tree α} {e : Err} (h : Matched t u) (hf : Failed e u) : Failed e t := by
  induction h with
  | act p => exact hf
  | seq ps _ ih =>
    cases ps with
    | nil => cases hf
    | cons p ps =>
      simp only [List.map_cons] at hf ⊢
      cases hf with
      | seq hf => exact .seq (ih p (by simp) hf)
  | par over gs _ _ hp ih =>
    cases hf with
    | par hm hf =>
      obtain ⟨g, hg, rfl⟩ := List.mem_map.1 hm
      cases g with
      | nil => cases hf
      | cons p g =>
        simp only [List.map_cons] at hf
        cases hf with
        | seq hf =>
          have hpm : p ∈ gs.flatten := List.mem_flatten.2 ⟨_, hg, by simp⟩
          exact .par (hp.mem_iff.2 (List.mem_append.2 (.inl (List.mem_map_of_mem hpm)))) (ih p hpm hf)

theorem Matched.next {t u : Tree α} {l b} (h : Matched t u) (hf : Next u l b) : Next t l b := by
  induction h with
  | act p => exact hf
  | seq ps _ ih =>
    cases ps with
    | nil => cases hf
    | cons p ps =>
      simp only [List.map_cons] at hf ⊢
      cases hf with
      | seq hf => exact .seq (ih p (by simp) hf)
  | par over gs _ _ hp ih =>
    cases hf with
    | par n hn hf =>
      rw [List.getElem?_map] at hn
      obtain ⟨g, hg, rfl⟩ := Option.map_eq_some_iff.1 hn
      cases g with
      | nil => cases hf
      | cons p g =>
        simp only [List.map_cons] at hf
        cases hf with
        | seq hf =>
          obtain ⟨rest, h1, _⟩ := group_split hg hp
          obtain ⟨k, hk, _⟩ := set_perm h1
          exact .par k hk (ih p (List.mem_flatten.2 ⟨_, List.mem_of_getElem? hg, by simp⟩) hf)

theorem Matched.race {t u : Tree α} (h : Matched t u) (hf : Race u) : Race t := by
  induction h with
  | act p => cases hf
  | seq ps _ ih =>
    cases ps with
    | nil => cases hf
    | cons p ps =>
      simp only [List.map_cons] at hf ⊢
      cases hf with
      | seq hf => exact .seq (ih p (by simp) hf)
  | @par ts over gs hgs ho hp ih =>
    cases hf with
    | par hm hf =>
      obtain ⟨g, hg, rfl⟩ := List.mem_map.1 hm
      cases g with
      | nil => cases hf
      | cons p g =>
        simp only [List.map_cons] at hf
        cases hf with
        | seq hf =>
          have hpm : p ∈ gs.flatten := List.mem_flatten.2 ⟨_, hg, by simp⟩
          exact .par (hp.mem_iff.2 (List.mem_append.2 (.inl (List.mem_map_of_mem hpm)))) (ih p hpm hf)
    | here n n' hne ht hu h1 h2 =>
      rw [List.getElem?_map] at ht hu
      obtain ⟨g, hg, rfl⟩ := Option.map_eq_some_iff.1 ht
      obtain ⟨g', hg', rfl⟩ := Option.map_eq_some_iff.1 hu
      cases g with
      | nil => cases h1
      | cons p g =>
        cases g' with
        | nil => cases h2
        | cons p' g' =>
          simp only [List.map_cons] at h1 h2
          cases h1 with
          | seq h1 =>
            cases h2 with
            | seq h2 =>
              obtain ⟨rest, h3, _, h4⟩ := group_split hg hp
              have hg2 : (gs.set n g)[n']? = some (p' :: g') := by
                rw [List.getElem?_set_ne hne, hg']
              obtain ⟨rest', h5, _⟩ := group_split hg2 h4.symm
              obtain ⟨k, k', hkk, hk, hk'⟩ := two_perm (h3.trans (h5.cons _))
              exact .here k k' hkk hk hk'
                ((hgs p (List.mem_flatten.2 ⟨_, List.mem_of_getElem? hg, by simp⟩)).next h1)
                ((hgs p' (List.mem_flatten.2 ⟨_, List.mem_of_getElem? hg', by simp⟩)).next h2)

theorem Grouped.raceFree {m : Mem α} {t u : Tree α} (h : Grouped t u) (hr : RaceFree m t) :
    RaceFree m u := by
  intro m' u' hs hr'
  obtain ⟨t', h1, h2⟩ := h.matched.steps hs
  exact hr m' t' h1 (h2.race hr')

theorem Grouped.ends {m : Mem α} {t u : Tree α} {P} (h : Grouped t u) (hr : Ends m t P) :
    Ends m u P := by
  intro m' u' hs he
  obtain ⟨t', h1, h2⟩ := h.matched.steps hs
  rcases Verif.progress m' u' with hd | ⟨e, hf⟩ | hst
  · exact ⟨hd, (hr m' t' h1 (done_atEnd (h2.done hd))).2⟩
  · exact absurd (h2.failed hf) (hr.not_failed h1)
  · exact absurd hst he

/-! ### How many threads can be busy -/

theorem Pool.Steps.mono {k k' : Nat} (hk : k ≤ k') {m m' : Mem α} {w w' : Pool α}
    (h : Pool.Steps k m w m' w') : Pool.Steps k' m w m' w' := by
  induction h with
  | refl => exact .refl
  | step h _ ih => exact .step (h.mono fun _ => by omega) ih

theorem Pool.Steps.lift {k : Nat} {m m' : Mem α} {w w' : Pool α} (h : Pool.Steps k m w m' w')
    (l1 l2 : List (Pool α)) :
    Pool.Steps (k + (l1.map Pool.busy).sum + (l2.map Pool.busy).sum) m (.par (l1 ++ w :: l2)) m'
      (.par (l1 ++ w' :: l2)) := by
  induction h with
  | refl => exact .refl
  | @step m w m' w' _ _ h _ ih =>
    refine .step ?_ ih
    have : (l1 ++ w :: l2).set l1.length w' = l1 ++ w' :: l2 := by
      rw [List.set_append_right _ _ (Nat.le_refl _)]; simp
    rw [← this]
    refine .parStep l1.length (by simp) (h.mono fun _ => ?_)
    simp only [Pool.busy, List.map_append, List.map_cons, List.sum_append, List.sum_cons]
    omega

theorem Pool.Steps.liftSeq {k : Nat} {m m' : Mem α} {w w' : Pool α} (h : Pool.Steps k m w m' w')
    (ts : List (Tree α)) :
    Pool.Steps k m (.seq (w :: ts.map Pool.fresh)) m' (.seq (w' :: ts.map Pool.fresh)) := by
  have h0 : ((ts.map Pool.fresh).map Pool.busy).sum = 0 := by
    rw [List.map_map]; exact Pool.sum_zero fun t _ => Pool.busy_fresh t
  induction h with
  | refl => exact .refl
  | step h _ ih =>
    refine .step (.seqStep (h.mono fun _ => ?_)) ih
    simp only [Pool.busy, List.map_cons, List.sum_cons]
    omega

theorem Occupies.act (p : Act α Unit) : Occupies (.act p) 1 := by
  intro k hk m
  rcases Nat.eq_zero_or_pos k with rfl | h0
  · exact ⟨m, _, .refl, Pool.busy_fresh _⟩
  · refine ⟨m, .act .running p, ?_, by simp [Pool.busy]; omega⟩
    simp only [Pool.fresh]
    exact .step (.take (by simp [Pool.busy]; omega)) .refl

theorem Occupies.head {t : Tree α} {n : Nat} (h : Occupies t n) (ts : List (Tree α)) :
    Occupies (.seq (t :: ts)) n := by
  intro k hk m
  obtain ⟨m', w, h1, h2⟩ := h k hk m
  refine ⟨m', _, by simp only [Pool.fresh, List.map_cons]; exact h1.liftSeq ts, ?_⟩
  have h0 : ((ts.map Pool.fresh).map Pool.busy).sum = 0 := by
    rw [List.map_map]; exact Pool.sum_zero fun t _ => Pool.busy_fresh t
  simp only [Pool.busy, List.map_cons, List.sum_cons]
  omega

/-- A task that returns whatever the memory contains. -/
theorem run_act (p : Act α Unit) (hp : p.All (fun _ => True) (fun _ => False)) (m : Mem α) :
    ∃ m', Pool.Steps 1 m (.act .running p) m' (.act .finished (.ret ())) := by
  induction p generalizing m with
  | ret r => exact ⟨m, .step .leave .refl⟩
  | fail e => exact hp.elim
  | rd i k ih => obtain ⟨m', h⟩ := ih _ (hp _) m; exact ⟨m', .step (.work .rd) h⟩
  | wr i v k ih => obtain ⟨m', h⟩ := ih hp (m.set i v); exact ⟨m', .step (.work .wr) h⟩
  | rdFlag j k ih => obtain ⟨m', h⟩ := ih _ (hp _) m; exact ⟨m', .step (.work .rdFlag) h⟩
  | wrFlag j b k ih => obtain ⟨m', h⟩ := ih hp (m.setFlag j b); exact ⟨m', .step (.work .wrFlag) h⟩

theorem Occupies.skip {p : Act α Unit} (hp : p.All (fun _ => True) (fun _ => False))
    {ts : List (Tree α)} {n : Nat} (h : Occupies (.seq ts) n) : Occupies (.seq (.act p :: ts)) n := by
  intro k hk m
  rcases Nat.eq_zero_or_pos k with rfl | h0
  · exact ⟨m, _, .refl, Pool.busy_fresh _⟩
  obtain ⟨m1, h1⟩ := run_act p hp m
  obtain ⟨m', w, h2, h3⟩ := h k hk m1
  refine ⟨m', w, ?_, h3⟩
  have h4 : Pool.Steps k m (.act .waiting p) m1 (.act .finished (.ret ())) :=
    .step (.take (by simp [Pool.busy]; omega)) (h1.mono (by omega))
  simp only [Pool.fresh, List.map_cons] at h2 ⊢
  exact (h4.liftSeq ts).trans (.step (.seqNext .act) h2)

theorem occupies_list : ∀ (ts : List (Tree α)), (∀ t ∈ ts, Occupies t t.width) →
    ∀ (ws : List (Pool α)) (k : Nat), k ≤ (ts.map Tree.width).sum → ∀ m, ∃ m' ws',
      Pool.Steps (k + (ws.map Pool.busy).sum) m (.par (ws ++ ts.map Pool.fresh)) m'
        (.par (ws ++ ws')) ∧ (ws'.map Pool.busy).sum = k
  | [], _, ws, k, hk, m => ⟨m, [], .refl, by simp at hk; simp [hk]⟩
  | t :: ts, h, ws, k, hk, m => by
    simp only [List.map_cons, List.sum_cons] at hk
    have h0 : ((ts.map Pool.fresh).map Pool.busy).sum = 0 := by
      rw [List.map_map]; exact Pool.sum_zero fun t _ => Pool.busy_fresh t
    obtain ⟨m1, w1, h1, h2⟩ := h t (by simp) (min k t.width) (by omega) m
    obtain ⟨m2, ws2, h3, h4⟩ := occupies_list ts (fun u hu => h u (by simp [hu])) (ws ++ [w1])
      (k - min k t.width) (by omega) m1
    have h5 := h1.lift ws (ts.map Pool.fresh)
    rw [h0] at h5
    simp only [List.map_append, List.sum_append, List.map_cons, List.map_nil, List.sum_cons,
      List.sum_nil, h2, List.append_assoc, List.cons_append, List.nil_append] at h3
    refine ⟨m2, w1 :: ws2, ?_, ?_⟩
    · simp only [List.map_cons]
      exact (h5.mono (by omega)).trans (h3.mono (by omega))
    · simp only [List.map_cons, List.sum_cons]; omega

theorem Occupies.par {ts : List (Tree α)} (h : ∀ t ∈ ts, Occupies t t.width) :
    Occupies (.par ts) (Tree.par ts).width := by
  intro k hk m
  simp only [Tree.width] at hk
  obtain ⟨m', ws, h1, h2⟩ := occupies_list ts h [] k hk m
  refine ⟨m', _, by simpa only [Pool.fresh, List.nil_append, List.map_nil, List.sum_nil, Nat.add_zero] using h1, ?_⟩
  simpa only [Pool.busy, List.nil_append] using h2

theorem Occupies.le {t : Tree α} {n n' : Nat} (h : Occupies t n) (hn : n' ≤ n) : Occupies t n' :=
  fun k hk => h k (by omega)

end Verif
