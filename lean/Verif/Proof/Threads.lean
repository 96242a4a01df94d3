import Verif.SpecThreads
import Verif.Core.Race
/-
Lemmas about runs on a limited number of threads.
-/
namespace Verif
variable {α : Type}

namespace Pool

/-! ### Termination -/

/-- no infinite run starts in `w` -/
abbrev PAcc (w : Pool α) : Prop := Acc (fun w' w => ∃ m m', Step True m w m' w') w

theorem Step.mono {f g : Prop} (hfg : f → g) {m m' : Mem α} {w w' : Pool α}
    (h : Step f m w m' w') : Step g m w m' w' := by
  induction h with
  | take hf => exact .take (hfg hf)
  | work h => exact .work h
  | leave => exact .leave
  | seqStep _ ih => exact .seqStep ih
  | seqNext h => exact .seqNext h
  | parStep n hn _ ih => exact .parStep n hn ih

theorem pacc_finished (p : Act α Unit) : PAcc (.act .finished p) :=
  Acc.intro _ fun w' ⟨m, m', h⟩ => by cases h

theorem pacc_running (p : Act α Unit) : PAcc (.act .running p) := by
  induction p with
  | ret r =>
    refine Acc.intro _ fun t' ⟨m, m', h⟩ => ?_
    cases h with
    | work h => cases h
    | leave => exact pacc_finished _
  | fail e =>
    refine Acc.intro _ fun t' ⟨m, m', h⟩ => ?_
    cases h with
    | work h => cases h
  | rd i k ih =>
    refine Acc.intro _ fun t' ⟨m, m', h⟩ => ?_
    cases h with
    | work h => cases h; exact ih _
  | wr i v k ih =>
    refine Acc.intro _ fun t' ⟨m, m', h⟩ => ?_
    cases h with
    | work h => cases h; exact ih
  | rdFlag j k ih =>
    refine Acc.intro _ fun t' ⟨m, m', h⟩ => ?_
    cases h with
    | work h => cases h; exact ih _
  | wrFlag j b k ih =>
    refine Acc.intro _ fun t' ⟨m, m', h⟩ => ?_
    cases h with
    | work h => cases h; exact ih

theorem pacc_act (s : TaskState) (p : Act α Unit) : PAcc (.act s p) := by
  cases s with
  | finished => exact pacc_finished p
  | running => exact pacc_running p
  | waiting =>
    refine Acc.intro _ fun t' ⟨m, m', h⟩ => ?_
    cases h with
    | take => exact pacc_running p

theorem pacc_seq_cons {t : Pool α} {ts} (h : PAcc t) (hs : PAcc (.seq ts)) :
    PAcc (.seq (t :: ts)) := by
  induction h with
  | intro t _ ih =>
    refine Acc.intro _ fun t' ⟨m, m', h⟩ => ?_
    cases h with
    | seqStep h => exact ih _ ⟨_, _, h⟩
    | seqNext _ => exact hs

theorem pacc_seq (ts : List (Pool α)) (h : ∀ t ∈ ts, PAcc t) : PAcc (.seq ts) := by
  induction ts with
  | nil => exact Acc.intro _ fun t' ⟨m, m', h⟩ => by cases h
  | cons t ts ih => exact pacc_seq_cons (h t (by simp)) (ih fun t ht => h t (by simp [ht]))

/-- a step of one element of a list -/
def LStep (ts ts' : List (Pool α)) : Prop :=
  ∃ (n : Nat) (t t' : Pool α), ts[n]? = some t ∧ (∃ m m', Step True m t m' t') ∧ ts' = ts.set n t'

theorem lacc_cons {t : Pool α} {ts} (h : PAcc t) (hs : Acc (fun l' l => LStep l l') ts) :
    Acc (fun l' l => LStep l l') (t :: ts) := by
  induction h generalizing ts with
  | intro t ht ih =>
    induction hs with
    | intro ts hts ihs =>
      refine Acc.intro _ fun l' ⟨n, u, u', hn, hu, he⟩ => ?_
      cases n with
      | zero =>
        simp at hn; subst hn
        simp at he; subst he
        exact ih _ hu (Acc.intro _ hts)
      | succ n =>
        simp at hn he; subst he
        exact ihs _ ⟨n, u, u', hn, hu, rfl⟩

theorem lacc (ts : List (Pool α)) (h : ∀ t ∈ ts, PAcc t) : Acc (fun l' l => LStep l l') ts := by
  induction ts with
  | nil => exact Acc.intro _ fun l' ⟨n, u, u', hn, _⟩ => by simp at hn
  | cons t ts ih => exact lacc_cons (h t (by simp)) (ih fun t ht => h t (by simp [ht]))

theorem pacc_par (ts : List (Pool α)) (h : ∀ t ∈ ts, PAcc t) : PAcc (.par ts) := by
  have := lacc ts h
  clear h
  induction this with
  | intro ts _ ih =>
    refine Acc.intro _ fun t' ⟨m, m', h⟩ => ?_
    cases h with
    | parStep n hn h => exact ih _ ⟨n, _, _, hn, ⟨_, _, h⟩, rfl⟩

theorem pacc : (t : Pool α) → PAcc t
  | .act s p => pacc_act s p
  | .seq ts => pacc_seq ts fun t _ => pacc t
  | .par ts => pacc_par ts fun t _ => pacc t

theorem no_infinite (threads : Nat) (m : Mem α) (w : Pool α) :
    ¬ ∃ f : Nat → Mem α × Pool α, f 0 = (m, w) ∧
      ∀ n, Step ((f n).2.busy < threads) (f n).1 (f n).2 (f (n + 1)).1 (f (n + 1)).2 := by
  rintro ⟨f, h0, hf⟩
  have key : ∀ t : Pool α, PAcc t → ∀ n, (f n).2 ≠ t := by
    intro t ht
    induction ht with
    | intro t _ ih =>
      intro n hn
      have := hf n
      rw [hn] at this
      exact ih _ ⟨_, _, this.mono fun _ => trivial⟩ (n + 1) rfl
  exact key w (pacc w) 0 (by rw [h0])

/-! ### Elementary facts -/

theorem tree_fresh : (t : Tree α) → (fresh t).tree = t
  | .act p => by simp [fresh, tree]
  | .seq ts => by
    simp only [fresh, tree, List.map_map]
    congr 1
    conv => rhs; rw [← List.map_id ts]
    exact List.map_congr_left fun t _ => tree_fresh t
  | .par ts => by
    simp only [fresh, tree, List.map_map]
    congr 1
    conv => rhs; rw [← List.map_id ts]
    exact List.map_congr_left fun t _ => tree_fresh t

theorem sum_zero {β : Type} {l : List β} {f : β → Nat} (h : ∀ x ∈ l, f x = 0) : (l.map f).sum = 0 := by
  induction l with
  | nil => rfl
  | cons x l ih => simp [h x (by simp), ih fun y hy => h y (by simp [hy])]

theorem busy_fresh : (t : Tree α) → (fresh t).busy = 0
  | .act p => by simp [fresh, busy]
  | .seq ts => by
    simp only [fresh, busy, List.map_map]
    exact sum_zero fun t _ => busy_fresh t
  | .par ts => by
    simp only [fresh, busy, List.map_map]
    exact sum_zero fun t _ => busy_fresh t

/-- What holds of all states of a run: only tasks that have returned are finished, and in a
sequence only the first element has been begun. -/
inductive Legal : Pool α → Prop
  | waiting {p} : Legal (.act .waiting p)
  | running {p} : Legal (.act .running p)
  | finished : Legal (.act .finished (.ret ()))
  | nil : Legal (.seq [])
  | cons {w : Pool α} {ts : List (Tree α)} : Legal w → Legal (.seq (w :: (ts.map fresh)))
  | par {ws} : (∀ w ∈ ws, Legal w) → Legal (.par ws)

theorem legal_fresh : (t : Tree α) → Legal (fresh t)
  | .act p => by simp only [fresh]; exact .waiting
  | .seq [] => by simp only [fresh]; exact .nil
  | .seq (t :: ts) => by simp only [fresh, List.map_cons]; exact .cons (legal_fresh t)
  | .par ts => by
    simp only [fresh]
    refine .par fun w hw => ?_
    obtain ⟨t, ht, rfl⟩ := List.mem_map.1 hw
    exact legal_fresh t

theorem Finished.busy {w : Pool α} (h : Finished w) : w.busy = 0 := by
  induction h with
  | act => simp [Pool.busy]
  | seq => simp [Pool.busy]
  | par _ ih => simp only [Pool.busy]; exact sum_zero ih

theorem Finished.done {w : Pool α} (h : Finished w) (hi : Legal w) : Done w.tree := by
  induction h with
  | act => cases hi; simp only [tree]; exact .act
  | seq => simp only [tree, List.map_nil]; exact .seq
  | par _ ih =>
    cases hi with
    | par hi =>
      simp only [tree]
      refine .par fun t ht => ?_
      obtain ⟨w, hw, rfl⟩ := List.mem_map.1 ht
      exact ih w hw (hi w hw)

theorem Step.legal {free : Prop} {m m' : Mem α} {w w' : Pool α} (h : Step free m w m' w')
    (hi : Legal w) : Legal w' := by
  induction h with
  | take => exact .running
  | work => exact .running
  | leave => exact .finished
  | seqStep _ ih => cases hi with | cons hi => exact .cons (ih hi)
  | seqNext =>
    cases hi with
    | @cons _ ts hi =>
      have := legal_fresh (.seq ts)
      simpa only [fresh] using this
  | parStep n hn _ ih =>
    cases hi with
    | par hi =>
      refine .par fun w hw => ?_
      rcases List.mem_or_eq_of_mem_set hw with hw | rfl
      · exact hi w hw
      · exact ih (hi _ (List.mem_of_getElem? hn))

/-- A step of a pool is a step of the program, or changes only what the threads are busy with. -/
theorem Step.sound {free : Prop} {m m' : Mem α} {w w' : Pool α} (h : Step free m w m' w')
    (hi : Legal w) : (m = m' ∧ w.tree = w'.tree) ∨ PStep m w.tree m' w'.tree := by
  induction h with
  | take => exact .inl ⟨rfl, by simp [tree]⟩
  | work h => exact .inr (by simpa [tree] using h)
  | leave => exact .inl ⟨rfl, by simp [tree]⟩
  | seqStep _ ih =>
    cases hi with
    | cons hi =>
      rcases ih hi with ⟨h1, h2⟩ | h
      · exact .inl ⟨h1, by simp [tree, h2]⟩
      · exact .inr (by simp only [tree, List.map_cons]; exact .seqStep h)
  | seqNext hf =>
    cases hi with
    | cons hi => exact .inr (by simp only [tree, List.map_cons]; exact .seqNext (hf.done hi))
  | parStep n hn _ ih =>
    cases hi with
    | par hi =>
      rcases ih (hi _ (List.mem_of_getElem? hn)) with ⟨h1, h2⟩ | h
      · refine .inl ⟨h1, ?_⟩
        simp only [tree, List.map_set, ← h2]
        congr 1
        refine List.ext_getElem? fun k => ?_
        rw [List.getElem?_set]
        split
        · rename_i hk
          subst hk
          obtain ⟨hl, he⟩ := List.getElem?_eq_some_iff.1 hn
          simp [hl, he]
        · rfl
      · refine .inr ?_
        simp only [tree, List.map_set]
        exact .parStep n (by simp [hn]) h

theorem Steps.sound {threads : Nat} {m m' : Mem α} {w w' : Pool α} (h : Steps threads m w m' w')
    (hi : Legal w) : PSteps m w.tree m' w'.tree ∧ Legal w' := by
  induction h with
  | refl => exact ⟨.refl, hi⟩
  | step h _ ih =>
    have ⟨h1, h2⟩ := ih (h.legal hi)
    refine ⟨?_, h2⟩
    rcases h.sound hi with ⟨rfl, he⟩ | hs
    · rw [he]; exact h1
    · exact .step hs h1

theorem sum_set {l : List (Pool α)} {n : Nat} {x y : Pool α} (h : l[n]? = some x) :
    ((l.set n y).map busy).sum + x.busy = (l.map busy).sum + y.busy := by
  induction l generalizing n with
  | nil => simp at h
  | cons z l ih =>
    cases n with
    | zero => simp at h; subst h; simp; omega
    | succ n =>
      simp at h
      have := ih h
      simp only [List.set_cons_succ, List.map_cons, List.sum_cons]
      omega

theorem Step.busy {free : Prop} {m m' : Mem α} {w w' : Pool α} (h : Step free m w m' w') :
    w'.busy ≤ w.busy ∨ (free ∧ w'.busy = w.busy + 1) := by
  induction h with
  | take hf => exact .inr ⟨hf, by simp [Pool.busy]⟩
  | work => exact .inl (by simp [Pool.busy])
  | leave => exact .inl (by simp [Pool.busy])
  | seqStep _ ih => 
    simp only [Pool.busy, List.map_cons, List.sum_cons]
    rcases ih with h | ⟨hf, h⟩
    · exact .inl (by omega)
    · exact .inr ⟨hf, by omega⟩
  | seqNext => left; simp [Pool.busy]
  | @parStep _ t t' ts n hn _ ih =>
    simp only [Pool.busy]
    have := sum_set (y := t') hn
    rcases ih with h | ⟨hf, h⟩
    · exact .inl (by omega)
    · exact .inr ⟨hf, by omega⟩

theorem Steps.busy {threads : Nat} {m m' : Mem α} {w w' : Pool α} (h : Steps threads m w m' w')
    (hb : w.busy ≤ threads) : w'.busy ≤ threads := by
  induction h with
  | refl => exact hb
  | step h _ ih => exact ih (by rcases h.busy with h | h <;> omega)

theorem Steps.trans {threads : Nat} {m m' m'' : Mem α} {w w' w'' : Pool α}
    (h : Steps threads m w m' w') (h' : Steps threads m' w' m'' w'') :
    Steps threads m w m'' w'' := by
  induction h with
  | refl => exact h'
  | step h _ ih => exact .step h (ih h')

/-! ### Progress -/

/-- In every state all tasks have returned, or a task has failed, or a busy thread can go on, or no
thread is busy and a task can be taken. -/
theorem progress (m : Mem α) : (w : Pool α) → Legal w →
    Finished w ∨ (∃ e, Failed e w.tree) ∨ (∃ m' w', Step False m w m' w') ∨
      (w.busy = 0 ∧ ∃ m' w', Step True m w m' w')
  | .act .waiting p, _ => .inr (.inr (.inr ⟨by simp [busy], m, _, .take trivial⟩))
  | .act .finished p, _ => .inl .act
  | .act .running (.ret ()), _ => .inr (.inr (.inl ⟨m, _, .leave⟩))
  | .act .running (.fail e), _ => .inr (.inl ⟨e, by simp only [tree]; exact .act⟩)
  | .act .running (.rd i k), _ => .inr (.inr (.inl ⟨m, _, .work .rd⟩))
  | .act .running (.wr i v k), _ => .inr (.inr (.inl ⟨_, _, .work .wr⟩))
  | .act .running (.rdFlag j k), _ => .inr (.inr (.inl ⟨m, _, .work .rdFlag⟩))
  | .act .running (.wrFlag j b k), _ => .inr (.inr (.inl ⟨_, _, .work .wrFlag⟩))
  | .seq [], _ => .inl .seq
  | .seq (w :: ws), hi => by
    have hw : Legal w := by cases hi; assumption
    have h0 : (ws.map busy).sum = 0 := by
      cases hi with
      | cons _ => rw [List.map_map]; exact sum_zero fun t _ => busy_fresh t
    rcases progress m w hw with h | ⟨e, h⟩ | ⟨m', w', h⟩ | ⟨hb, m', w', h⟩
    · exact .inr (.inr (.inl ⟨m, _, .seqNext h⟩))
    · exact .inr (.inl ⟨e, by simp only [tree, List.map_cons]; exact .seq h⟩)
    · exact .inr (.inr (.inl ⟨m', _, .seqStep h⟩))
    · exact .inr (.inr (.inr ⟨by simp [busy, hb, h0], m', _, .seqStep h⟩))
  | .par ws, hi => by
    have hi' : ∀ w ∈ ws, Legal w := by cases hi; assumption
    have ih := fun w (hw : w ∈ ws) => progress m w (hi' w hw)
    by_cases hF : ∃ w ∈ ws, ∃ e, Failed e w.tree
    · obtain ⟨w, hw, e, h⟩ := hF
      exact .inr (.inl ⟨e, by simp only [tree]; exact .par (List.mem_map_of_mem hw) h⟩)
    by_cases hS : ∃ w ∈ ws, ∃ m' w', Step False m w m' w'
    · obtain ⟨w, hw, m', w', h⟩ := hS
      obtain ⟨n, hn⟩ := List.mem_iff_getElem?.1 hw
      exact .inr (.inr (.inl ⟨m', _, .parStep n hn h⟩))
    have ih' : ∀ w ∈ ws, Finished w ∨ (w.busy = 0 ∧ ∃ m' w', Step True m w m' w') := by
      intro w hw
      rcases ih w hw with h | h | h | h
      · exact .inl h
      · exact absurd ⟨w, hw, h⟩ hF
      · exact absurd ⟨w, hw, h⟩ hS
      · exact .inr h
    by_cases hW : ∃ w ∈ ws, ∃ m' w', Step True m w m' w'
    · obtain ⟨w, hw, m', w', h⟩ := hW
      obtain ⟨n, hn⟩ := List.mem_iff_getElem?.1 hw
      refine .inr (.inr (.inr ⟨?_, m', _, .parStep n hn h⟩))
      simp only [busy]
      refine sum_zero fun w hw => ?_
      rcases ih' w hw with h | h
      · exact h.busy
      · exact h.1
    · refine .inl (.par fun w hw => ?_)
      rcases ih' w hw with h | h
      · exact h
      · exact absurd ⟨w, hw, h.2⟩ hW

/-! ### Races -/

theorem Next.sound {w : Pool α} {l b} (h : Next w l b) : Verif.Next w.tree l b := by
  induction h with
  | act h => simpa only [tree] using h
  | seq _ ih => simp only [tree, List.map_cons]; exact .seq ih
  | par n hn _ ih => simp only [tree]; exact .par n (by simp [hn]) ih

theorem Race.sound {w : Pool α} (h : Race w) : Verif.Race w.tree := by
  induction h with
  | here n n' hne ht hu h1 h2 =>
    simp only [tree]
    exact .here n n' hne (by simp [ht]) (by simp [hu]) h1.sound h2.sound
  | seq _ ih => simp only [tree, List.map_cons]; exact .seq ih
  | par hm _ ih => simp only [tree]; exact .par (List.mem_map_of_mem hm) ih

theorem le_sum {l : List (Pool α)} {n : Nat} {w : Pool α} (h : l[n]? = some w) :
    w.busy ≤ (l.map busy).sum := by
  induction l generalizing n with
  | nil => simp at h
  | cons z l ih =>
    cases n with
    | zero => simp at h; subst h; simp
    | succ n => simp at h; have := ih h; simp; omega

theorem Next.busy {w : Pool α} {l b} (h : Next w l b) : 1 ≤ w.busy := by
  induction h with
  | act h => simp [Pool.busy]
  | seq _ ih => simp only [Pool.busy, List.map_cons, List.sum_cons]; omega
  | par n hn _ ih => simp only [Pool.busy]; have := le_sum hn; omega

theorem add_le_sum {l : List (Pool α)} {n n' : Nat} {w w' : Pool α} (hne : n ≠ n')
    (h : l[n]? = some w) (h' : l[n']? = some w') : w.busy + w'.busy ≤ (l.map Pool.busy).sum := by
  induction l generalizing n n' with
  | nil => simp at h
  | cons z l ih =>
    cases n with
    | zero =>
      cases n' with
      | zero => exact absurd rfl hne
      | succ n' =>
        simp at h h'; subst h; have := le_sum h'; simp; omega
    | succ n =>
      cases n' with
      | zero => simp at h h'; subst h'; have := le_sum h; simp; omega
      | succ n' => simp at h h'; have := ih (by omega) h h'; simp; omega

/-- A race takes two threads. -/
theorem Race.busy {w : Pool α} (h : Race w) : 2 ≤ w.busy := by
  induction h with
  | here n n' hne ht hu h1 h2 =>
    simp only [Pool.busy]
    have := add_le_sum hne ht hu
    have := h1.busy
    have := h2.busy
    omega
  | seq _ ih => simp only [Pool.busy, List.map_cons, List.sum_cons]; omega
  | par hm _ ih =>
    obtain ⟨n, hn⟩ := List.mem_iff_getElem?.1 hm
    simp only [Pool.busy]
    have := le_sum hn
    omega

end Pool

/-! ### From all interleavings to pools -/

theorem failed_not_done {e : Err} {t : Tree α} (h : Failed e t) (hd : Done t) : False := by
  induction h with
  | act => cases hd
  | seq _ _ => cases hd
  | par hm _ ih => cases hd with | par hd => exact ih (hd _ hm)

theorem failed_step {e : Err} {m m' : Mem α} {t t' : Tree α} (hs : PStep m t m' t')
    (h : Failed e t) : Failed e t' := by
  induction hs with
  | rd => cases h
  | wr => cases h
  | rdFlag => cases h
  | wrFlag => cases h
  | seqStep _ ih => cases h with | seq h => exact .seq (ih h)
  | seqNext hd =>
    cases h with
    | seq h => exact (failed_not_done h hd).elim
  | parStep n hn _ ih =>
    rename_i t t' ts _
    cases h with
    | @par u _ hm h =>
      obtain ⟨k, hk⟩ := List.mem_iff_getElem?.1 hm
      by_cases hkn : n = k
      · subst hkn
        rw [hn] at hk; cases hk
        refine .par (List.mem_iff_getElem?.2 ⟨n, ?_⟩) (ih h)
        rw [List.getElem?_set_self]
        exact (List.getElem?_eq_some_iff.1 hn).1
      · refine .par (List.mem_iff_getElem?.2 ⟨k, ?_⟩) h
        rw [List.getElem?_set_ne hkn, hk]

theorem done_atEnd {m : Mem α} {t : Tree α} (h : Done t) : AtEnd m t := by
  rintro ⟨m', t', hs⟩
  induction hs with
  | rd => cases h
  | wr => cases h
  | rdFlag => cases h
  | wrFlag => cases h
  | seqStep _ _ => cases h
  | seqNext _ => cases h
  | parStep n hn _ ih => cases h with | par h => exact ih (h _ (List.mem_of_getElem? hn))

/-- every run can be continued to its end -/
theorem exists_lastStep (t : Tree α) (m : Mem α) : ∃ m' t', PSteps m t m' t' ∧ AtEnd m' t' := by
  have h := tacc t
  induction h generalizing m with
  | intro t _ ih =>
    by_cases he : AtEnd m t
    · exact ⟨m, t, .refl, he⟩
    · obtain ⟨m', t', hs⟩ := Classical.not_not.1 he
      obtain ⟨m'', t'', h1, h2⟩ := ih t' ⟨m, m', hs⟩ m'
      exact ⟨m'', t'', .step hs h1, h2⟩

/-- The program returns in every run that is continued to its end, with cells satisfying `P`. -/
def Ends (m : Mem α) (t : Tree α) (P : (Nat → α) → Prop) : Prop :=
  ∀ m' t', PSteps m t m' t' → AtEnd m' t' → Done t' ∧ P m'.cell

theorem Ends.not_failed {m m' : Mem α} {t t' : Tree α} {P} (h : Ends m t P)
    (hs : PSteps m t m' t') {e} : ¬ Failed e t' := by
  intro hf
  obtain ⟨m'', t'', h1, h2⟩ := exists_lastStep t' m'
  have hd := (h _ _ (hs.trans h1) h2).1
  have hf' : Failed e t'' := by
    clear h2 hd hs
    induction h1 with
    | refl => exact hf
    | step hs _ ih => exact ih (failed_step hs hf)
  exact failed_not_done hf' hd

/-- When the threads cannot do anything any more, all tasks have returned. -/
theorem Ends.pool_ends {m : Mem α} {t : Tree α} {P} (h : Ends m t P) {threads : Nat}
    (ht : 0 < threads) (m' : Mem α) (w : Pool α) (hs : Pool.Steps threads m (.fresh t) m' w)
    (hend : ¬ ∃ m'' w', Pool.Step (w.busy < threads) m' w m'' w') : w.Finished ∧ P m'.cell := by
  have ⟨h1, hi⟩ := hs.sound (Pool.legal_fresh t)
  rw [Pool.tree_fresh] at h1
  rcases Pool.progress m' w hi with hf | ⟨e, hf⟩ | ⟨m'', w', hst⟩ | ⟨hb, m'', w', hst⟩
  · have hd := hf.done hi
    exact ⟨hf, (h _ _ h1 (done_atEnd hd)).2⟩
  · exact absurd hf (h.not_failed h1)
  · exact absurd ⟨m'', w', hst.mono False.elim⟩ hend
  · exact absurd ⟨m'', w', hst.mono fun _ => by omega⟩ hend

theorem Ends.pool {m : Mem α} {t : Tree α} {P} (h : Ends m t P) {threads : Nat}
    (ht : 0 < threads)
    (hr : ∀ m' w, Pool.Steps threads m (.fresh t) m' w → ¬ w.Race) : EveryPoolRun threads m t P :=
  ⟨Pool.no_infinite _ _ _, fun _ _ hs => hs.busy (by simp [Pool.busy_fresh]), hr, h.pool_ends ht⟩

end Verif
