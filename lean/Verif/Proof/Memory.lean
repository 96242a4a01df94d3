import Verif.SpecMemory
import Verif.SpecRuns
import Verif.Core.Race
/-
Data-race-free fork/join programs behave in the C++ memory model as under interleaving, and programs
with a reachable race have an execution with a data race.
-/
set_option linter.unusedSectionVars false
namespace Verif
variable {α : Type}

/-! ### positions -/

theorem at_event {e f : Event α} {p} : (Execution.event e).at p = some f ↔ p = [] ∧ e = f := by
  cases p with
  | nil => simp [Execution.at]
  | cons a p => simp [Execution.at]

theorem at_seq {xs : List (Execution α)} {p e} : (Execution.seq xs).at p = some e ↔
    ∃ n x p', p = .seq n :: p' ∧ xs[n]? = some x ∧ x.at p' = some e := by
  constructor
  · intro h
    cases p with
    | nil => simp [Execution.at] at h
    | cons a p =>
      cases a with
      | par n => simp [Execution.at] at h
      | seq n =>
        simp only [Execution.at] at h
        split at h
        · next x hx => exact ⟨n, x, p, rfl, hx, h⟩
        · exact absurd h (by simp)
  · rintro ⟨n, x, p', rfl, hx, he⟩
    simp only [Execution.at, hx]
    exact he

theorem at_par {xs : List (Execution α)} {p e} : (Execution.par xs).at p = some e ↔
    ∃ n x p', p = .par n :: p' ∧ xs[n]? = some x ∧ x.at p' = some e := by
  constructor
  · intro h
    cases p with
    | nil => simp [Execution.at] at h
    | cons a p =>
      cases a with
      | seq n => simp [Execution.at] at h
      | par n =>
        simp only [Execution.at] at h
        split at h
        · next x hx => exact ⟨n, x, p, rfl, hx, h⟩
        · exact absurd h (by simp)
  · rintro ⟨n, x, p', rfl, hx, he⟩
    simp only [Execution.at, hx]
    exact he

theorem at_seq_zero {x : Execution α} {xs p} :
    (Execution.seq (x :: xs)).at (.seq 0 :: p) = x.at p := by simp [Execution.at]

theorem at_seq_succ {x : Execution α} {xs n p} :
    (Execution.seq (x :: xs)).at (.seq (n + 1) :: p) = (Execution.seq xs).at (.seq n :: p) := by
  simp [Execution.at]

/-- a position in a sequence is one in the first part or one in the others -/
theorem at_seq_cons {x : Execution α} {xs p e} : (Execution.seq (x :: xs)).at p = some e ↔
    (∃ p', p = .seq 0 :: p' ∧ x.at p' = some e) ∨
    (∃ n p', p = .seq (n + 1) :: p' ∧ (Execution.seq xs).at (.seq n :: p') = some e) := by
  constructor
  · intro h
    obtain ⟨n, y, p', rfl, hy, he⟩ := at_seq.1 h
    cases n with
    | zero => exact .inl ⟨p', rfl, by simpa [Execution.at] using h⟩
    | succ n => exact .inr ⟨n, p', rfl, by rwa [at_seq_succ] at h⟩
  · rintro (⟨p', rfl, h⟩ | ⟨n, p', rfl, h⟩)
    · rwa [at_seq_zero]
    · rwa [at_seq_succ]

theorem HB.irrefl : ∀ p : List Turn, ¬ HB p p
  | [] => by simp [HB]
  | .seq n :: p => by simp [HB, HB.irrefl p]
  | .par n :: p => by simp [HB, HB.irrefl p]

theorem HB_zero {p q} : HB (.seq 0 :: p) (.seq 0 :: q) ↔ HB p q := by simp [HB]

theorem HB_zero_succ {n p q} : HB (.seq 0 :: p) (.seq (n + 1) :: q) := by simp [HB]

theorem not_HB_succ_zero {n p q} : ¬ HB (.seq (n + 1) :: p) (.seq 0 :: q) := by simp [HB]

theorem HB_succ {n n' p q} :
    HB (.seq (n + 1) :: p) (.seq (n' + 1) :: q) ↔ HB (.seq n :: p) (.seq n' :: q) := by
  simp [HB]

theorem HB_par {n n' p q} : HB (.par n :: p) (.par n' :: q) ↔ n = n' ∧ HB p q := by simp [HB]

/-! ### memory -/

theorem Mem.ext_val {m m' : Mem α} (h : ∀ l, m.val l = m'.val l) : m = m' := by
  cases m with | mk c f =>
  cases m' with | mk c' f' =>
  have h1 : c = c' := funext fun i => by simpa [Mem.val] using h (.cell i)
  have h2 : f = f' := funext fun j => by simpa [Mem.val] using h (.flag j)
  rw [h1, h2]

/-- memory after one access -/
def Mem.after (m : Mem α) : Event α → Mem α
  | .rd _ _ => m
  | .wr i v => m.set i v
  | .rdFlag _ _ => m
  | .wrFlag j b => m.setFlag j b

theorem Mem.val_after (m : Mem α) (e : Event α) (l : Loc) :
    (m.after e).val l = if e.isWrite = true ∧ e.loc = l then e.val else m.val l := by
  cases e <;> cases l <;>
    simp [Mem.after, Event.isWrite, Event.loc, Event.val, Mem.val, Mem.set, Mem.setFlag]
  · next i v j => by_cases h : j = i <;> simp [h, Ne.symm]
  · next i v j => by_cases h : j = i <;> simp [h, Ne.symm]

/-! ### executions without race -/

/-- without race the final memory is unique -/
theorem Final.eq_of_max {m m' : Mem α} {x} (h : Final m x m') (hr : ¬ Racy x) {l q w}
    (hq : x.at q = some w) (hw : w.isWrite = true) (hl : w.loc = l)
    (hmax : ∀ q', WritesAt x l q' → ¬ HB q q') : w.val = m'.val l := by
  rcases h l with ⟨q1, w1, h1, h2, h3, h4, h5⟩ | ⟨h1, _⟩
  · by_cases heq : q = q1
    · subst heq
      rw [hq] at h1
      cases h1
      exact h4
    · exact absurd ⟨q, q1, w, w1, hq, h1, heq, hl.trans h3.symm, hw,
        hmax q1 ⟨w1, h1, h2, h3⟩, h5 q ⟨w, hq, hw, hl⟩⟩ hr
  · exact absurd ⟨w, hq, hw, hl⟩ (h1 q)

theorem Final.unique {m m' m'' : Mem α} {x} (h : Final m x m') (h' : Final m x m'')
    (hr : ¬ Racy x) : m' = m'' := by
  refine Mem.ext_val fun l => ?_
  rcases h l with ⟨q1, w1, h1, h2, h3, h4, h5⟩ | ⟨h1, h2⟩
  · rw [← h4]
    exact h'.eq_of_max hr h1 h2 h3 h5
  · rcases h' l with ⟨q1, w1, h3, h4, h5, _⟩ | ⟨_, h4⟩
    · exact absurd ⟨w1, h3, h4, h5⟩ (h1 q1)
    · rw [h2, h4]

theorem Racy.seq_head {x : Execution α} {xs} (h : Racy x) : Racy (.seq (x :: xs)) := by
  obtain ⟨p, q, e, f, h1, h2, h3, h4, h5, h6, h7⟩ := h
  refine ⟨.seq 0 :: p, .seq 0 :: q, e, f, ?_, ?_, ?_, h4, h5, ?_, ?_⟩
  · rwa [at_seq_zero]
  · rwa [at_seq_zero]
  · simpa using h3
  · rwa [HB_zero]
  · rwa [HB_zero]

theorem Racy.seq_tail {x : Execution α} {xs} (h : Racy (.seq xs)) : Racy (.seq (x :: xs)) := by
  obtain ⟨p, q, e, f, h1, h2, h3, h4, h5, h6, h7⟩ := h
  obtain ⟨n, y, p', rfl, hy, hp⟩ := at_seq.1 h1
  obtain ⟨n', y', q', rfl, hy', hq⟩ := at_seq.1 h2
  refine ⟨.seq (n + 1) :: p', .seq (n' + 1) :: q', e, f, ?_, ?_, ?_, h4, h5, ?_, ?_⟩
  · rwa [at_seq_succ]
  · rwa [at_seq_succ]
  · simpa using h3
  · rwa [HB_succ]
  · rwa [HB_succ]

theorem Racy.par_child {x : Execution α} {xs : List (Execution α)} {n : Nat} (hn : xs[n]? = some x)
    (h : Racy x) : Racy (.par xs) := by
  obtain ⟨p, q, e, f, h1, h2, h3, h4, h5, h6, h7⟩ := h
  refine ⟨.par n :: p, .par n :: q, e, f, at_par.2 ⟨n, x, p, rfl, hn, h1⟩,
    at_par.2 ⟨n, x, q, rfl, hn, h2⟩, ?_, h4, h5, ?_, ?_⟩
  · simpa using h3
  · rw [HB_par]; exact fun h => h6 h.2
  · rw [HB_par]; exact fun h => h7 h.2

/-- an object written in one of the parallel parts is accessed in no other -/
theorem Racy.par_here {xs : List (Execution α)} {n n' : Nat} {x y} (hne : n ≠ n')
    (hx : xs[n]? = some x) (hy : xs[n']? = some y) {l p q e} (hp : WritesAt x l p)
    (hq : y.at q = some e) (hl : e.loc = l) : Racy (.par xs) := by
  obtain ⟨w, h1, h2, h3⟩ := hp
  refine ⟨.par n :: p, .par n' :: q, w, e, at_par.2 ⟨n, x, p, rfl, hx, h1⟩,
    at_par.2 ⟨n', y, q, rfl, hy, hq⟩, ?_, h3.trans hl.symm, h2, ?_, ?_⟩
  · simp [hne]
  · rw [HB_par]; exact fun h => hne h.1
  · rw [HB_par]; exact fun h => hne h.1.symm

/-! ### parts of consistent executions -/

theorem WritesAt.seq_head {x : Execution α} {xs l q} (h : WritesAt x l q) :
    WritesAt (.seq (x :: xs)) l (.seq 0 :: q) := by
  obtain ⟨w, h1, h2⟩ := h
  exact ⟨w, by rwa [at_seq_zero], h2⟩

theorem WritesAt.seq_tail {x : Execution α} {xs l n q} (h : WritesAt (.seq xs) l (.seq n :: q)) :
    WritesAt (.seq (x :: xs)) l (.seq (n + 1) :: q) := by
  obtain ⟨w, h1, h2⟩ := h
  exact ⟨w, by rwa [at_seq_succ], h2⟩

theorem Consistent.seq_head {m : Mem α} {x xs} (h : Consistent m (.seq (x :: xs))) :
    Consistent m x := by
  intro p e hp he
  rcases h (.seq 0 :: p) e (by rwa [at_seq_zero]) he with ⟨q, w, h1, h2, h3, h4, h5, h6⟩ | ⟨h1, h2⟩
  · rcases at_seq_cons.1 h1 with ⟨q', rfl, h1'⟩ | ⟨n, q', rfl, _⟩
    · refine .inl ⟨q', w, h1', h2, h3, h4, HB_zero.1 h5, fun q'' hq hb hb' => ?_⟩
      exact h6 (.seq 0 :: q'') hq.seq_head (HB_zero.2 hb) (HB_zero.2 hb')
    · exact absurd h5 not_HB_succ_zero
  · exact .inr ⟨fun q hq hb => h1 (.seq 0 :: q) hq.seq_head (HB_zero.2 hb), h2⟩

theorem Consistent.seq_tail {m m1 : Mem α} {x xs} (h : Consistent m (.seq (x :: xs)))
    (hr : ¬ Racy x) (hf : Final m x m1) : Consistent m1 (.seq xs) := by
  intro p e hp he
  obtain ⟨n, y, p', rfl, hy, hp'⟩ := at_seq.1 hp
  rcases h (.seq (n + 1) :: p') e (by rwa [at_seq_succ]) he with
    ⟨q, w, h1, h2, h3, h4, h5, h6⟩ | ⟨h1, h2⟩
  · rcases at_seq_cons.1 h1 with ⟨q', rfl, h1'⟩ | ⟨n', q', rfl, h1'⟩
    · right
      constructor
      · intro q hq hb
        have hq' := hq
        obtain ⟨w', hw', _⟩ := hq'
        obtain ⟨n'', y', q'', rfl, _, _⟩ := at_seq.1 hw'
        exact h6 _ hq.seq_tail (HB_succ.2 hb) HB_zero_succ
      · rw [← h4]
        refine hf.eq_of_max hr h1' h2 h3 fun q'' hq hb => ?_
        exact h6 _ hq.seq_head HB_zero_succ (HB_zero.2 hb)
    · refine .inl ⟨.seq n' :: q', w, h1', h2, h3, h4, HB_succ.1 h5, fun q'' hq hb hb' => ?_⟩
      have hq' := hq
      obtain ⟨w', hw', _⟩ := hq'
      obtain ⟨n'', y', q''', rfl, _, _⟩ := at_seq.1 hw'
      exact h6 _ hq.seq_tail (HB_succ.2 hb) (HB_succ.2 hb')
  · right
    constructor
    · intro q hq hb
      have hq' := hq
      obtain ⟨w', hw', _⟩ := hq'
      obtain ⟨n'', y', q'', rfl, _, _⟩ := at_seq.1 hw'
      exact h1 _ hq.seq_tail (HB_succ.2 hb)
    · rw [h2]
      rcases hf e.loc with ⟨q, w, h3, h4, h5, _⟩ | ⟨_, h4⟩
      · exact absurd HB_zero_succ (h1 _ (WritesAt.seq_head ⟨w, h3, h4, h5⟩))
      · exact h4.symm

theorem Final.seq_cons {m m1 m2 : Mem α} {x xs} (h1 : Final m x m1) (h2 : Final m1 (.seq xs) m2) :
    Final m (.seq (x :: xs)) m2 := by
  intro l
  rcases h2 l with ⟨q, w, hq, hw, hl, hv, hmax⟩ | ⟨hno, hv⟩
  · obtain ⟨n, y, q', rfl, _, _⟩ := at_seq.1 hq
    refine .inl ⟨.seq (n + 1) :: q', w, by rwa [at_seq_succ], hw, hl, hv, ?_⟩
    rintro q'' ⟨w', hw', hw''⟩ hb
    rcases at_seq_cons.1 hw' with ⟨p, rfl, _⟩ | ⟨n', p, rfl, h⟩
    · exact not_HB_succ_zero hb
    · exact hmax _ ⟨w', h, hw''⟩ (HB_succ.1 hb)
  · rcases h1 l with ⟨q, w, hq, hw, hl, hv', hmax⟩ | ⟨hno', hv'⟩
    · refine .inl ⟨.seq 0 :: q, w, by rwa [at_seq_zero], hw, hl, hv'.trans hv.symm, ?_⟩
      rintro q'' ⟨w', hw', hw''⟩ hb
      rcases at_seq_cons.1 hw' with ⟨p, rfl, h⟩ | ⟨n', p, rfl, h⟩
      · exact hmax _ ⟨w', h, hw''⟩ (HB_zero.1 hb)
      · exact hno _ ⟨w', h, hw''⟩
    · refine .inr ⟨?_, hv.trans hv'⟩
      rintro q'' ⟨w', hw', hw''⟩
      rcases at_seq_cons.1 hw' with ⟨p, rfl, h⟩ | ⟨n', p, rfl, h⟩
      · exact hno' _ ⟨w', h, hw''⟩
      · exact hno _ ⟨w', h, hw''⟩

theorem Final.seq_nil (m : Mem α) : Final m (.seq []) m := fun l =>
  .inr ⟨fun q ⟨w, hw, _⟩ => by
    obtain ⟨n, y, q', _, hy, _⟩ := at_seq.1 hw
    simp at hy, rfl⟩

theorem Final.event (m : Mem α) (e : Event α) : Final m (.event e) (m.after e) := by
  intro l
  rw [Mem.val_after]
  by_cases h : e.isWrite = true ∧ e.loc = l
  · refine .inl ⟨[], e, rfl, h.1, h.2, by rw [if_pos h], ?_⟩
    rintro q ⟨w, hw, _⟩
    obtain ⟨rfl, _⟩ := at_event.1 hw
    exact HB.irrefl _
  · refine .inr ⟨?_, by rw [if_neg h]⟩
    rintro q ⟨w, hw, h1, h2⟩
    obtain ⟨rfl, rfl⟩ := at_event.1 hw
    exact h ⟨h1, h2⟩

theorem not_racy_event (e : Event α) : ¬ Racy (.event e) := by
  rintro ⟨p, q, e', f, h1, h2, h3, _⟩
  exact h3 ((at_event.1 h1).1.trans (at_event.1 h2).1.symm)

theorem Consistent.event {m : Mem α} {e : Event α} (h : Consistent m (.event e))
    (he : e.isWrite = false) : e.val = m.val e.loc := by
  rcases h [] e rfl he with ⟨q, w, h1, _, _, _, h5, _⟩ | ⟨_, h⟩
  · obtain ⟨rfl, _⟩ := at_event.1 h1
    exact absurd h5 (HB.irrefl _)
  · exact h

/-! ### replaying an execution step by step -/

theorem Trace.replay {p : Act α Unit} {es p'} (h : Trace p es p') : ∀ {m : Mem α},
    Consistent m (.seq (es.map .event)) → ¬ Racy (.seq (es.map Execution.event)) →
    ∃ m', PSteps m (.act p) m' (.act p') ∧ Final m (.seq (es.map .event)) m' := by
  induction h with
  | refl => intro m _ _; exact ⟨m, .refl, Final.seq_nil m⟩
  | @rd i k v es p' _ ih =>
    intro m hc hr
    have h1 := Consistent.event hc.seq_head rfl
    have h2 := hc.seq_tail (not_racy_event _) (Final.event m _)
    obtain ⟨m', h3, h4⟩ := ih h2 (fun h => hr h.seq_tail)
    refine ⟨m', .step .rd ?_, (Final.event m _).seq_cons h4⟩
    have : v = m.cell i := by simpa [Event.val, Event.loc, Mem.val] using h1
    rw [← this]
    exact h3
  | @wr i v k es p' _ ih =>
    intro m hc hr
    have h2 := hc.seq_tail (not_racy_event _) (Final.event m _)
    obtain ⟨m', h3, h4⟩ := ih h2 (fun h => hr h.seq_tail)
    exact ⟨m', .step .wr h3, (Final.event m _).seq_cons h4⟩
  | @rdFlag i k v es p' _ ih =>
    intro m hc hr
    have h1 := Consistent.event hc.seq_head rfl
    have h2 := hc.seq_tail (not_racy_event _) (Final.event m _)
    obtain ⟨m', h3, h4⟩ := ih h2 (fun h => hr h.seq_tail)
    refine ⟨m', .step .rdFlag ?_, (Final.event m _).seq_cons h4⟩
    have : v = m.flag i := by simpa [Event.val, Event.loc, Mem.val] using h1
    rw [← this]
    exact h3
  | @wrFlag i v k es p' _ ih =>
    intro m hc hr
    have h2 := hc.seq_tail (not_racy_event _) (Final.event m _)
    obtain ⟨m', h3, h4⟩ := ih h2 (fun h => hr h.seq_tail)
    exact ⟨m', .step .wrFlag h3, (Final.event m _).seq_cons h4⟩

/-- consistency depends only on the initial values of the accessed objects -/
theorem Consistent.congr {m m' : Mem α} {x} (h : Consistent m x)
    (he : ∀ p e, x.at p = some e → m'.val e.loc = m.val e.loc) : Consistent m' x := by
  intro p e hp hr
  rcases h p e hp hr with h1 | ⟨h1, h2⟩
  · exact .inl h1
  · exact .inr ⟨h1, h2.trans (he p e hp).symm⟩

theorem Consistent.par_child {m : Mem α} {x : Execution α} {xs : List (Execution α)} {n : Nat}
    (h : Consistent m (.par xs)) (hn : xs[n]? = some x) : Consistent m x := by
  intro p e hp he
  have key : ∀ l q, WritesAt x l q → WritesAt (.par xs) l (.par n :: q) := by
    rintro l q ⟨w, h1, h2⟩
    exact ⟨w, at_par.2 ⟨n, x, q, rfl, hn, h1⟩, h2⟩
  rcases h (.par n :: p) e (at_par.2 ⟨n, x, p, rfl, hn, hp⟩) he with
    ⟨q, w, h1, h2, h3, h4, h5, h6⟩ | ⟨h1, h2⟩
  · obtain ⟨n', y, q', rfl, hy, h1'⟩ := at_par.1 h1
    obtain ⟨rfl, h5'⟩ := HB_par.1 h5
    rw [hn] at hy
    cases hy
    refine .inl ⟨q', w, h1', h2, h3, h4, h5', fun q'' hq hb hb' => ?_⟩
    exact h6 _ (key _ _ hq) (HB_par.2 ⟨rfl, hb⟩) (HB_par.2 ⟨rfl, hb'⟩)
  · exact .inr ⟨fun q hq hb => h1 _ (key _ _ hq) (HB_par.2 ⟨rfl, hb⟩), h2⟩

/-- An execution without race can be replayed step by step. -/
theorem Exec.replay {t : Tree α} {x t'} (h : Exec t x t') : ∀ {m : Mem α}, Consistent m x →
    ¬ Racy x → ∃ m', PSteps m t m' t' ∧ Final m x m' := by
  induction h with
  | act h => intro m hc hr; exact h.replay hc hr
  | seqNil => intro m _ _; exact ⟨m, .refl, Final.seq_nil m⟩
  | seqStay _ ih =>
    intro m hc hr
    obtain ⟨m', h1, h2⟩ := ih hc.seq_head (fun h => hr h.seq_head)
    exact ⟨m', h1.seq _, h2.seq_cons (Final.seq_nil m')⟩
  | seqNext _ hd _ ih ih' =>
    intro m hc hr
    have hr' := fun h => hr (Racy.seq_head h)
    obtain ⟨m1, h1, h2⟩ := ih hc.seq_head hr'
    obtain ⟨m2, h3, h4⟩ := ih' (hc.seq_tail hr' h2) (fun h => hr h.seq_tail)
    exact ⟨m2, (h1.seq _).trans (.step (.seqNext hd) h3), h2.seq_cons h4⟩
  | @par ts xs ts' hl hl' hx ih =>
    intro m hc hr
    have key : ∀ k, k ≤ ts.length → ∃ (L : List (Tree α)) (mk : Mem α),
        (∀ n : Nat, L[n]? = if n < k then ts'[n]? else ts[n]?) ∧
        PSteps m (.par ts) mk (.par L) ∧
        (∀ l, (∃ (n : Nat) (y : Execution α), n < k ∧ xs[n]? = some y ∧ ∃ q w, y.at q = some w ∧
            w.isWrite = true ∧ w.loc = l ∧ w.val = mk.val l ∧
            ∀ q', WritesAt y l q' → ¬ HB q q') ∨
          ((∀ (n : Nat) y, n < k → xs[n]? = some y → ∀ q, ¬ WritesAt y l q) ∧
            mk.val l = m.val l)) := by
      intro k
      induction k with
      | zero =>
        intro _
        refine ⟨ts, m, fun n => by simp, .refl, fun l => .inr ⟨fun n y hn => ?_, rfl⟩⟩
        exact absurd hn (Nat.not_lt_zero n)
      | succ k ihk =>
        intro hk
        obtain ⟨L, mk, hL, hs, hf⟩ := ihk (Nat.le_of_succ_le hk)
        obtain ⟨t, ht⟩ : ∃ t, ts[k]? = some t :=
          ⟨ts[k], List.getElem?_eq_getElem (by omega)⟩
        obtain ⟨y, hy⟩ : ∃ y, xs[k]? = some y :=
          ⟨xs[k]'(by omega), List.getElem?_eq_getElem (by omega)⟩
        obtain ⟨t', ht'⟩ : ∃ t', ts'[k]? = some t' :=
          ⟨ts'[k]'(by omega), List.getElem?_eq_getElem (by omega)⟩
        have hcy : Consistent mk y := by
          refine (hc.par_child hy).congr fun p e hp => ?_
          rcases hf e.loc with ⟨n, y', hn, hy', q, w, h1, h2, h3, _⟩ | ⟨_, h⟩
          · exact absurd (Racy.par_here (by omega) hy' hy ⟨w, h1, h2, h3⟩ hp rfl) hr
          · exact h
        obtain ⟨mk', h1, h2⟩ := ih k t y t' ht hy ht' hcy (fun h => hr (h.par_child hy))
        have hLk : L[k]? = some t := by rw [hL k, if_neg (by omega), ht]
        refine ⟨L.set k t', mk', fun n => ?_, hs.trans (h1.par hLk), fun l => ?_⟩
        · by_cases hn : n = k
          · subst hn
            rw [if_pos (by omega), ht', List.getElem?_set_self]
            exact (List.getElem?_eq_some_iff.1 hLk).1
          · rw [List.getElem?_set_ne (by omega), hL n]
            by_cases hn' : n < k
            · rw [if_pos hn', if_pos (by omega)]
            · rw [if_neg hn', if_neg (by omega)]
        · rcases h2 l with ⟨q, w, h3, h4, h5, h6, h7⟩ | ⟨h3, h4⟩
          · exact .inl ⟨k, y, by omega, hy, q, w, h3, h4, h5, h6, h7⟩
          · rcases hf l with ⟨n, y', hn, hy', q, w, h5, h6, h7, h8, h9⟩ | ⟨h5, h6⟩
            · exact .inl ⟨n, y', by omega, hy', q, w, h5, h6, h7, h8.trans h4.symm, h9⟩
            · refine .inr ⟨fun n y' hn hy' q hq => ?_, h4.trans h6⟩
              by_cases hnk : n = k
              · subst hnk
                rw [hy] at hy'
                cases hy'
                exact h3 q hq
              · exact h5 n y' (by omega) hy' q hq
    obtain ⟨L, m', hL, hs, hf⟩ := key ts.length (Nat.le_refl _)
    have : L = ts' := by
      refine List.ext_getElem? fun n => ?_
      rw [hL n]
      by_cases hn : n < ts.length
      · rw [if_pos hn]
      · rw [if_neg hn, List.getElem?_eq_none (by omega), List.getElem?_eq_none (by omega)]
    subst this
    refine ⟨m', hs, fun l => ?_⟩
    rcases hf l with ⟨n, y, hn, hy, q, w, h1, h2, h3, h4, h5⟩ | ⟨h1, h2⟩
    · refine .inl ⟨.par n :: q, w, at_par.2 ⟨n, y, q, rfl, hy, h1⟩, h2, h3, h4, ?_⟩
      rintro q' ⟨w', hw', hw''⟩ hb
      obtain ⟨n', y', q'', rfl, hy', hq'⟩ := at_par.1 hw'
      obtain ⟨rfl, hb'⟩ := HB_par.1 hb
      rw [hy] at hy'
      cases hy'
      exact h5 q'' ⟨w', hq', hw''⟩ hb'
    · refine .inr ⟨?_, h2⟩
      rintro q' ⟨w', hw', hw''⟩
      obtain ⟨n', y', q'', rfl, hy', hq'⟩ := at_par.1 hw'
      have hlt : n' < xs.length := (List.getElem?_eq_some_iff.1 hy').1
      exact h1 n' y' (by omega) hy' q'' ⟨w', hq', hw''⟩

/-! ### smaller executions -/

mutual
/-- number of accesses -/
def Execution.size : Execution α → Nat
  | .event _ => 1
  | .seq xs => sizeL xs
  | .par xs => sizeL xs
/-- number of accesses of a list of executions -/
def sizeL : List (Execution α) → Nat
  | [] => 0
  | x :: xs => x.size + sizeL xs
end

theorem sizeL_le : ∀ {xs' xs : List (Execution α)}, xs'.length = xs.length →
    (∀ (n : Nat) x' x, xs'[n]? = some x' → xs[n]? = some x → x'.size ≤ x.size) →
    sizeL xs' ≤ sizeL xs
  | [], [], _, _ => by simp
  | [], _ :: _, h, _ => by simp at h
  | _ :: _, [], h, _ => by simp at h
  | x' :: xs', x :: xs, hl, h => by
    have h1 := h 0 x' x rfl rfl
    have h2 := sizeL_le (xs' := xs') (xs := xs) (by simpa using hl)
      (fun n y' y hy' hy => h (n + 1) y' y (by simpa using hy') (by simpa using hy))
    simp only [sizeL]
    omega

theorem sizeL_lt : ∀ {xs' xs : List (Execution α)}, xs'.length = xs.length →
    (∀ (n : Nat) x' x, xs'[n]? = some x' → xs[n]? = some x → x'.size ≤ x.size) →
    (∃ (n : Nat) (x' x : Execution α), xs'[n]? = some x' ∧ xs[n]? = some x ∧ x'.size < x.size) →
    sizeL xs' < sizeL xs
  | [], _, _, _, ⟨n, x', x, h, _⟩ => by simp at h
  | _ :: _, [], h, _, _ => by simp at h
  | x' :: xs', x :: xs, hl, h, ⟨n, y', y, h1, h2, h3⟩ => by
    have h0 := h 0 x' x rfl rfl
    have hl' : xs'.length = xs.length := by simpa using hl
    have ht : ∀ (n : Nat) z' z, xs'[n]? = some z' → xs[n]? = some z → z'.size ≤ z.size :=
      fun n y' y hy' hy => h (n + 1) y' y (by simpa using hy') (by simpa using hy)
    simp only [sizeL]
    cases n with
    | zero =>
      simp at h1 h2
      subst h1 h2
      have := sizeL_le hl' ht
      omega
    | succ n =>
      have := sizeL_lt hl' ht ⟨n, y', y, by simpa using h1, by simpa using h2, h3⟩
      omega

mutual
/-- every program can perform no access -/
theorem Exec.empty : ∀ t : Tree α, ∃ x, Exec t x t ∧ (∀ p e, x.at p ≠ some e) ∧ x.size = 0
  | .act p => ⟨.seq ([].map .event), .act .refl, fun p e h => by
      obtain ⟨n, y, q', _, hy, _⟩ := at_seq.1 h
      simp at hy, rfl⟩
  | .seq [] => ⟨.seq [], .seqNil, fun p e h => by
      obtain ⟨n, y, q', _, hy, _⟩ := at_seq.1 h
      simp at hy, rfl⟩
  | .seq (t :: ts) => by
    obtain ⟨x, h1, h2, h3⟩ := Exec.empty t
    refine ⟨.seq [x], .seqStay h1, fun p e h => ?_, by simp [Execution.size, sizeL, h3]⟩
    rcases at_seq_cons.1 h with ⟨p', _, h⟩ | ⟨n, p', _, h⟩
    · exact h2 _ _ h
    · obtain ⟨n, y, q', _, hy, _⟩ := at_seq.1 h
      simp at hy
  | .par ts => by
    obtain ⟨xs, h1, h2, h3⟩ := Exec.emptyL ts
    refine ⟨.par xs, .par h1 rfl fun n t x t' ht hx ht' => ?_, fun p e h => ?_, h3⟩
    · rw [ht] at ht'
      cases ht'
      exact (h2 n t x ht hx).1
    · obtain ⟨n, y, q', _, hy, hq⟩ := at_par.1 h
      have hlt := (List.getElem?_eq_some_iff.1 hy).1
      exact (h2 n ts[n] y (List.getElem?_eq_getElem (by omega)) hy).2 _ _ hq
theorem Exec.emptyL : ∀ ts : List (Tree α), ∃ xs, ts.length = xs.length ∧
    (∀ (n : Nat) t x, ts[n]? = some t → xs[n]? = some x →
      Exec t x t ∧ (∀ p e, x.at p ≠ some e)) ∧ sizeL xs = 0
  | [] => ⟨[], rfl, fun n t x h => by simp at h, rfl⟩
  | t :: ts => by
    obtain ⟨x, h1, h2, h3⟩ := Exec.empty t
    obtain ⟨xs, h4, h5, h6⟩ := Exec.emptyL ts
    refine ⟨x :: xs, by simp [h4], fun n => ?_, by simp [sizeL, h3, h6]⟩
    cases n with
    | zero =>
      intro t' x' ht hx
      simp at ht hx
      subst ht hx
      exact ⟨h1, h2⟩
    | succ n =>
      intro t' x' ht hx
      exact h5 n t' x' (by simpa using ht) (by simpa using hx)
end

/-- `x'` consists of some accesses of `x` together with all that happen before them. -/
def Sub (x' x : Execution α) : Prop :=
  (∀ p e, x'.at p = some e → x.at p = some e) ∧
  ∀ p q e f, x'.at q = some f → x.at p = some e → HB p q → x'.at p = some e

theorem Sub.consistent {m : Mem α} {x' x} (h : Sub x' x) (hc : Consistent m x) :
    Consistent m x' := by
  intro p e hp he
  rcases hc p e (h.1 p e hp) he with ⟨q, w, h1, h2, h3, h4, h5, h6⟩ | ⟨h1, h2⟩
  · refine .inl ⟨q, w, h.2 q p w e hp h1 h5, h2, h3, h4, h5, ?_⟩
    rintro q' ⟨w', h7, h8⟩
    exact h6 q' ⟨w', h.1 _ _ h7, h8⟩
  · refine .inr ⟨?_, h2⟩
    rintro q ⟨w', h7, h8⟩
    exact h1 q ⟨w', h.1 _ _ h7, h8⟩

theorem Sub.of_empty {x' x : Execution α} (h : ∀ p e, x'.at p ≠ some e) : Sub x' x :=
  ⟨fun p e hp => absurd hp (h p e), fun _ q _ f hq => absurd hq (h q f)⟩

theorem Sub.seq_head {x' x : Execution α} (h : Sub x' x) (xs) : Sub (.seq [x']) (.seq (x :: xs)) := by
  have key : ∀ p e, (Execution.seq [x']).at p = some e → ∃ p', p = .seq 0 :: p' ∧
      x'.at p' = some e := by
    intro p e hp
    rcases at_seq_cons.1 hp with h | ⟨n, p', _, h⟩
    · exact h
    · obtain ⟨n, y, q', _, hy, _⟩ := at_seq.1 h
      simp at hy
  constructor
  · intro p e hp
    obtain ⟨p', rfl, hp'⟩ := key p e hp
    rw [at_seq_zero]
    exact h.1 _ _ hp'
  · intro p q e f hq hp hb
    obtain ⟨q', rfl, hq'⟩ := key q f hq
    rcases at_seq_cons.1 hp with ⟨p', rfl, hp'⟩ | ⟨n, p', rfl, _⟩
    · rw [at_seq_zero]
      exact h.2 p' q' e f hq' hp' (HB_zero.1 hb)
    · exact absurd hb not_HB_succ_zero

theorem Sub.seq_tail {x : Execution α} {xs' xs} (h : Sub (.seq xs') (.seq xs)) :
    Sub (.seq (x :: xs')) (.seq (x :: xs)) := by
  constructor
  · intro p e hp
    rcases at_seq_cons.1 hp with ⟨p', rfl, hp'⟩ | ⟨n, p', rfl, hp'⟩
    · rwa [at_seq_zero]
    · rw [at_seq_succ]
      exact h.1 _ _ hp'
  · intro p q e f hq hp hb
    rcases at_seq_cons.1 hp with ⟨p', rfl, hp'⟩ | ⟨n, p', rfl, hp'⟩
    · rwa [at_seq_zero]
    · rcases at_seq_cons.1 hq with ⟨q', rfl, hq'⟩ | ⟨n', q', rfl, hq'⟩
      · exact absurd hb not_HB_succ_zero
      · rw [at_seq_succ]
        exact h.2 _ _ e f hq' hp' (HB_succ.1 hb)

theorem Sub.par {xs' xs : List (Execution α)} (hl : xs'.length = xs.length)
    (h : ∀ (n : Nat) x' x, xs'[n]? = some x' → xs[n]? = some x → Sub x' x) :
    Sub (.par xs') (.par xs) := by
  have get : ∀ (n : Nat) x', xs'[n]? = some x' → ∃ x, xs[n]? = some x := fun n x' h => by
    have := (List.getElem?_eq_some_iff.1 h).1
    exact ⟨xs[n]'(by omega), List.getElem?_eq_getElem (by omega)⟩
  constructor
  · intro p e hp
    obtain ⟨n, x', p', rfl, hx', hp'⟩ := at_par.1 hp
    obtain ⟨x, hx⟩ := get n x' hx'
    exact at_par.2 ⟨n, x, p', rfl, hx, (h n x' x hx' hx).1 _ _ hp'⟩
  · intro p q e f hq hp hb
    obtain ⟨n, x', q', rfl, hx', hq'⟩ := at_par.1 hq
    obtain ⟨n', x, p', rfl, hx, hp'⟩ := at_par.1 hp
    obtain ⟨rfl, hb'⟩ := HB_par.1 hb
    exact at_par.2 ⟨n', x', p', rfl, hx', (h n' x' x hx' hx).2 _ _ _ _ hq' hp' hb'⟩

theorem exists_list {β : Type} {P : Nat → β → Prop} : ∀ n, (∀ i, i < n → ∃ b, P i b) →
    ∃ l : List β, l.length = n ∧ ∀ (i : Nat) b, l[i]? = some b → P i b
  | 0, _ => ⟨[], rfl, fun i b h => by simp at h⟩
  | n + 1, h => by
    obtain ⟨l, hl, hP⟩ := exists_list n fun i hi => h i (by omega)
    obtain ⟨b, hb⟩ := h n (by omega)
    refine ⟨l ++ [b], by simp [hl], fun i c hc => ?_⟩
    by_cases hi : i < n
    · rw [List.getElem?_append_left (by omega)] at hc
      exact hP i c hc
    · rw [List.getElem?_append_right (by omega)] at hc
      have : i - l.length = 0 := by
        have := (List.getElem?_eq_some_iff.1 hc).1
        simp at this
        omega
      rw [this] at hc
      simp at hc
      subst hc
      have : i = n := by omega
      subst this
      exact hb

/-- choosing a smaller execution for every parallel part -/
theorem Exec.par_choose {ts : List (Tree α)} {xs : List (Execution α)}
    {P : Nat → Execution α → Tree α → Prop} (hl : ts.length = xs.length)
    (h : ∀ (n : Nat) t x, ts[n]? = some t → xs[n]? = some x →
      ∃ x' t', Exec t x' t' ∧ Sub x' x ∧ x'.size ≤ x.size ∧ P n x' t') :
    ∃ xs' ts', Exec (.par ts) (.par xs') (.par ts') ∧ Sub (.par xs') (.par xs) ∧
      xs'.length = xs.length ∧ ts'.length = ts.length ∧
      (∀ (n : Nat) x' x, xs'[n]? = some x' → xs[n]? = some x → x'.size ≤ x.size) ∧
      ∀ (n : Nat) x' t', xs'[n]? = some x' → ts'[n]? = some t' → P n x' t' := by
  obtain ⟨l, h1, h2⟩ := exists_list (β := Execution α × Tree α)
    (P := fun n b => ∀ t x, ts[n]? = some t → xs[n]? = some x →
      Exec t b.1 b.2 ∧ Sub b.1 x ∧ b.1.size ≤ x.size ∧ P n b.1 b.2) ts.length (by
    intro i hi
    obtain ⟨x', t', h'⟩ := h i _ _ (List.getElem?_eq_getElem hi)
      (List.getElem?_eq_getElem (l := xs) (i := i) (by omega))
    refine ⟨(x', t'), fun t x ht hx => ?_⟩
    rw [List.getElem?_eq_getElem hi] at ht
    rw [List.getElem?_eq_getElem (by omega)] at hx
    cases ht
    cases hx
    exact h')
  have get : ∀ (n : Nat) x', (l.map Prod.fst)[n]? = some x' → ∃ b, l[n]? = some b ∧ b.1 = x' := by
    intro n x' hx'
    rw [List.getElem?_map] at hx'
    cases hb : l[n]? with
    | none => simp [hb] at hx'
    | some b => exact ⟨b, rfl, by simpa [hb] using hx'⟩
  have get' : ∀ (n : Nat) t', (l.map Prod.snd)[n]? = some t' → ∃ b, l[n]? = some b ∧ b.2 = t' := by
    intro n x' hx'
    rw [List.getElem?_map] at hx'
    cases hb : l[n]? with
    | none => simp [hb] at hx'
    | some b => exact ⟨b, rfl, by simpa [hb] using hx'⟩
  have getT : ∀ (n : Nat) b, l[n]? = some b → ∃ t x, ts[n]? = some t ∧ xs[n]? = some x := by
    intro n b hb
    have := (List.getElem?_eq_some_iff.1 hb).1
    exact ⟨_, _, List.getElem?_eq_getElem (by omega), List.getElem?_eq_getElem (by omega)⟩
  refine ⟨l.map Prod.fst, l.map Prod.snd, .par (by simp [h1]) (by simp [h1]) ?_,
    Sub.par (by simp; omega) ?_, by simp; omega, by simp [h1], ?_, ?_⟩
  · intro n t x' t' ht hx ht'
    obtain ⟨b, hb, rfl⟩ := get n x' hx
    obtain ⟨b', hb', rfl⟩ := get' n t' ht'
    rw [hb] at hb'
    cases hb'
    obtain ⟨_, x, _, hx'⟩ := getT n b hb
    exact (h2 n b hb t x ht hx').1
  · intro n x' x hx' hx
    obtain ⟨b, hb, rfl⟩ := get n x' hx'
    obtain ⟨t, _, ht, _⟩ := getT n b hb
    exact (h2 n b hb t x ht hx).2.1
  · intro n x' x hx' hx
    obtain ⟨b, hb, rfl⟩ := get n x' hx'
    obtain ⟨t, _, ht, _⟩ := getT n b hb
    exact (h2 n b hb t x ht hx).2.2.1
  · intro n x' t' hx ht'
    obtain ⟨b, hb, rfl⟩ := get n x' hx
    obtain ⟨b', hb', rfl⟩ := get' n t' ht'
    rw [hb] at hb'
    cases hb'
    obtain ⟨t, x, ht, hx'⟩ := getT n b hb
    exact (h2 n b hb t x ht hx').2.2.2

theorem Trace.cut {p : Act α Unit} {es p'} (h : Trace p es p') : ∀ {n : Nat} {e}, es[n]? = some e →
    ∃ p'', Trace p (es.take n) p'' ∧ Next (.act p'') e.loc e.isWrite := by
  induction h with
  | refl => intro n e h; simp at h
  | rd h ih =>
    intro n e he
    cases n with
    | zero => simp at he; subst he; exact ⟨_, .refl, .rd⟩
    | succ n =>
      obtain ⟨p'', h1, h2⟩ := ih (by simpa using he)
      exact ⟨p'', .rd h1, h2⟩
  | wr h ih =>
    intro n e he
    cases n with
    | zero => simp at he; subst he; exact ⟨_, .refl, .wr⟩
    | succ n =>
      obtain ⟨p'', h1, h2⟩ := ih (by simpa using he)
      exact ⟨p'', .wr h1, h2⟩
  | rdFlag h ih =>
    intro n e he
    cases n with
    | zero => simp at he; subst he; exact ⟨_, .refl, .rdFlag⟩
    | succ n =>
      obtain ⟨p'', h1, h2⟩ := ih (by simpa using he)
      exact ⟨p'', .rdFlag h1, h2⟩
  | wrFlag h ih =>
    intro n e he
    cases n with
    | zero => simp at he; subst he; exact ⟨_, .refl, .wrFlag⟩
    | succ n =>
      obtain ⟨p'', h1, h2⟩ := ih (by simpa using he)
      exact ⟨p'', .wrFlag h1, h2⟩

theorem sizeL_events : ∀ es : List (Event α), sizeL (es.map .event) = es.length
  | [] => rfl
  | e :: es => by simp [sizeL, Execution.size, sizeL_events es]; omega

theorem Exec.seq_shape {ts : List (Tree α)} {x u} (h : Exec (.seq ts) x u) : ∃ xs, x = .seq xs := by
  cases h with
  | seqNil => exact ⟨_, rfl⟩
  | seqStay => exact ⟨_, rfl⟩
  | seqNext => exact ⟨_, rfl⟩

/-- stopping just before one access -/
theorem Exec.cut {t : Tree α} {x u} (h : Exec t x u) : ∀ {p e}, x.at p = some e →
    ∃ x' t', Exec t x' t' ∧ Sub x' x ∧ x'.size < x.size ∧ Next t' e.loc e.isWrite := by
  induction h with
  | @act p es p' h =>
    intro q e hq
    obtain ⟨n, y, q', rfl, hy, hq'⟩ := at_seq.1 hq
    rw [List.getElem?_map] at hy
    cases hn : es[n]? with
    | none => simp [hn] at hy
    | some e' =>
      have : y = .event e' := by simpa [hn, eq_comm] using hy
      subst this
      obtain ⟨rfl, rfl⟩ := at_event.1 hq'
      obtain ⟨p'', h1, h2⟩ := h.cut hn
      have hlt := (List.getElem?_eq_some_iff.1 hn).1
      refine ⟨_, _, .act h1, ?_, ?_, h2⟩
      · have key : ∀ r f, (Execution.seq ((es.take n).map Execution.event)).at r = some f →
            ∃ i, i < n ∧ r = [.seq i] ∧ es[i]? = some f := by
          intro r f hr
          obtain ⟨i, y, r', rfl, hy, hr'⟩ := at_seq.1 hr
          rw [List.getElem?_map, List.getElem?_take] at hy
          by_cases hi : i < n
          · rw [if_pos hi] at hy
            cases hi' : es[i]? with
            | none => simp [hi'] at hy
            | some g =>
              have : y = .event g := by simpa [hi', eq_comm] using hy
              subst this
              obtain ⟨rfl, rfl⟩ := at_event.1 hr'
              exact ⟨i, hi, rfl, hi'⟩
          · simp [hi] at hy
        constructor
        · intro r f hr
          obtain ⟨i, hi, rfl, hf⟩ := key r f hr
          exact at_seq.2 ⟨i, .event f, [], rfl, by rw [List.getElem?_map, hf]; rfl, rfl⟩
        · intro r s f g hs hr hb
          obtain ⟨i, hi, rfl, hg⟩ := key s g hs
          obtain ⟨j, y, r', rfl, hy, hr'⟩ := at_seq.1 hr
          have hj : j < n := by
            have hb2 : j < i ∨ j = i ∧ HB r' [] := hb
            omega
          exact at_seq.2 ⟨j, y, r', rfl, by
            rw [List.getElem?_map, List.getElem?_take, if_pos hj, ← List.getElem?_map]
            exact hy, hr'⟩
      · simp only [Execution.size, sizeL_events, List.length_take]
        omega
  | seqNil =>
    intro q e hq
    obtain ⟨n, y, q', rfl, hy, hq'⟩ := at_seq.1 hq
    simp at hy
  | seqStay _ ih =>
    intro q e hq
    rcases at_seq_cons.1 hq with ⟨p', rfl, hp'⟩ | ⟨n, p', rfl, hp'⟩
    · obtain ⟨x', t', h1, h2, h3, h4⟩ := ih hp'
      exact ⟨_, _, .seqStay h1, h2.seq_head _, by simp [Execution.size, sizeL, h3], .seq h4⟩
    · obtain ⟨n, y, q', _, hy, _⟩ := at_seq.1 hp'
      simp at hy
  | seqNext hx hd _ ih ih' =>
    intro q e hq
    rcases at_seq_cons.1 hq with ⟨p', rfl, hp'⟩ | ⟨n, p', rfl, hp'⟩
    · obtain ⟨x', t', h1, h2, h3, h4⟩ := ih hp'
      exact ⟨_, _, .seqStay h1, h2.seq_head _, by simp only [Execution.size, sizeL]; omega, .seq h4⟩
    · obtain ⟨x', t', h1, h2, h3, h4⟩ := ih' hp'
      obtain ⟨xs', rfl⟩ := h1.seq_shape
      refine ⟨_, _, .seqNext hx hd h1, h2.seq_tail, ?_, h4⟩
      simp only [Execution.size, sizeL] at h3 ⊢
      omega
  | @par ts xs ts' hl hl' hx ih =>
    intro q e hq
    obtain ⟨n, y, q', rfl, hy, hq'⟩ := at_par.1 hq
    obtain ⟨xs', us, h1, h2, h3, h4, h5, h6⟩ := Exec.par_choose (ts := ts) (xs := xs)
      (P := fun i x' t' => i = n → x'.size < y.size ∧ Next t' e.loc e.isWrite) hl (by
      intro i t x ht hx'
      by_cases hi : i = n
      · subst hi
        rw [hx'] at hy
        obtain rfl := Option.some.inj hy
        have := (List.getElem?_eq_some_iff.1 ht).1
        obtain ⟨x', t', h1, h2, h3, h4⟩ := ih i t x _ ht hx'
          (List.getElem?_eq_getElem (by omega)) hq'
        exact ⟨x', t', h1, h2, by omega, fun _ => ⟨h3, h4⟩⟩
      · obtain ⟨x', h1, h2, h3⟩ := Exec.empty t
        exact ⟨x', t, h1, Sub.of_empty h2, by omega, fun h => absurd h hi⟩)
    have hlt := (List.getElem?_eq_some_iff.1 hy).1
    have hxn : xs'[n]? = some (xs'[n]'(by omega)) := List.getElem?_eq_getElem (by omega)
    have hun : us[n]? = some (us[n]'(by omega)) := List.getElem?_eq_getElem (by omega)
    have h7 := h6 n _ _ hxn hun rfl
    exact ⟨_, _, h1, h2, sizeL_lt h3 h5 ⟨n, _, y, hxn, hy, h7.1⟩, .par n hun h7.2⟩

/-- stopping just before both accesses of a race -/
theorem Exec.cut_race {t : Tree α} {x u} (h : Exec t x u) : ∀ {p q e f}, x.at p = some e →
    x.at q = some f → p ≠ q → e.loc = f.loc → e.isWrite = true → ¬ HB p q → ¬ HB q p →
    ∃ x' t', Exec t x' t' ∧ Sub x' x ∧ x'.size < x.size ∧ Race t' := by
  induction h with
  | @act p es p' h =>
    intro p q e f hp hq hne _ _ hb hb'
    exfalso
    have key : ∀ r f, (Execution.seq (es.map Execution.event)).at r = some f →
        ∃ i, r = [.seq i] := by
      intro r f hr
      obtain ⟨i, y, r', rfl, hy, hr'⟩ := at_seq.1 hr
      rw [List.getElem?_map] at hy
      cases hi' : es[i]? with
      | none => simp [hi'] at hy
      | some g =>
        have : y = .event g := by simpa [hi', eq_comm] using hy
        subst this
        obtain ⟨rfl, rfl⟩ := at_event.1 hr'
        exact ⟨i, rfl⟩
    obtain ⟨i, rfl⟩ := key p e hp
    obtain ⟨j, rfl⟩ := key q f hq
    simp [HB] at hne hb hb'
    omega
  | seqNil =>
    intro p q e f hq
    obtain ⟨n, y, q', rfl, hy, hq'⟩ := at_seq.1 hq
    simp at hy
  | seqStay _ ih =>
    intro p q e f hp hq hne hl hw hb hb'
    rcases at_seq_cons.1 hp with ⟨p', rfl, hp'⟩ | ⟨n, p', rfl, hp'⟩
    · rcases at_seq_cons.1 hq with ⟨q', rfl, hq'⟩ | ⟨n, q', rfl, hq'⟩
      · obtain ⟨x', t', h1, h2, h3, h4⟩ := ih hp' hq' (by simpa using hne) hl hw
          (by rwa [HB_zero] at hb) (by rwa [HB_zero] at hb')
        exact ⟨_, _, .seqStay h1, h2.seq_head _, by simp [Execution.size, sizeL, h3], .seq h4⟩
      · obtain ⟨n, y, q', _, hy, _⟩ := at_seq.1 hq'
        simp at hy
    · obtain ⟨n, y, q', _, hy, _⟩ := at_seq.1 hp'
      simp at hy
  | seqNext hx hd _ ih ih' =>
    intro p q e f hp hq hne hl hw hb hb'
    rcases at_seq_cons.1 hp with ⟨p', rfl, hp'⟩ | ⟨n, p', rfl, hp'⟩
    · rcases at_seq_cons.1 hq with ⟨q', rfl, hq'⟩ | ⟨n, q', rfl, hq'⟩
      · obtain ⟨x', t', h1, h2, h3, h4⟩ := ih hp' hq' (by simpa using hne) hl hw
          (by rwa [HB_zero] at hb) (by rwa [HB_zero] at hb')
        exact ⟨_, _, .seqStay h1, h2.seq_head _, by simp only [Execution.size, sizeL]; omega,
          .seq h4⟩
      · exact absurd HB_zero_succ hb
    · rcases at_seq_cons.1 hq with ⟨q', rfl, hq'⟩ | ⟨n', q', rfl, hq'⟩
      · exact absurd HB_zero_succ hb'
      · obtain ⟨x', t', h1, h2, h3, h4⟩ := ih' hp' hq' (by simpa using hne) hl hw
          (by rwa [HB_succ] at hb) (by rwa [HB_succ] at hb')
        obtain ⟨xs', rfl⟩ := h1.seq_shape
        refine ⟨_, _, .seqNext hx hd h1, h2.seq_tail, ?_, h4⟩
        simp only [Execution.size, sizeL] at h3 ⊢
        omega
  | @par ts xs ts' hl hl' hx ih =>
    intro p q e f hp hq hne hloc hw hb hb'
    obtain ⟨n, y, p', rfl, hy, hp'⟩ := at_par.1 hp
    obtain ⟨n', z, q', rfl, hz, hq'⟩ := at_par.1 hq
    have hlt := (List.getElem?_eq_some_iff.1 hy).1
    have hlt' := (List.getElem?_eq_some_iff.1 hz).1
    by_cases hnn : n = n'
    · subst hnn
      rw [hy] at hz
      cases hz
      obtain ⟨xs', us, h1, h2, h3, h4, h5, h6⟩ := Exec.par_choose (ts := ts) (xs := xs)
        (P := fun i x' t' => i = n → x'.size < y.size ∧ Race t') hl (by
        intro i t x ht hx'
        by_cases hi : i = n
        · subst hi
          rw [hx'] at hy
          obtain rfl := Option.some.inj hy
          have := (List.getElem?_eq_some_iff.1 ht).1
          obtain ⟨x', t', h1, h2, h3, h4⟩ := ih i t x _ ht hx'
            (List.getElem?_eq_getElem (by omega)) hp' hq' (by simpa using hne) hloc hw
            (fun h => hb (HB_par.2 ⟨rfl, h⟩)) (fun h => hb' (HB_par.2 ⟨rfl, h⟩))
          exact ⟨x', t', h1, h2, by omega, fun _ => ⟨h3, h4⟩⟩
        · obtain ⟨x', h1, h2, h3⟩ := Exec.empty t
          exact ⟨x', t, h1, Sub.of_empty h2, by omega, fun h => absurd h hi⟩)
      have hxn : xs'[n]? = some (xs'[n]'(by omega)) := List.getElem?_eq_getElem (by omega)
      have hun : us[n]? = some (us[n]'(by omega)) := List.getElem?_eq_getElem (by omega)
      have h7 := h6 n _ _ hxn hun rfl
      exact ⟨_, _, h1, h2, sizeL_lt h3 h5 ⟨n, _, y, hxn, hy, h7.1⟩,
        .par (List.getElem_mem _) h7.2⟩
    · obtain ⟨xs', us, h1, h2, h3, h4, h5, h6⟩ := Exec.par_choose (ts := ts) (xs := xs)
        (P := fun i x' t' => (i = n → x'.size < y.size ∧ Next t' e.loc e.isWrite) ∧
          (i = n' → Next t' f.loc f.isWrite)) hl (by
        intro i t x ht hx'
        have := (List.getElem?_eq_some_iff.1 ht).1
        by_cases hi : i = n
        · subst hi
          rw [hx'] at hy
          obtain rfl := Option.some.inj hy
          obtain ⟨x', t', h1, h2, h3, h4⟩ := (hx i t x _ ht hx'
            (List.getElem?_eq_getElem (by omega))).cut hp'
          exact ⟨x', t', h1, h2, by omega, fun _ => ⟨h3, h4⟩, fun h => absurd h hnn⟩
        · by_cases hi' : i = n'
          · subst hi'
            rw [hx'] at hz
            obtain rfl := Option.some.inj hz
            obtain ⟨x', t', h1, h2, h3, h4⟩ := (hx i t x _ ht hx'
              (List.getElem?_eq_getElem (by omega))).cut hq'
            exact ⟨x', t', h1, h2, by omega, fun h => absurd h hi, fun _ => h4⟩
          · obtain ⟨x', h1, h2, h3⟩ := Exec.empty t
            exact ⟨x', t, h1, Sub.of_empty h2, by omega, fun h => absurd h hi,
              fun h => absurd h hi'⟩)
      have hxn : xs'[n]? = some (xs'[n]'(by omega)) := List.getElem?_eq_getElem (by omega)
      have hun : us[n]? = some (us[n]'(by omega)) := List.getElem?_eq_getElem (by omega)
      have hxn' : xs'[n']? = some (xs'[n']'(by omega)) := List.getElem?_eq_getElem (by omega)
      have hun' : us[n']? = some (us[n']'(by omega)) := List.getElem?_eq_getElem (by omega)
      have h7 := (h6 n _ _ hxn hun).1 rfl
      have h8 := (h6 n' _ _ hxn' hun').2 rfl
      have h9 := h7.2
      rw [hw] at h9
      rw [← hloc] at h8
      exact ⟨_, _, h1, h2, sizeL_lt h3 h5 ⟨n, _, y, hxn, hy, h7.1⟩, .here n n' hnn hun hun' h9 h8⟩

/-- A program without race under interleaving has no execution with a data race. -/
theorem RaceFree.not_racy {m : Mem α} {t : Tree α} (h : RaceFree m t) : ∀ {x t'}, Exec t x t' →
    Consistent m x → ¬ Racy x := by
  suffices H : ∀ n x t', x.size < n → Exec t x t' → Consistent m x → ¬ Racy x from
    fun {x t'} => H (x.size + 1) x t' (Nat.lt_succ_self _)
  intro n
  induction n with
  | zero => intro x t' hn; exact absurd hn (Nat.not_lt_zero _)
  | succ n ih =>
    rintro x t' hn hx hc ⟨p, q, e, f, h1, h2, h3, h4, h5, h6, h7⟩
    obtain ⟨x', u, h8, h9, h10, h11⟩ := hx.cut_race h1 h2 h3 h4 h5 h6 h7
    have hc' := h9.consistent hc
    obtain ⟨m', h12, _⟩ := h8.replay hc' (ih x' u (by omega) h8 hc')
    exact h m' u h12 h11

end Verif
