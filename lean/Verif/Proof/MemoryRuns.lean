import Verif.Proof.Memory
/-
Every interleaving is an execution in the C++ memory model, unless there is one with a data race.
-/
set_option linter.unusedSectionVars false
namespace Verif
variable {α : Type}

/-! ### the next access of a program -/

/-- `t` may perform an access next; `f mm` is the access and the program then if reads yield the
values of `mm`. -/
inductive Open : Tree α → (Mem α → Event α × Tree α) → Prop
  | rd {i k} : Open (.act (.rd i k)) (fun mm => (.rd i (mm.cell i), .act (k (mm.cell i))))
  | wr {i v k} : Open (.act (.wr i v k)) (fun _ => (.wr i v, .act k))
  | rdFlag {j k} : Open (.act (.rdFlag j k)) (fun mm => (.rdFlag j (mm.flag j), .act (k (mm.flag j))))
  | wrFlag {j b k} : Open (.act (.wrFlag j b k)) (fun _ => (.wrFlag j b, .act k))
  | seq {t ts f} : Open t f → Open (.seq (t :: ts)) (fun mm => ((f mm).1, .seq ((f mm).2 :: ts)))
  | par {t ts f} (n : Nat) : ts[n]? = some t → Open t f →
      Open (.par ts) (fun mm => ((f mm).1, .par (ts.set n (f mm).2)))

theorem Open.loc {t : Tree α} {f} (h : Open t f) (m m' : Mem α) : (f m).1.loc = (f m').1.loc := by
  induction h with
  | rd => rfl
  | wr => rfl
  | rdFlag => rfl
  | wrFlag => rfl
  | seq _ ih => exact ih
  | par _ _ _ ih => exact ih

theorem Open.isWrite {t : Tree α} {f} (h : Open t f) (m m' : Mem α) :
    (f m).1.isWrite = (f m').1.isWrite := by
  induction h with
  | rd => rfl
  | wr => rfl
  | rdFlag => rfl
  | wrFlag => rfl
  | seq _ ih => exact ih
  | par _ _ _ ih => exact ih

theorem Open.val {t : Tree α} {f} (h : Open t f) (m : Mem α) :
    (f m).1.isWrite = false → (f m).1.val = m.val (f m).1.loc := by
  induction h with
  | rd => intro _; rfl
  | wr => intro h; exact absurd h (by simp [Event.isWrite])
  | rdFlag => intro _; rfl
  | wrFlag => intro h; exact absurd h (by simp [Event.isWrite])
  | seq _ ih => exact ih
  | par _ _ _ ih => exact ih

theorem Next.open {t : Tree α} {l w} (h : Next t l w) :
    ∃ f, Open t f ∧ ∀ m, (f m).1.loc = l ∧ (f m).1.isWrite = w := by
  induction h with
  | rd => exact ⟨_, .rd, fun _ => ⟨rfl, rfl⟩⟩
  | wr => exact ⟨_, .wr, fun _ => ⟨rfl, rfl⟩⟩
  | rdFlag => exact ⟨_, .rdFlag, fun _ => ⟨rfl, rfl⟩⟩
  | wrFlag => exact ⟨_, .wrFlag, fun _ => ⟨rfl, rfl⟩⟩
  | seq _ ih =>
    obtain ⟨f, h1, h2⟩ := ih
    exact ⟨_, .seq h1, h2⟩
  | par n hn _ ih =>
    obtain ⟨f, h1, h2⟩ := ih
    exact ⟨_, .par n hn h1, h2⟩

/-- `t` becomes `t'` without an access: it proceeds to the next part of a sequence. -/
inductive Skip : Tree α → Tree α → Prop
  | next {t ts} : Done t → Skip (.seq (t :: ts)) (.seq ts)
  | seq {t t' ts} : Skip t t' → Skip (.seq (t :: ts)) (.seq (t' :: ts))
  | par {t t' ts} (n : Nat) : ts[n]? = some t → Skip t t' → Skip (.par ts) (.par (ts.set n t'))

theorem PStep.open {m m' : Mem α} {t t'} (h : PStep m t m' t') :
    (Skip t t' ∧ m' = m) ∨ ∃ f, Open t f ∧ t' = (f m).2 ∧ m' = m.after (f m).1 := by
  induction h with
  | rd => exact .inr ⟨_, .rd, rfl, rfl⟩
  | wr => exact .inr ⟨_, .wr, rfl, rfl⟩
  | rdFlag => exact .inr ⟨_, .rdFlag, rfl, rfl⟩
  | wrFlag => exact .inr ⟨_, .wrFlag, rfl, rfl⟩
  | seqStep _ ih =>
    rcases ih with ⟨h1, h2⟩ | ⟨f, h1, h2, h3⟩
    · exact .inl ⟨.seq h1, h2⟩
    · exact .inr ⟨_, .seq h1, by rw [h2], h3⟩
  | seqNext hd => exact .inl ⟨.next hd, rfl⟩
  | parStep n hn _ ih =>
    rcases ih with ⟨h1, h2⟩ | ⟨f, h1, h2, h3⟩
    · exact .inl ⟨.par n hn h1, h2⟩
    · exact .inr ⟨_, .par n hn h1, by rw [h2], h3⟩

/-! ### adding accesses at the end of an execution -/

/-- `x'` consists of the accesses of `x` and of `L`, none of which happens before one of `x`. -/
structure Adds (x : Execution α) (L : List (List Turn × Event α)) (x' : Execution α) : Prop where
  new : ∀ r g f, (r, g) ∈ L → x.at r ≠ some f
  at_iff : ∀ r g, x'.at r = some g ↔ (r, g) ∈ L ∨ x.at r = some g
  last : ∀ r g q f, (r, g) ∈ L → x.at q = some f → ¬ HB r q

/-- change of the access of an execution when it becomes a part of another -/
def moved (φ : List Turn → List Turn) (L : List (List Turn × Event α)) :
    List (List Turn × Event α) := L.map fun a => (φ a.1, a.2)

theorem mem_moved {φ : List Turn → List Turn} {L : List (List Turn × Event α)} {r g} :
    (r, g) ∈ moved φ L ↔ ∃ r', (r', g) ∈ L ∧ r = φ r' := by
  unfold moved
  rw [List.mem_map]
  constructor
  · rintro ⟨⟨r', g'⟩, h, h'⟩
    cases h'
    exact ⟨r', h, rfl⟩
  · rintro ⟨r', h, rfl⟩
    exact ⟨(r', g), h, rfl⟩

theorem at_single {x : Execution α} {p e} : (Execution.seq [x]).at p = some e ↔
    ∃ p', p = .seq 0 :: p' ∧ x.at p' = some e := by
  rw [at_seq_cons]
  constructor
  · rintro (h | ⟨n, p', _, h⟩)
    · exact h
    · obtain ⟨n, y, q', _, hy, _⟩ := at_seq.1 h
      simp at hy
  · exact .inl

theorem Adds.seq_head {x x' : Execution α} {L} (h : Adds x L x') :
    Adds (.seq [x]) (moved (.seq 0 :: ·) L) (.seq [x']) := by
  refine ⟨fun r g f hr hf => ?_, fun r g => ?_, fun r g q f hr hq hb => ?_⟩
  · obtain ⟨r', h1, rfl⟩ := mem_moved.1 hr
    obtain ⟨r'', h2, h3⟩ := at_single.1 hf
    cases h2
    exact h.new _ _ _ h1 h3
  · rw [at_single, at_single, mem_moved]
    constructor
    · rintro ⟨p', rfl, h1⟩
      rcases (h.at_iff _ _).1 h1 with h2 | h2
      · exact .inl ⟨p', h2, rfl⟩
      · exact .inr ⟨p', rfl, h2⟩
    · rintro (⟨p', h1, rfl⟩ | ⟨p', rfl, h1⟩)
      · exact ⟨p', rfl, (h.at_iff _ _).2 (.inl h1)⟩
      · exact ⟨p', rfl, (h.at_iff _ _).2 (.inr h1)⟩
  · obtain ⟨r', h1, rfl⟩ := mem_moved.1 hr
    obtain ⟨q', rfl, h3⟩ := at_single.1 hq
    exact h.last _ _ _ _ h1 h3 (HB_zero.1 hb)

/-- the position in a longer sequence -/
def later : List Turn → List Turn
  | .seq n :: p => .seq (n + 1) :: p
  | p => p

theorem Adds.seq_tail {x : Execution α} {xs xs' L} (h : Adds (.seq xs) L (.seq xs')) :
    Adds (.seq (x :: xs)) (moved later L) (.seq (x :: xs')) ∧
    ∀ r g, (r, g) ∈ L → ∃ n p, r = .seq n :: p := by
  have shape : ∀ r g, (r, g) ∈ L → ∃ n p, r = .seq n :: p := by
    intro r g hr
    obtain ⟨n, y, p, rfl, _, _⟩ := at_seq.1 ((h.at_iff r g).2 (.inl hr))
    exact ⟨n, p, rfl⟩
  refine ⟨⟨fun r g f hr hf => ?_, fun r g => ?_, fun r g q f hr hq hb => ?_⟩, shape⟩
  · obtain ⟨r', h1, rfl⟩ := mem_moved.1 hr
    obtain ⟨n, p, rfl⟩ := shape _ _ h1
    rw [later, at_seq_succ] at hf
    exact h.new _ _ _ h1 hf
  · rw [at_seq_cons, at_seq_cons, mem_moved]
    constructor
    · rintro (h1 | ⟨n, p', rfl, h1⟩)
      · exact .inr (.inl h1)
      · rcases (h.at_iff _ _).1 h1 with h2 | h2
        · exact .inl ⟨_, h2, rfl⟩
        · exact .inr (.inr ⟨n, p', rfl, h2⟩)
    · rintro (⟨r', h1, rfl⟩ | h1 | ⟨n, p', rfl, h1⟩)
      · obtain ⟨n, p, rfl⟩ := shape _ _ h1
        exact .inr ⟨n, p, rfl, (h.at_iff _ _).2 (.inl h1)⟩
      · exact .inl h1
      · exact .inr ⟨n, p', rfl, (h.at_iff _ _).2 (.inr h1)⟩
  · obtain ⟨r', h1, rfl⟩ := mem_moved.1 hr
    obtain ⟨n, p, rfl⟩ := shape _ _ h1
    rcases at_seq_cons.1 hq with ⟨q', rfl, h2⟩ | ⟨n', q', rfl, h2⟩
    · exact not_HB_succ_zero hb
    · exact h.last _ _ _ _ h1 h2 (HB_succ.1 hb)

theorem Adds.par {xs : List (Execution α)} {n : Nat} {x x' L} (hn : xs[n]? = some x)
    (h : Adds x L x') : Adds (.par xs) (moved (.par n :: ·) L) (.par (xs.set n x')) := by
  have hlt := (List.getElem?_eq_some_iff.1 hn).1
  refine ⟨fun r g f hr hf => ?_, fun r g => ?_, fun r g q f hr hq hb => ?_⟩
  · obtain ⟨r', h1, rfl⟩ := mem_moved.1 hr
    obtain ⟨n', y, r'', h2, hy, h3⟩ := at_par.1 hf
    cases h2
    rw [hn] at hy
    cases hy
    exact h.new _ _ _ h1 h3
  · rw [at_par, at_par, mem_moved]
    constructor
    · rintro ⟨n', y, p', rfl, hy, h1⟩
      by_cases hnn : n' = n
      · subst hnn
        rw [List.getElem?_set_self hlt] at hy
        cases hy
        rcases (h.at_iff _ _).1 h1 with h2 | h2
        · exact .inl ⟨p', h2, rfl⟩
        · exact .inr ⟨n', x, p', rfl, hn, h2⟩
      · rw [List.getElem?_set_ne (Ne.symm hnn)] at hy
        exact .inr ⟨n', y, p', rfl, hy, h1⟩
    · rintro (⟨p', h1, rfl⟩ | ⟨n', y, p', rfl, hy, h1⟩)
      · exact ⟨n, x', p', rfl, List.getElem?_set_self hlt, (h.at_iff _ _).2 (.inl h1)⟩
      · by_cases hnn : n' = n
        · subst hnn
          rw [hn] at hy
          cases hy
          exact ⟨n', x', p', rfl, List.getElem?_set_self hlt, (h.at_iff _ _).2 (.inr h1)⟩
        · exact ⟨n', y, p', rfl, by rwa [List.getElem?_set_ne (Ne.symm hnn)], h1⟩
  · obtain ⟨r', h1, rfl⟩ := mem_moved.1 hr
    obtain ⟨n', y, q', rfl, hy, h2⟩ := at_par.1 hq
    obtain ⟨rfl, hb'⟩ := HB_par.1 hb
    rw [hn] at hy
    cases hy
    exact h.last _ _ _ _ h1 h2 hb'

/-- one addition after the other -/
theorem Adds.trans {x x' x'' : Execution α} {L L'} (h : Adds x L x') (h' : Adds x' L' x'') :
    Adds x (L ++ L') x'' := by
  refine ⟨fun r g f hr hf => ?_, fun r g => ?_, fun r g q f hr hq => ?_⟩
  · rcases List.mem_append.1 hr with hr | hr
    · exact h.new _ _ _ hr hf
    · exact h'.new _ _ _ hr ((h.at_iff _ _).2 (.inr hf))
  · rw [h'.at_iff, h.at_iff, List.mem_append]
    constructor
    · rintro (h1 | h1 | h1)
      · exact .inl (.inr h1)
      · exact .inl (.inl h1)
      · exact .inr h1
    · rintro ((h1 | h1) | h1)
      · exact .inr (.inl h1)
      · exact .inl h1
      · exact .inr (.inr h1)
  · rcases List.mem_append.1 hr with hr | hr
    · exact h.last _ _ _ _ hr hq
    · exact h'.last _ _ _ _ hr ((h.at_iff _ _).2 (.inr hq))

theorem Trace.append {p : Act α Unit} {es p' es' p''} (h : Trace p es p') (h' : Trace p' es' p'') :
    Trace p (es ++ es') p'' := by
  induction h with
  | refl => exact h'
  | rd _ ih => exact .rd (ih h')
  | wr _ ih => exact .wr (ih h')
  | rdFlag _ ih => exact .rdFlag (ih h')
  | wrFlag _ ih => exact .wrFlag (ih h')

theorem at_events {es : List (Event α)} {p e} :
    (Execution.seq (es.map .event)).at p = some e ↔ ∃ n, p = [.seq n] ∧ es[n]? = some e := by
  rw [at_seq]
  constructor
  · rintro ⟨n, y, p', rfl, hy, hp⟩
    rw [List.getElem?_map] at hy
    cases hn : es[n]? with
    | none => simp [hn] at hy
    | some g =>
      have : y = .event g := by simpa [hn, eq_comm] using hy
      subst this
      obtain ⟨rfl, rfl⟩ := at_event.1 hp
      exact ⟨n, rfl, hn⟩
  · rintro ⟨n, rfl, hn⟩
    exact ⟨n, .event e, [], rfl, by rw [List.getElem?_map, hn]; rfl, rfl⟩

theorem Adds.events (es : List (Event α)) (e : Event α) :
    Adds (.seq (es.map .event)) [([.seq es.length], e)] (.seq ((es ++ [e]).map .event)) := by
  refine ⟨fun r g f hr hf => ?_, fun r g => ?_, fun r g q f hr hq hb => ?_⟩
  · simp at hr
    obtain ⟨rfl, rfl⟩ := hr
    obtain ⟨n, h1, h2⟩ := at_events.1 hf
    cases h1
    simp at h2
  · rw [at_events, at_events]
    constructor
    · rintro ⟨n, rfl, hn⟩
      by_cases hlt : n < es.length
      · rw [List.getElem?_append_left hlt] at hn
        exact .inr ⟨n, rfl, hn⟩
      · rw [List.getElem?_append_right (by omega)] at hn
        have h0 : n - es.length = 0 := by
          have := (List.getElem?_eq_some_iff.1 hn).1
          simp at this
          omega
        rw [h0] at hn
        have : n = es.length := by omega
        subst this
        simp at hn
        subst hn
        exact .inl (by simp)
    · rintro (h | ⟨n, rfl, hn⟩)
      · simp at h
        obtain ⟨rfl, rfl⟩ := h
        exact ⟨_, rfl, by simp⟩
      · have := (List.getElem?_eq_some_iff.1 hn).1
        exact ⟨n, rfl, by rwa [List.getElem?_append_left this]⟩
  · simp at hr
    obtain ⟨rfl, rfl⟩ := hr
    obtain ⟨n, rfl, h2⟩ := at_events.1 hq
    have := (List.getElem?_eq_some_iff.1 h2).1
    have hb' : es.length < n ∨ es.length = n ∧ HB [] [] := hb
    omega

theorem Exec.act_inv {p : Act α Unit} {x u} (h : Exec (.act p) x u) :
    ∃ es p', x = .seq (es.map .event) ∧ u = .act p' ∧ Trace p es p' := by
  cases h with
  | act h => exact ⟨_, _, rfl, rfl, h⟩

/-- performing the next access -/
theorem Exec.extend {t : Tree α} {x t1} (h : Exec t x t1) : ∀ {f}, Open t1 f →
    ∃ p, ∀ mm, ∃ x', Exec t x' (f mm).2 ∧ Adds x [(p, (f mm).1)] x' := by
  induction h with
  | @act p es p' h =>
    intro f hf
    refine ⟨[.seq es.length], fun mm => ⟨.seq ((es ++ [(f mm).1]).map .event), ?_,
      Adds.events es _⟩⟩
    cases hf with
    | rd => exact .act (h.append (.rd .refl))
    | wr => exact .act (h.append (.wr .refl))
    | rdFlag => exact .act (h.append (.rdFlag .refl))
    | wrFlag => exact .act (h.append (.wrFlag .refl))
  | seqNil => intro f hf; cases hf
  | seqStay _ ih =>
    intro f hf
    cases hf with
    | seq hf =>
      obtain ⟨p, hp⟩ := ih hf
      refine ⟨.seq 0 :: p, fun mm => ?_⟩
      obtain ⟨x', h1, h2⟩ := hp mm
      exact ⟨_, .seqStay h1, h2.seq_head⟩
  | seqNext hx hd _ _ ih =>
    intro f hf
    obtain ⟨p, hp⟩ := ih hf
    refine ⟨later p, fun mm => ?_⟩
    obtain ⟨x', h1, h2⟩ := hp mm
    obtain ⟨xs', rfl⟩ := h1.seq_shape
    exact ⟨_, .seqNext hx hd h1, h2.seq_tail.1⟩
  | @par ts xs ts' hl hl' hx ih =>
    intro f hf
    cases hf with
    | @par t' _ f n hn hf =>
      have hlt := (List.getElem?_eq_some_iff.1 hn).1
      have ht : ts[n]? = some (ts[n]'(by omega)) := List.getElem?_eq_getElem _
      have hxn : xs[n]? = some (xs[n]'(by omega)) := List.getElem?_eq_getElem _
      obtain ⟨p, hp⟩ := ih n _ _ t' ht hxn hn hf
      refine ⟨.par n :: p, fun mm => ?_⟩
      obtain ⟨x', h1, h2⟩ := hp mm
      refine ⟨.par (xs.set n x'), .par (by simpa using hl) (by simpa using hl') ?_, h2.par hxn⟩
      intro i t y u hi hy hu
      by_cases hin : i = n
      · subst hin
        rw [List.getElem?_set_self (by omega)] at hy hu
        rw [ht] at hi
        cases hi
        cases hy
        cases hu
        exact h1
      · rw [List.getElem?_set_ne (Ne.symm hin)] at hy hu
        exact hx i t y u hi hy hu

theorem Exec.skip {t : Tree α} {x t1} (h : Exec t x t1) : ∀ {t2}, Skip t1 t2 →
    ∃ x', Exec t x' t2 ∧ ∀ p e, x'.at p = some e ↔ x.at p = some e := by
  induction h with
  | act h => intro t2 hs; cases hs
  | seqNil => intro t2 hs; cases hs
  | @seqStay t x t' ts hx ih =>
    intro t2 hs
    cases hs with
    | next hd =>
      obtain ⟨x0, h1, h2, _⟩ := Exec.empty (Tree.seq ts)
      obtain ⟨xs0, rfl⟩ := h1.seq_shape
      refine ⟨_, .seqNext hx hd h1, fun p e => ?_⟩
      rw [at_single, at_seq_cons]
      constructor
      · rintro (h | ⟨n, p', _, h⟩)
        · exact h
        · exact absurd h (h2 _ _)
      · exact .inl
    | seq hs =>
      obtain ⟨x', h1, h2⟩ := ih hs
      refine ⟨_, .seqStay h1, fun p e => ?_⟩
      rw [at_single, at_single]
      constructor
      · rintro ⟨p', rfl, h⟩; exact ⟨p', rfl, (h2 _ _).1 h⟩
      · rintro ⟨p', rfl, h⟩; exact ⟨p', rfl, (h2 _ _).2 h⟩
  | seqNext hx hd _ _ ih =>
    intro t2 hs
    obtain ⟨x', h1, h2⟩ := ih hs
    obtain ⟨xs', rfl⟩ := h1.seq_shape
    refine ⟨_, .seqNext hx hd h1, fun p e => ?_⟩
    rw [at_seq_cons, at_seq_cons]
    simp only [h2]
  | @par ts xs ts' hl hl' hx ih =>
    intro t2 hs
    cases hs with
    | @par t' t'' _ n hn hs =>
      have hlt := (List.getElem?_eq_some_iff.1 hn).1
      have ht : ts[n]? = some (ts[n]'(by omega)) := List.getElem?_eq_getElem _
      have hxn : xs[n]? = some (xs[n]'(by omega)) := List.getElem?_eq_getElem _
      obtain ⟨x', h1, h2⟩ := ih n _ _ t' ht hxn hn hs
      refine ⟨.par (xs.set n x'), .par (by simpa using hl) (by simpa using hl') ?_, ?_⟩
      · intro i t y u hi hy hu
        by_cases hin : i = n
        · subst hin
          rw [List.getElem?_set_self (by omega)] at hy hu
          rw [ht] at hi
          cases hi
          cases hy
          cases hu
          exact h1
        · rw [List.getElem?_set_ne (Ne.symm hin)] at hy hu
          exact hx i t y u hi hy hu
      · intro p e
        rw [at_par, at_par]
        constructor
        · rintro ⟨i, y, p', rfl, hy, h⟩
          by_cases hin : i = n
          · subst hin
            rw [List.getElem?_set_self (by omega)] at hy
            cases hy
            exact ⟨i, _, p', rfl, hxn, (h2 _ _).1 h⟩
          · rw [List.getElem?_set_ne (Ne.symm hin)] at hy
            exact ⟨i, y, p', rfl, hy, h⟩
        · rintro ⟨i, y, p', rfl, hy, h⟩
          by_cases hin : i = n
          · subst hin
            rw [hxn] at hy
            cases hy
            exact ⟨i, x', p', rfl, List.getElem?_set_self (by omega), (h2 _ _).2 h⟩
          · exact ⟨i, y, p', rfl, by rwa [List.getElem?_set_ne (Ne.symm hin)], h⟩

/-- performing both accesses of a race -/
theorem Exec.extend_race (m : Mem α) {t : Tree α} {x t1} (h : Exec t x t1) : Race t1 →
    ∃ p q, p ≠ q ∧ ¬ HB p q ∧ ¬ HB q p ∧ ∃ f g : Mem α → Event α, (∀ mm mm', (f mm).isWrite = true ∧
      (f mm).loc = (g mm').loc ∧ (g mm).isWrite = (g mm').isWrite ∧
      ((g mm).isWrite = false → (g mm).val = mm.val (g mm).loc)) ∧
      ∀ mm, ∃ x' u, Exec t x' u ∧ Adds x [(p, f mm), (q, g mm)] x' := by
  induction h with
  | act h => intro hr; cases hr
  | seqNil => intro hr; cases hr
  | seqStay _ ih =>
    intro hr
    cases hr with
    | seq hr =>
      obtain ⟨p, q, h1, h2, h3, f, g, h4, h5⟩ := ih hr
      refine ⟨.seq 0 :: p, .seq 0 :: q, by simpa using h1, by rwa [HB_zero], by rwa [HB_zero], f, g,
        h4, fun mm => ?_⟩
      obtain ⟨x', u, h6, h7⟩ := h5 mm
      exact ⟨_, _, .seqStay h6, h7.seq_head⟩
  | @seqNext t x t' ts xs u hx hd _ _ ih =>
    intro hr
    obtain ⟨p, q, h1, h2, h3, f, g, h4, h5⟩ := ih hr
    obtain ⟨⟨n, p', rfl⟩, n', q', rfl⟩ : (∃ n p', p = .seq n :: p') ∧ ∃ n q', q = .seq n :: q' := by
      obtain ⟨x', u, h6, h7⟩ := h5 m
      obtain ⟨xs', rfl⟩ := h6.seq_shape
      exact ⟨(h7.seq_tail (x := x)).2 p (f m) (by simp), (h7.seq_tail (x := x)).2 q (g m) (by simp)⟩
    refine ⟨.seq (n + 1) :: p', .seq (n' + 1) :: q', by simpa using h1, by rwa [HB_succ],
      by rwa [HB_succ], f, g, h4, fun mm => ?_⟩
    obtain ⟨x', u, h6, h7⟩ := h5 mm
    obtain ⟨xs', rfl⟩ := h6.seq_shape
    exact ⟨_, _, .seqNext hx hd h6, (h7.seq_tail (x := x)).1⟩
  | @par ts xs ts' hl hl' hx ih =>
    intro hr
    cases hr with
    | @here _ t' u' l w n n' hne hn hn' hN hN' =>
      have hlt := (List.getElem?_eq_some_iff.1 hn).1
      have hlt' := (List.getElem?_eq_some_iff.1 hn').1
      have ht : ts[n]? = some (ts[n]'(by omega)) := List.getElem?_eq_getElem _
      have hxn : xs[n]? = some (xs[n]'(by omega)) := List.getElem?_eq_getElem _
      have ht' : ts[n']? = some (ts[n']'(by omega)) := List.getElem?_eq_getElem _
      have hxn' : xs[n']? = some (xs[n']'(by omega)) := List.getElem?_eq_getElem _
      obtain ⟨f, hf, hf'⟩ := hN.open
      obtain ⟨g, hg, hg'⟩ := hN'.open
      obtain ⟨p, hp⟩ := (hx n _ _ t' ht hxn hn).extend hf
      obtain ⟨q, hq⟩ := (hx n' _ _ u' ht' hxn' hn').extend hg
      refine ⟨.par n :: p, .par n' :: q, by simp [hne], by simp [HB_par, hne],
        by simp [HB_par, Ne.symm hne], fun mm => (f mm).1, fun mm => (g mm).1, fun mm mm' => ?_,
        fun mm => ?_⟩
      · exact ⟨(hf' mm).2, (hf' mm).1.trans (hg' mm').1.symm, hg.isWrite mm mm', hg.val mm⟩
      · obtain ⟨y, h1, h2⟩ := hp mm
        obtain ⟨z, h3, h4⟩ := hq mm
        have hz : (xs.set n y)[n']? = some (xs[n']'(by omega)) := by
          rw [List.getElem?_set_ne hne]
          exact hxn'
        refine ⟨.par ((xs.set n y).set n' z), .par ((ts'.set n (f mm).2).set n' (g mm).2),
          .par (by simpa using hl) (by simpa using hl') ?_, (h2.par hxn).trans (h4.par hz)⟩
        intro i t a b hi ha hb
        by_cases hin' : i = n'
        · subst hin'
          rw [List.getElem?_set_self (by simp; omega)] at ha hb
          rw [ht'] at hi
          cases hi
          cases ha
          cases hb
          exact h3
        · rw [List.getElem?_set_ne (Ne.symm hin')] at ha hb
          by_cases hin : i = n
          · subst hin
            rw [List.getElem?_set_self (by omega)] at ha hb
            rw [ht] at hi
            cases hi
            cases ha
            cases hb
            exact h1
          · rw [List.getElem?_set_ne (Ne.symm hin)] at ha hb
            exact hx i t a b hi ha hb
    | @par t' _ hmem hr =>
      obtain ⟨n, hlt, hn⟩ := List.mem_iff_getElem.1 hmem
      have hn : ts'[n]? = some t' := by rw [List.getElem?_eq_getElem hlt, hn]
      have ht : ts[n]? = some (ts[n]'(by omega)) := List.getElem?_eq_getElem _
      have hxn : xs[n]? = some (xs[n]'(by omega)) := List.getElem?_eq_getElem _
      obtain ⟨p, q, h1, h2, h3, f, g, h4, h5⟩ := ih n _ _ t' ht hxn hn hr
      refine ⟨.par n :: p, .par n :: q, by simpa using h1, by simpa [HB_par] using h2,
        by simpa [HB_par] using h3, f, g, h4, fun mm => ?_⟩
      obtain ⟨x', u, h6, h7⟩ := h5 mm
      refine ⟨.par (xs.set n x'), .par (ts'.set n u), .par (by simpa using hl) (by simpa using hl') ?_,
        h7.par hxn⟩
      intro i t y u hi hy hu
      by_cases hin : i = n
      · subst hin
        rw [List.getElem?_set_self (by omega)] at hy hu
        rw [ht] at hi
        cases hi
        cases hy
        cases hu
        exact h6
      · rw [List.getElem?_set_ne (Ne.symm hin)] at hy hu
        exact hx i t y u hi hy hu

/-! ### visible values -/

theorem HB.trans : ∀ {p q r : List Turn}, HB p q → HB q r → HB p r
  | .seq n :: p, .seq n' :: q, .seq n'' :: r, h, h' => by
    have h1 : n < n' ∨ n = n' ∧ HB p q := h
    have h2 : n' < n'' ∨ n' = n'' ∧ HB q r := h'
    show n < n'' ∨ n = n'' ∧ HB p r
    rcases h1 with h1 | ⟨h1, h3⟩
    · left; omega
    · rcases h2 with h2 | ⟨h2, h4⟩
      · left; omega
      · exact .inr ⟨h1.trans h2, h3.trans h4⟩
  | .par n :: p, .par n' :: q, .par n'' :: r, h, h' => by
    have h1 : n = n' ∧ HB p q := h
    have h2 : n' = n'' ∧ HB q r := h'
    exact ⟨h1.1.trans h2.1, h1.2.trans h2.2⟩
  | [], _, _, h, _ => by simp [HB] at h
  | _ :: _, [], _, h, _ => by simp [HB] at h
  | _ :: _, _ :: _, [], _, h => by simp [HB] at h
  | .seq _ :: _, .par _ :: _, _, h, _ => by simp [HB] at h
  | .par _ :: _, .seq _ :: _, _, h, _ => by simp [HB] at h
  | _ :: _, .par _ :: _, .seq _ :: _, _, h => by simp [HB] at h
  | _ :: _, .seq _ :: _, .par _ :: _, _, h => by simp [HB] at h

mutual
/-- an execution has finitely many accesses -/
theorem Execution.finite : ∀ x : Execution α, ∃ ps : List (List Turn), ∀ p e, x.at p = some e →
    p ∈ ps
  | .event e => ⟨[[]], fun p f h => by simp [(at_event.1 h).1]⟩
  | .seq xs => by
    obtain ⟨ps, h⟩ := Execution.finiteL xs
    refine ⟨ps.map fun a => .seq a.1 :: a.2, fun p e hp => ?_⟩
    obtain ⟨n, x, p', rfl, hx, hp'⟩ := at_seq.1 hp
    exact List.mem_map.2 ⟨(n, p'), h n x p' e hx hp', rfl⟩
  | .par xs => by
    obtain ⟨ps, h⟩ := Execution.finiteL xs
    refine ⟨ps.map fun a => .par a.1 :: a.2, fun p e hp => ?_⟩
    obtain ⟨n, x, p', rfl, hx, hp'⟩ := at_par.1 hp
    exact List.mem_map.2 ⟨(n, p'), h n x p' e hx hp', rfl⟩
theorem Execution.finiteL : ∀ xs : List (Execution α), ∃ ps : List (Nat × List Turn),
    ∀ (n : Nat) x p e, xs[n]? = some x → x.at p = some e → (n, p) ∈ ps
  | [] => ⟨[], fun n x p e h => by simp at h⟩
  | x :: xs => by
    obtain ⟨ps, h⟩ := Execution.finite x
    obtain ⟨qs, h'⟩ := Execution.finiteL xs
    refine ⟨ps.map (fun p => (0, p)) ++ qs.map (fun a => (a.1 + 1, a.2)), fun n y p e hy hp => ?_⟩
    rw [List.mem_append]
    cases n with
    | zero =>
      simp at hy
      subst hy
      exact .inl (List.mem_map.2 ⟨p, h p e hp, rfl⟩)
    | succ n =>
      exact .inr (List.mem_map.2 ⟨(n, p), h' n y p e (by simpa using hy) hp, rfl⟩)
end

theorem exists_last (P : List Turn → Prop) : ∀ ps : List (List Turn), (∃ p ∈ ps, P p) →
    ∃ p, P p ∧ ∀ q ∈ ps, P q → ¬ HB p q
  | [], h => by obtain ⟨p, h, _⟩ := h; simp at h
  | a :: ps, h => by
    by_cases hps : ∃ p ∈ ps, P p
    · obtain ⟨p, h1, h2⟩ := exists_last P ps hps
      by_cases ha : P a ∧ HB p a
      · refine ⟨a, ha.1, fun q hq hP hb => ?_⟩
        rcases List.mem_cons.1 hq with rfl | hq
        · exact HB.irrefl _ hb
        · exact h2 q hq hP (ha.2.trans hb)
      · refine ⟨p, h1, fun q hq hP hb => ?_⟩
        rcases List.mem_cons.1 hq with rfl | hq
        · exact ha ⟨hP, hb⟩
        · exact h2 q hq hP hb
    · obtain ⟨p, h1, h2⟩ := h
      rcases List.mem_cons.1 h1 with rfl | h1
      · refine ⟨p, h2, fun q hq hP hb => ?_⟩
        rcases List.mem_cons.1 hq with rfl | hq
        · exact HB.irrefl _ hb
        · exact hps ⟨q, hq, hP⟩
      · exact absurd ⟨p, h1, h2⟩ hps

/-- for every access there is a visible value -/
theorem exists_visible (m : Mem α) (x : Execution α) (p l) : ∃ mm : Mem α, Visible m x p l (mm.val l) := by
  obtain ⟨ps, hps⟩ := x.finite
  by_cases h : ∃ q, WritesAt x l q ∧ HB q p
  · obtain ⟨q, h1, h2⟩ := h
    obtain ⟨r, ⟨⟨w, h3, h4, h5⟩, h6⟩, h7⟩ := exists_last (fun q => WritesAt x l q ∧ HB q p) ps
      ⟨q, by obtain ⟨w, h, _⟩ := h1; exact hps q w h, h1, h2⟩
    refine ⟨m.after w, .inl ⟨r, w, h3, h4, h5, ?_, h6, fun q' hq' hb => ?_⟩⟩
    · rw [Mem.val_after, if_pos ⟨h4, h5⟩]
    · obtain ⟨w', h, _⟩ := id hq'
      exact h7 q' (hps q' w' h) ⟨hq', hb⟩
  · exact ⟨m, .inr ⟨fun q h1 h2 => h ⟨q, h1, h2⟩, rfl⟩⟩

/-- Visibility depends only on the accesses that happen before. -/
theorem Visible.congr {m : Mem α} {x x' : Execution α} {p l v} (h : Visible m x p l v)
    (hx : ∀ q e, HB q p → e.isWrite = true → e.loc = l → (x'.at q = some e ↔ x.at q = some e)) :
    Visible m x' p l v := by
  have key : ∀ q, HB q p → (WritesAt x' l q ↔ WritesAt x l q) := by
    intro q hb
    constructor
    · rintro ⟨w, h1, h2, h3⟩; exact ⟨w, (hx q w hb h2 h3).1 h1, h2, h3⟩
    · rintro ⟨w, h1, h2, h3⟩; exact ⟨w, (hx q w hb h2 h3).2 h1, h2, h3⟩
  rcases h with ⟨q, w, h1, h2, h3, h4, h5, h6⟩ | ⟨h1, h2⟩
  · exact .inl ⟨q, w, (hx q w h5 h2 h3).2 h1, h2, h3, h4, h5,
      fun q' hq' hb => h6 q' ((key q' hb).1 hq') hb⟩
  · exact .inr ⟨fun q hq hb => h1 q ((key q hb).1 hq) hb, h2⟩

/-- added accesses are not visible to the earlier ones -/
theorem Adds.consistent {m : Mem α} {x x' : Execution α} {L} (h : Adds x L x') (hc : Consistent m x)
    (hL : ∀ r g, (r, g) ∈ L → g.isWrite = false → Visible m x' r g.loc g.val) :
    Consistent m x' := by
  intro p e hp he
  rcases (h.at_iff p e).1 hp with hp | hp
  · exact hL p e hp he
  · refine (hc p e hp he).congr fun q f hb _ _ => ?_
    rw [h.at_iff]
    constructor
    · rintro (h1 | h1)
      · exact absurd hb (h.last _ _ _ _ h1 hp)
      · exact h1
    · exact .inr

/-- From a consistent execution that reaches a race, an execution with a data race. -/
theorem Exec.undefined {m : Mem α} {t : Tree α} {x t1} (h : Exec t x t1) (hc : Consistent m x)
    (hr : Race t1) : Undefined m t := by
  obtain ⟨p, q, h1, h2, h3, f, g, h4, h5⟩ := h.extend_race m hr
  obtain ⟨mm, hv⟩ := exists_visible m x q (g m).loc
  obtain ⟨x', u, h6, h7⟩ := h5 mm
  have hloc : (g mm).loc = (g m).loc := ((h4 m mm).2.1.symm.trans (h4 m m).2.1)
  refine ⟨x', u, h6, h7.consistent hc ?_, ?_⟩
  · intro r e hr he
    simp at hr
    rcases hr with ⟨rfl, rfl⟩ | ⟨rfl, rfl⟩
    · rw [(h4 mm mm).1] at he
      exact absurd he (by decide)
    · rw [(h4 mm mm).2.2.2 he, hloc]
      refine hv.congr fun r e hb hw hl => ?_
      rw [h7.at_iff]
      constructor
      · rintro (h8 | h8)
        · simp at h8
          rcases h8 with ⟨rfl, rfl⟩ | ⟨rfl, rfl⟩
          · exact absurd hb h2
          · exact absurd hb (HB.irrefl _)
        · exact h8
      · exact .inr
  · exact ⟨p, q, f mm, g mm, (h7.at_iff _ _).2 (.inl (by simp)), (h7.at_iff _ _).2 (.inl (by simp)),
      h1, (h4 mm mm).2.1, (h4 mm mm).1, h2, h3⟩

theorem Final.congr {m m' : Mem α} {x x' : Execution α} (h : Final m x m')
    (hx : ∀ p e, x'.at p = some e ↔ x.at p = some e) : Final m x' m' := by
  intro l
  have key : ∀ q, WritesAt x' l q ↔ WritesAt x l q := by
    intro q
    simp only [WritesAt, hx]
  rcases h l with ⟨q, w, h1, h2, h3, h4, h5⟩ | ⟨h1, h2⟩
  · exact .inl ⟨q, w, (hx _ _).2 h1, h2, h3, h4, fun q' hq' => h5 q' ((key q').1 hq')⟩
  · exact .inr ⟨fun q hq => h1 q ((key q).1 hq), h2⟩

theorem steps_exec {m m1 m' : Mem α} {t t1 t' : Tree α} (hs : PSteps m1 t1 m' t') : ∀ {x},
    Exec t x t1 → Consistent m x → ¬ Racy x → Final m x m1 →
    Undefined m t ∨ ∃ x', Exec t x' t' ∧ Consistent m x' ∧ ¬ Racy x' ∧ Final m x' m' := by
  induction hs with
  | refl => intro x h1 h2 h3 h4; exact .inr ⟨x, h1, h2, h3, h4⟩
  | @step m1 t1 m2 t2 m3 t3 hs _ ih =>
    intro x h1 h2 h3 h4
    rcases hs.open with ⟨hsk, rfl⟩ | ⟨f, hf, rfl, rfl⟩
    · obtain ⟨x', h5, h6⟩ := h1.skip hsk
      refine ih h5 ?_ ?_ (h4.congr h6)
      · intro p e hp he
        exact (h2 p e ((h6 _ _).1 hp) he).congr fun q g _ _ _ => h6 q g
      · rintro ⟨p, q, e, g, h7, h8, h9⟩
        exact h3 ⟨p, q, e, g, (h6 _ _).1 h7, (h6 _ _).1 h8, h9⟩
    · obtain ⟨p, hp⟩ := h1.extend hf
      by_cases hR : ∃ q g, x.at q = some g ∧ g.loc = (f m1).1.loc ∧
          (g.isWrite = true ∨ (f m1).1.isWrite = true) ∧ ¬ HB q p
      · left
        obtain ⟨q, g, h5, h6, h7, h8⟩ := hR
        obtain ⟨mm, hv⟩ := exists_visible m x p (f m1).1.loc
        obtain ⟨x', h9, h10⟩ := hp mm
        have hpq : p ≠ q := by
          rintro rfl
          exact h10.new p _ g (List.mem_singleton.2 rfl) h5
        have hb : ¬ HB p q := h10.last p _ q g (List.mem_singleton.2 rfl) h5
        have hpat : x'.at p = some (f mm).1 := (h10.at_iff _ _).2 (.inl (by simp))
        have hqat : x'.at q = some g := (h10.at_iff _ _).2 (.inr h5)
        have hl := hf.loc mm m1
        refine ⟨x', _, h9, h10.consistent h2 ?_, ?_⟩
        · intro r e hr he
          simp at hr
          obtain ⟨rfl, rfl⟩ := hr
          rw [hf.val mm he, hl]
          refine hv.congr fun r e hb hw hl => ?_
          rw [h10.at_iff]
          constructor
          · rintro (h8 | h8)
            · simp at h8
              rw [h8.1] at hb
              exact absurd hb (HB.irrefl _)
            · exact h8
          · exact .inr
        · rcases h7 with h7 | h7
          · exact ⟨q, p, g, _, hqat, hpat, Ne.symm hpq, h6.trans hl.symm, h7, h8, hb⟩
          · exact ⟨p, q, _, g, hpat, hqat, hpq, hl.trans h6.symm, (hf.isWrite mm m1).trans h7, hb, h8⟩
      · obtain ⟨x', h9, h10⟩ := hp m1
        have hpat : x'.at p = some (f m1).1 := (h10.at_iff _ _).2 (.inl (by simp))
        have hord : ∀ q g, x.at q = some g → g.loc = (f m1).1.loc →
            (g.isWrite = true ∨ (f m1).1.isWrite = true) → HB q p := fun q g h5 h6 h7 =>
          Classical.byContradiction fun h8 => hR ⟨q, g, h5, h6, h7, h8⟩
        have hat : ∀ q g, x'.at q = some g ↔ (q = p ∧ g = (f m1).1) ∨ x.at q = some g := by
          intro q g
          rw [h10.at_iff]
          simp
        refine ih h9 (h10.consistent h2 ?_) ?_ ?_
        · intro r e hr he
          simp at hr
          obtain ⟨rfl, rfl⟩ := hr
          rw [hf.val m1 he]
          have hnw : ∀ l q, WritesAt x' l q → WritesAt x l q := by
            rintro l q ⟨w, h11, h12, h13⟩
            rcases (hat q w).1 h11 with ⟨_, rfl⟩ | h14
            · rw [he] at h12
              exact absurd h12 (by decide)
            · exact ⟨w, h14, h12, h13⟩
          rcases h4 (f m1).1.loc with ⟨q, w, h5, h6, h7, h8, h11⟩ | ⟨h5, h6⟩
          · exact .inl ⟨q, w, (hat q w).2 (.inr h5), h6, h7, h8, hord q w h5 h7 (.inl h6),
              fun q' hq' _ => h11 q' (hnw _ _ hq')⟩
          · exact .inr ⟨fun q hq _ => h5 q (hnw _ _ hq), h6⟩
        · rintro ⟨a, b, e, g, h5, h6, h7, h8, h11, h12, h13⟩
          rcases (hat a e).1 h5 with ⟨rfl, rfl⟩ | h5'
          · rcases (hat b g).1 h6 with ⟨rfl, rfl⟩ | h6'
            · exact h7 rfl
            · exact h13 (hord b g h6' h8.symm (.inr h11))
          · rcases (hat b g).1 h6 with ⟨rfl, rfl⟩ | h6'
            · exact h12 (hord a e h5' h8 (.inl h11))
            · exact h3 ⟨a, b, e, g, h5', h6', h7, h8, h11, h12, h13⟩
        · intro l
          rw [Mem.val_after]
          by_cases hw : (f m1).1.isWrite = true ∧ (f m1).1.loc = l
          · rw [if_pos hw]
            refine .inl ⟨p, _, hpat, hw.1, hw.2, rfl, ?_⟩
            rintro q ⟨w, h5, _⟩ hb
            rcases (hat q w).1 h5 with ⟨rfl, rfl⟩ | h5'
            · exact HB.irrefl _ hb
            · exact h10.last p _ q w (List.mem_singleton.2 rfl) h5' hb
          · rw [if_neg hw]
            have hnw : ∀ q, WritesAt x' l q → WritesAt x l q := by
              rintro q ⟨w, h11, h12, h13⟩
              rcases (hat q w).1 h11 with ⟨_, rfl⟩ | h14
              · exact absurd ⟨h12, h13⟩ hw
              · exact ⟨w, h14, h12, h13⟩
            rcases h4 l with ⟨q, w, h5, h6, h7, h8, h11⟩ | ⟨h5, h6⟩
            · exact .inl ⟨q, w, (hat q w).2 (.inr h5), h6, h7, h8, fun q' hq' => h11 q' (hnw q' hq')⟩
            · exact .inr ⟨fun q hq => h5 q (hnw q hq), h6⟩

/-- Every run of a program is an execution, or the behaviour of the program is undefined. -/
theorem PSteps.exec {m m' : Mem α} {t t' : Tree α} (hs : PSteps m t m' t') :
    Undefined m t ∨ ∃ x, Exec t x t' ∧ Consistent m x ∧ Final m x m' := by
  obtain ⟨x, h1, h2, _⟩ := Exec.empty t
  rcases steps_exec (m := m) hs h1 (fun p e hp => absurd hp (h2 p e))
    (fun ⟨p, _, e, _, hp, _⟩ => h2 p e hp)
    (fun l => .inr ⟨fun q ⟨w, hq, _⟩ => h2 q w hq, rfl⟩) with h | ⟨x', h3, h4, _, h5⟩
  · exact .inl h
  · exact .inr ⟨x', h3, h4, h5⟩

/-- A program has a data race in the C++ memory model if and only if some interleaving reaches one. -/
theorem raceFree_iff_defined {m : Mem α} {t : Tree α} : RaceFree m t ↔ ¬ Undefined m t := by
  constructor
  · rintro h ⟨x, t', h1, h2, h3⟩
    exact h.not_racy h1 h2 h3
  · intro h m' t' hs hr
    rcases hs.exec with h' | ⟨x, h1, h2, _⟩
    · exact h h'
    · exact h (h1.undefined h2 hr)

/-! ### every run -/

theorem Failed.not_done {e : Err} {t : Tree α} (h : Failed e t) : ¬ Done t := by
  induction h with
  | act => intro h; cases h
  | seq _ _ => intro h; cases h
  | par hm _ ih => intro h; cases h with | par h => exact ih (h _ hm)

theorem Failed.step {e : Err} {m m' : Mem α} {t t' : Tree α} (hs : PStep m t m' t') :
    Failed e t → Failed e t' := by
  induction hs with
  | rd => intro h; cases h
  | wr => intro h; cases h
  | rdFlag => intro h; cases h
  | wrFlag => intro h; cases h
  | seqStep _ ih => intro h; cases h with | seq h => exact .seq (ih h)
  | seqNext hd => intro h; cases h with | seq h => exact absurd hd h.not_done
  | @parStep m' t t' ts n hn hs ih =>
    intro h
    cases h with
    | @par u _ hm hu =>
      have hlt := (List.getElem?_eq_some_iff.1 hn).1
      obtain ⟨i, hi, hiu⟩ := List.mem_iff_getElem.1 hm
      by_cases hin : i = n
      · subst hin
        have : u = t := by
          rw [List.getElem?_eq_getElem hi, hiu] at hn
          exact Option.some.inj hn
        subst this
        exact .par (List.mem_iff_getElem.2 ⟨i, by simpa using hlt, by simp⟩) (ih hu)
      · refine .par (List.mem_iff_getElem.2 ⟨i, by simpa using hi, ?_⟩) hu
        rw [List.getElem_set_ne (Ne.symm hin)]
        exact hiu

theorem Failed.steps {e : Err} {m m' : Mem α} {t t' : Tree α} (hs : PSteps m t m' t') :
    Failed e t → Failed e t' := by
  induction hs with
  | refl => exact id
  | step hs _ ih => exact fun h => ih (h.step hs)

theorem Done.not_step {m m' : Mem α} {t t' : Tree α} (hs : PStep m t m' t') : ¬ Done t := by
  induction hs with
  | rd => intro h; cases h
  | wr => intro h; cases h
  | rdFlag => intro h; cases h
  | wrFlag => intro h; cases h
  | seqStep _ _ => intro h; cases h
  | seqNext _ => intro h; cases h
  | parStep n hn _ ih =>
    intro h
    cases h with
    | par h => exact ih (h _ (List.mem_of_getElem? hn))

/-- every run can be continued to an end -/
theorem exists_atEnd (m : Mem α) (t : Tree α) : ∃ m' t', PSteps m t m' t' ∧ AtEnd m' t' := by
  have h := tacc t
  induction h generalizing m with
  | intro t _ ih =>
    by_cases hs : ∃ m' t', PStep m t m' t'
    · obtain ⟨m', t', hs⟩ := hs
      obtain ⟨m'', t'', h1, h2⟩ := ih t' ⟨_, _, hs⟩ m'
      exact ⟨m'', t'', .step hs h1, h2⟩
    · exact ⟨m, t, .refl, hs⟩

/-- What holds for every interleaving holds for every execution in the C++ memory model. -/
theorem EveryRun.cpp {m : Mem α} {t : Tree α} {P} (h : EveryRun m t P) : CppRuns m t P := by
  refine ⟨raceFree_iff_defined.1 h.raceFree, ?_, ?_, ?_⟩
  · intro x t' e hx hc hf
    obtain ⟨m', hs, _⟩ := hx.replay hc (h.raceFree.not_racy hx hc)
    obtain ⟨m'', t'', hs', he⟩ := exists_atEnd m' t'
    exact (hf.steps hs').not_done (h.ends m'' t'' (hs.trans hs') he).1
  · obtain ⟨m', t', hs, he⟩ := exists_atEnd m t
    rcases hs.exec with hu | ⟨x, h1, h2, h3⟩
    · exact absurd hu (raceFree_iff_defined.1 h.raceFree)
    · exact ⟨x, t', m', h1, h2, (h.ends m' t' hs he).1, h3⟩
  · intro x t' m' hx hc hd hf
    have hr := h.raceFree.not_racy hx hc
    obtain ⟨m'', hs, hf'⟩ := hx.replay hc hr
    rw [hf.unique hf' hr]
    exact (h.ends m'' t' hs fun ⟨_, _, h⟩ => Done.not_step h hd).2

end Verif
