import Verif.Model.Exceptions
/-
Property C133: the text of an exception.
-/
namespace Verif.Props
open Verif.Exceptions

/-- What a program may do with strings afterwards. -/
inductive Event
  | alloc (t : String) (p : Nat)
  | change (t : String) (p : Nat)
  | free (p : Nat)

/-- Strings are created where no buffer is, changed and destroyed where one is. -/
inductive Happens : Store → List Event → Store → Prop
  | nil {s} : Happens s [] s
  | alloc {s s' t p l} : s.text p = none → Happens (s.put p (some t)) l s' →
      Happens s (.alloc t p :: l) s'
  | change {s s' t p l} : s.text p ≠ none → Happens (s.put p (some t)) l s' →
      Happens s (.change t p :: l) s'
  | free {s s' p l} : s.text p ≠ none → Happens (s.put p none) l s' → Happens s (.free p :: l) s'

theorem put_self (s : Store) (p : Nat) (t : Option String) : (s.put p t).text p = t := by
  simp [Store.put]

theorem put_ne (s : Store) {p q : Nat} (h : q ≠ p) (t : Option String) :
    (s.put p t).text q = s.text q := by
  simp [Store.put, h]

/-- `what` in terms of the buffer it returns: none was there before, a buffer with the whole text is
there in between, none is there afterwards, and all other buffers are as before. -/
theorem what_spec {s s' : Store} {e : Exn} {p : Nat} (h : What s e p s') :
    s.text p = none ∧ s' = s := by
  obtain ⟨m, a, s1, b, s2, hm, ⟨ha, rfl⟩, ⟨u, hu, h⟩, rfl, rfl⟩ := h
  rcases h with ⟨rfl, rfl⟩ | ⟨s1, ⟨hb, rfl⟩, rfl⟩
  · refine ⟨ha, ?_⟩
    cases s with
    | mk f =>
      simp only [Store.put, Store.mk.injEq]
      funext q
      by_cases hq : q = p
      · simp [hq]; exact ha.symm
      · simp [hq]
  · have hpa : p ≠ a := by
      rintro rfl
      rw [put_self] at hb
      cases hb
    refine ⟨by rwa [put_ne _ hpa] at hb, ?_⟩
    cases s with
    | mk f =>
      simp only [Store.put, Store.mk.injEq]
      funext q
      by_cases hq : q = p
      · rw [put_ne _ hpa] at hb
        simp [hq]; exact hb.symm
      · by_cases hq' : q = a
        · rw [hq'] at hq
          simp [hq']
          exact ha.symm
        · simp [hq, hq']

/-- **C133.** The address returned by `what` is the one of a string that does not exist any more:
whoever reads the text of one of these exceptions reads released memory. -/
theorem C133_dangling (s s' : Store) (e : Exn) (p : Nat) (h : What s e p s') :
    s'.text p = none := by
  obtain ⟨h1, rfl⟩ := what_spec h
  exact h1

/-- **C133.** `what` can always be called, leaves nothing behind, and the message is still stored in the
exception. -/
theorem C133_what_returns (s : Store) (e : Exn) (m : String) (hm : s.text e.message = some m)
    (free : ∃ p, s.text p = none) :
    (∃ p s', What s e p s') ∧
    ∀ p s', What s e p s' → (∀ q, s'.text q = s.text q) ∧ p ≠ e.message := by
  refine ⟨?_, fun p s' h => ?_⟩
  · obtain ⟨p, hp⟩ := free
    exact ⟨p, _, m, p, _, p, _, hm, ⟨hp, rfl⟩, ⟨_, put_self _ _ _, .inl ⟨rfl, rfl⟩⟩, rfl, rfl⟩
  · obtain ⟨h1, rfl⟩ := what_spec h
    refine ⟨fun _ => rfl, ?_⟩
    rintro rfl
    rw [h1] at hm
    cases hm

/-- **C133.** If a text is found there later on, another string has been created there since. -/
theorem C133_not_the_message (s s' s'' : Store) (e : Exn) (p : Nat) (l : List Event) (t : String)
    (h : What s e p s') (hl : Happens s' l s'') (ht : s''.text p = some t) :
    ∃ u, Event.alloc u p ∈ l := by
  have h0 := C133_dangling s s' e p h
  clear h
  induction hl with
  | nil => rw [h0] at ht; cases ht
  | @alloc s s' u q l hq _ ih =>
    by_cases hqp : p = q
    · subst hqp
      exact ⟨u, List.mem_cons_self⟩
    · obtain ⟨v, hv⟩ := ih ht (by rw [put_ne _ hqp]; exact h0)
      exact ⟨v, List.mem_cons_of_mem _ hv⟩
  | @change s s' u q l hq _ ih =>
    have hqp : p ≠ q := by rintro rfl; exact hq h0
    obtain ⟨v, hv⟩ := ih ht (by rw [put_ne _ hqp]; exact h0)
    exact ⟨v, List.mem_cons_of_mem _ hv⟩
  | @free s s' q l hq _ ih =>
    have hqp : p ≠ q := by rintro rfl; exact hq h0
    obtain ⟨v, hv⟩ := ih ht (by rw [put_ne _ hqp]; exact h0)
    exact ⟨v, List.mem_cons_of_mem _ hv⟩

/-- **C133.** The text is complete before the temporary is destroyed. -/
theorem C133_text (s s' : Store) (e : Exn) (p : Nat) (m : String)
    (hm : s.text e.message = some m) (h : What s e p s') :
    ∃ before : Store, s' = before.put p none ∧
      before.text p = some ((match e.cls with
        | .matrix_multiplication_exception => "matrix_multiplication_exception: "
        | .memory_layout_exception => "memory_layout_exception: ") ++ m) := by
  obtain ⟨m', a, s1, b, s2, hm', ⟨ha, rfl⟩, ⟨u, hu, h⟩, rfl, rfl⟩ := h
  rw [hm] at hm'
  cases hm'
  rw [put_self] at hu
  cases hu
  refine ⟨s2, rfl, ?_⟩
  have hl : e.cls.literal = (match e.cls with
        | .matrix_multiplication_exception => "matrix_multiplication_exception: "
        | .memory_layout_exception => "memory_layout_exception: ") := by
    cases e.cls <;> rfl
  rw [← hl]
  rcases h with ⟨rfl, rfl⟩ | ⟨s1, ⟨hb, rfl⟩, rfl⟩
  · exact put_self _ _ _
  · have hpa : p ≠ a := by
      rintro rfl
      rw [put_self] at hb
      cases hb
    rw [put_ne _ hpa, put_self]

/-- **C133.** The message itself stays readable in the exception, as long as nobody touches its
member. -/
theorem C133_message_kept (s s1 s2 s3 : Store) (c : Class) (t : String) (e : Exn) (p : Nat)
    (l : List Event) (hc : Construct s c t e s1) (h : What s1 e p s2) (hl : Happens s2 l s3)
    (hf : Event.free e.message ∉ l) (hch : ∀ u, Event.change u e.message ∉ l) :
    s3.text e.message = some t := by
  obtain ⟨rfl, _, rfl⟩ := hc
  obtain ⟨h1, rfl⟩ := what_spec h
  have h0 : (s.put e.message (some t)).text e.message = some t := put_self _ _ _
  clear h h1
  generalize s.put e.message (some t) = s2 at hl h0
  induction hl with
  | nil => exact h0
  | @alloc s s' u q l hq _ ih =>
    have hqp : e.message ≠ q := by rintro rfl; rw [h0] at hq; cases hq
    exact ih (fun h => hf (List.mem_cons_of_mem _ h)) (fun u h => hch u (List.mem_cons_of_mem _ h))
      (by rw [put_ne _ hqp]; exact h0)
  | @change s s' u q l hq _ ih =>
    have hqp : e.message ≠ q := by rintro rfl; exact hch u List.mem_cons_self
    exact ih (fun h => hf (List.mem_cons_of_mem _ h)) (fun u h => hch u (List.mem_cons_of_mem _ h))
      (by rw [put_ne _ hqp]; exact h0)
  | @free s s' q l hq _ ih =>
    have hqp : e.message ≠ q := by rintro rfl; exact hf List.mem_cons_self
    exact ih (fun h => hf (List.mem_cons_of_mem _ h)) (fun u h => hch u (List.mem_cons_of_mem _ h))
      (by rw [put_ne _ hqp]; exact h0)

section Examples

/-- one string alive, the message of the exception -/
private def one : Store := ⟨fun q => if q = 7 then some "\"pseudodynamic\" not possible" else none⟩
private def exn : Exn := ⟨.matrix_multiplication_exception, 7⟩

example : (∃ p s', What one exn p s') ∧ ∀ p s', What one exn p s' →
    (∀ q, s'.text q = one.text q) ∧ p ≠ 7 :=
  C133_what_returns one exn _ rfl ⟨8, rfl⟩

/-- with the buffer kept, at address 8 -/
example : What one exn 8 one ∧ one.text 8 = none := by
  have h : What one exn 8 ((one.put 8 (some exn.cls.literal)).put 8 (some (exn.cls.literal ++
      "\"pseudodynamic\" not possible")) |>.put 8 none) :=
    ⟨_, 8, _, 8, _, rfl, ⟨rfl, rfl⟩, ⟨_, put_self _ _ _, .inl ⟨rfl, rfl⟩⟩, rfl, rfl⟩
  have e := (what_spec h).2
  rw [e] at h
  exact ⟨h, C133_dangling _ _ _ _ h⟩

/-- with a new buffer for the longer text, at address 9 -/
example : ∃ s', What one exn 9 s' ∧ s'.text 9 = none := by
  have h : What one exn 9 _ :=
    ⟨_, 8, _, 9, _, rfl, ⟨rfl, rfl⟩, ⟨_, put_self _ _ _, .inr ⟨_, ⟨rfl, rfl⟩, rfl⟩⟩, rfl, rfl⟩
  exact ⟨_, h, C133_dangling _ _ _ _ h⟩

/-- another string comes to lie at the address: its text is read -/
example (s' : Store) (h : What one exn 8 s') :
    ∃ s'', Happens s' [.alloc "other" 8] s'' ∧ s''.text 8 = some "other" ∧
      s''.text 7 = some "\"pseudodynamic\" not possible" := by
  have h0 := C133_dangling _ _ _ _ h
  obtain ⟨_, rfl⟩ := what_spec h
  exact ⟨_, .alloc h0 .nil, put_self _ _ _, rfl⟩

end Examples
end Verif.Props
