import Verif.Core.Exec
/-
Which errors a program can raise.
-/
namespace Verif
variable {α R S ι : Type}

/-- All errors of `x` satisfy `E`. -/
def MErrs (E : Err → Prop) (x : M R) : Prop := ∀ e, x = .error e → E e

theorem MErrs.pure {E} {r : R} : MErrs E (Pure.pure r) := fun _ h => by cases h
theorem MErrs.ok {E} {r : R} : MErrs E (.ok r) := fun _ h => by cases h
theorem MErrs.error {E : Err → Prop} {e} (h : E e) : MErrs E (.error e : M R) :=
  fun _ h' => by cases h'; exact h
theorem MErrs.throw {E : Err → Prop} {e} (h : E e) : MErrs E (MonadExcept.throw e : M R) :=
  MErrs.error h

theorem MErrs.mono {E E' : Err → Prop} {x : M R} (h : MErrs E x) (hE : ∀ e, E e → E' e) :
    MErrs E' x := fun e he => hE e (h e he)

theorem MErrs.bind {E} {x : M R} {f : R → M S} (hx : MErrs E x) (hf : ∀ r, MErrs E (f r)) :
    MErrs E (x >>= f) := by
  intro e he
  cases x with
  | ok r => exact hf r e he
  | error e' => exact hx e (by cases he; rfl)

theorem MErrs.ite {E} {c : Prop} [Decidable c] {x y : M R} (hx : MErrs E x) (hy : MErrs E y) :
    MErrs E (if c then x else y) := by split <;> assumption

theorem MErrs.rd {E : Err → Prop} (h : E .oob) (v : Array α) (i : Nat) : MErrs E (rd v i) := by
  unfold Verif.rd
  split
  · exact MErrs.ok
  · exact MErrs.error h

theorem MErrs.wr {E : Err → Prop} (h : E .oob) (v : Array α) (i : Nat) (x : α) :
    MErrs E (wr v i x) := by
  unfold Verif.wr
  split
  · exact MErrs.ok
  · exact MErrs.error h

theorem MErrs.rdAt {E : Err → Prop} (h : E .outOfRange) (v : Array α) (i : Nat) :
    MErrs E (rdAt v i) := by
  unfold Verif.rdAt
  split
  · exact MErrs.ok
  · exact MErrs.error h

theorem MErrs.wrAt {E : Err → Prop} (h : E .outOfRange) (v : Array α) (i : Nat) (x : α) :
    MErrs E (wrAt v i x) := by
  unfold Verif.wrAt
  split
  · exact MErrs.ok
  · exact MErrs.error h

theorem MErrs.foldlM {E} {l : List ι} {f : S → ι → M S} (h : ∀ i s, MErrs E (f s i)) (s : S) :
    MErrs E (l.foldlM f s) :=
  (foldlM_err (P := fun _ => True) (E := E) (fun i _ s _ => ⟨fun _ _ => trivial, h i s⟩) trivial).2

theorem MErrs.forStep {E} {lo hi st : Nat} (hst : 0 < st) {body : Nat → S → M S}
    (h : ∀ i s, MErrs E (body i s)) (s : S) : MErrs E (forStep lo hi st s body) := by
  rw [forStep_eq hst]
  exact MErrs.foldlM h s

/-- All errors of `p` satisfy `E`. -/
abbrev Act.Errs (E : Err → Prop) (p : Act α R) : Prop := p.All (fun _ => True) E

theorem Act.Errs.pure {E} {r : R} : (Pure.pure r : Act α R).Errs E := trivial

theorem Act.Errs.bind {E} {p : Act α R} {f : R → Act α S} (hp : p.Errs E)
    (hf : ∀ r, (f r).Errs E) : (p >>= f).Errs E := Act.All.bind hp fun r _ => hf r

theorem Act.Errs.ofM {E} {x : M R} (h : MErrs E x) : (Act.ofM x : Act α R).Errs E :=
  Act.All.ofM (fun _ _ => trivial) h

theorem Act.Errs.ite {E} {c : Prop} [Decidable c] {x y : Act α R} (hx : x.Errs E) (hy : y.Errs E) :
    (if c then x else y).Errs E := by split <;> assumption

theorem Act.Errs.read {E : Err → Prop} (h : E .oob) (n i : Nat) : (Act.read n i : Act α α).Errs E := by
  unfold Act.read
  split
  · exact fun _ => trivial
  · exact h

theorem Act.Errs.write {E : Err → Prop} (h : E .oob) (n i : Nat) (v : α) :
    (Act.write n i v).Errs E := by
  unfold Act.write
  split
  · exact trivial
  · exact h

theorem Act.Errs.forStep {E} {lo hi st : Nat} (hst : 0 < st) {body : Nat → S → Act α S}
    (h : ∀ i s, (body i s).Errs E) (s : S) : (forStep lo hi st s body).Errs E := by
  rw [forStep_eq hst]
  exact Act.All.foldlM (fun i _ s _ => h i s) trivial

theorem Act.NoRet.forStep {lo hi st : Nat} (hst : 0 < st) {body : Nat → S → Act α S} {i0 : Nat}
    (hm : i0 ∈ steps lo hi st) (h : ∀ s, (body i0 s).NoRet) (s : S) :
    (Verif.forStep lo hi st s body).NoRet := by
  rw [forStep_eq hst]
  exact Act.NoRet.foldlM hm h s

theorem Act.NoRet.ofM {x : M R} (h : ∀ r, x ≠ .ok r) : (Act.ofM x : Act α R).NoRet :=
  Act.All.ofM (fun r hr => h r hr) fun _ _ => trivial

/-- All outcomes of `x` satisfy `P` or are errors satisfying `E`. -/
def ND.All (P : R → Prop) (E : Err → Prop) (x : ND R) : Prop :=
  ∀ o, x o → (∃ r, P r ∧ o = .ok r) ∨ ∃ e, E e ∧ o = .error e

theorem ND.All.bind {P : R → Prop} {Q : S → Prop} {E} {x : ND R} {f : R → ND S} (hx : x.All P E)
    (hf : ∀ r, P r → (f r).All Q E) : (x >>= f).All Q E := by
  rintro o (⟨e, he, rfl⟩ | ⟨r, hr, ho⟩)
  · rcases hx _ he with ⟨r, _, h⟩ | ⟨e', h, h'⟩
    · cases h
    · cases h'; exact .inr ⟨_, h, rfl⟩
  · rcases hx _ hr with ⟨r', h, h'⟩ | ⟨e', h, h'⟩
    · cases h'; exact hf r h o ho
    · cases h'

theorem ND.All.pure {P : R → Prop} {E} {r : R} (h : P r) : (ND.pure r).All P E :=
  fun _ ho => .inl ⟨r, h, ho⟩

theorem ND.All.ofM {P : R → Prop} {E : Err → Prop} {x : M R} (hx : ∀ r, x = .ok r → P r)
    (he : MErrs E x) : (ND.ofM x).All P E := by
  intro o ho
  have ho : o = x := ho
  cases x with
  | ok r => exact .inl ⟨r, hx r rfl, ho⟩
  | error e => exact .inr ⟨e, he e rfl, ho⟩

theorem ND.All.runOn [Arith α] {E} {a : Array α} {t : Tree α} (h : t.Errs E) :
    (ND.runOn a t).All (fun _ => True) E := by
  intro o ho
  cases o with
  | ok r => exact .inl ⟨r, trivial, rfl⟩
  | error e => exact .inr ⟨e, runOn_error h ho, rfl⟩

theorem ND.All.runOn_stuck [Arith α] {E} {a : Array α} {t : Tree α} (h : t.Errs E) (hs : t.Stuck) :
    (ND.runOn a t).All (fun _ => False) E := by
  intro o ho
  cases o with
  | ok r => exact absurd ho (Verif.runOn_stuck hs)
  | error e => exact .inr ⟨e, runOn_error h ho, rfl⟩

/-- Nondeterministic programs have an outcome. -/
def ND.Total (x : ND R) : Prop := ∃ o, x o

theorem ND.Total.bind {x : ND R} {f : R → ND S} (hx : x.Total) (hf : ∀ r, (f r).Total) :
    (x >>= f).Total := by
  obtain ⟨o, ho⟩ := hx
  cases o with
  | error e => exact ⟨.error e, .inl ⟨e, ho, rfl⟩⟩
  | ok r =>
    obtain ⟨o', ho'⟩ := hf r
    exact ⟨o', .inr ⟨r, ho, ho'⟩⟩

theorem ND.Total.ofM (x : M R) : (ND.ofM x).Total := ⟨x, rfl⟩
theorem ND.Total.runOn [Arith α] (a : Array α) (t : Tree α) : (ND.runOn a t).Total := runOn_exists a t
theorem ND.Total.pure (r : R) : (ND.pure r).Total := ⟨_, rfl⟩

theorem ND.Total.foldlM {l : List ι} {f : S → ι → ND S} (h : ∀ s i, (f s i).Total) (s : S) :
    (l.foldlM f s).Total := by
  induction l generalizing s with
  | nil => exact ⟨_, rfl⟩
  | cons i l ih =>
    rw [List.foldlM_cons]
    exact (h s i).bind fun r => ih r

end Verif
