import Verif.Core.Mat
/-
Invariants of a task running alone, also across errors.
-/
namespace Verif
variable {α R S ι : Type}

theorem Act.exec_bind (p : Act α R) (f : R → Act α S) (m : Mem α) :
    (p >>= f).exec m = match p.exec m with
      | (.ok r, m') => (f r).exec m'
      | (.error e, m') => (.error e, m') := by
  show (Act.bind p f).exec m = _
  induction p generalizing m with
  | ret r => rfl
  | fail e => rfl
  | rd i k ih => exact ih _ m
  | wr i v k ih => exact ih _
  | rdFlag j k ih => exact ih _ m
  | wrFlag j b k ih => exact ih _

theorem Act.exec_tryCatch (p : Act α R) (h : Err → Act α R) (m : Mem α) :
    (p.tryCatch h).exec m = match p.exec m with
      | (.ok r, m') => (.ok r, m')
      | (.error e, m') => (h e).exec m' := by
  induction p generalizing m with
  | ret r => rfl
  | fail e => rfl
  | rd i k ih => exact ih _ m
  | wr i v k ih => exact ih _
  | rdFlag j k ih => exact ih _ m
  | wrFlag j b k ih => exact ih _

/-- Running `p` alone keeps the invariant `I` of the cells, also if it ends in an error;
results satisfy `P`, errors satisfy `E`. -/
def Act.Keeps (I : (Nat → α) → Prop) (P : R → Prop) (E : Err → Prop) (p : Act α R) : Prop :=
  ∀ m : Mem α, I m.cell → I (p.exec m).2.cell ∧
    (∀ r, (p.exec m).1 = .ok r → P r) ∧ (∀ e, (p.exec m).1 = .error e → E e)

theorem Act.Keeps.pure {I : (Nat → α) → Prop} {P : R → Prop} {E r} (h : P r) :
    Act.Keeps I P E (Pure.pure r) :=
  fun _ hm => ⟨hm, fun _ hr => by cases hr; exact h, fun _ he => by cases he⟩

theorem Act.Keeps.bind {I : (Nat → α) → Prop} {P : R → Prop} {Q : S → Prop} {E}
    {p : Act α R} {f : R → Act α S} (hp : p.Keeps I P E) (hf : ∀ r, P r → (f r).Keeps I Q E) :
    (p >>= f).Keeps I Q E := by
  intro m hm
  have h := hp m hm
  rw [Act.exec_bind]
  generalize p.exec m = x at h
  obtain ⟨x1, x2⟩ := x
  cases x1 with
  | ok r => exact hf r (h.2.1 r rfl) x2 h.1
  | error e => exact ⟨h.1, fun _ hr => (by cases hr), fun e' he => by cases he; exact h.2.2 e rfl⟩

theorem Act.Keeps.ofM {I : (Nat → α) → Prop} {P : R → Prop} {E : Err → Prop} {x : M R}
    (h1 : ∀ r, x = .ok r → P r) (h2 : ∀ e, x = .error e → E e) : (Act.ofM x).Keeps I P E := by
  intro m hm
  cases x with
  | ok r => exact ⟨hm, fun _ hr => by cases hr; exact h1 r rfl, fun _ he => by cases he⟩
  | error e => exact ⟨hm, fun _ hr => by (cases hr), fun _ he => by cases he; exact h2 e rfl⟩

theorem Act.Keeps.foldlM {I : (Nat → α) → Prop} {P : S → Prop} {E} {l : List ι}
    {f : S → ι → Act α S} (h : ∀ i ∈ l, ∀ s, P s → (f s i).Keeps I P E) {s : S} (hs : P s) :
    (l.foldlM f s).Keeps I P E := by
  induction l generalizing s with
  | nil => exact Act.Keeps.pure hs
  | cons i l ih =>
    rw [List.foldlM_cons]
    exact (h i (by simp) s hs).bind fun r hr => ih (fun j hj => h j (by simp [hj])) hr

theorem Act.Keeps.writeAt {I : (Nat → α) → Prop} {n i : Nat} {v : α}
    (h : i < n → ∀ c, I c → I (fun j => if j = i then v else c j)) :
    (Act.writeAt n i v).Keeps I (fun _ => True) (fun e => e = .outOfRange) := by
  intro m hm
  unfold Act.writeAt
  split
  · rename_i hi
    exact ⟨h hi _ hm, fun _ _ => trivial, fun _ he => by cases he⟩
  · exact ⟨hm, fun _ _ => trivial, fun _ he => by cases he; rfl⟩

theorem Act.Keeps.catchOutOfRange {I : (Nat → α) → Prop} {p : Act α Unit} {P}
    (h : p.Keeps I P (fun e => e = .outOfRange)) :
    p.catchOutOfRange.Keeps I (fun _ => True) (fun _ => False) := by
  intro m hm
  have h := h m hm
  unfold Act.catchOutOfRange
  rw [Act.exec_tryCatch]
  generalize p.exec m = x at h
  obtain ⟨x1, x2⟩ := x
  cases x1 with
  | ok r => exact ⟨h.1, fun _ _ => trivial, fun _ he => by cases he⟩
  | error e =>
    have : e = .outOfRange := h.2.2 e rfl
    subst this
    exact ⟨h.1, fun _ _ => trivial, fun _ he => by cases he⟩

/-- A task that never returns and only raises `e0`, run alone, raises `e0`. -/
theorem Act.All.execOn_error [Arith α] {p : Act α R} {E : Err → Prop}
    (h : p.All (fun _ => False) E) (a : Array α) : ∃ e, E e ∧ p.execOn a = .error e := by
  have key : ∀ m, ∃ e, E e ∧ (p.exec m).1 = .error e := by
    induction p with
    | ret r => exact h.elim
    | fail e => exact fun m => ⟨e, h, rfl⟩
    | rd i k ih => exact fun m => ih _ (h _) m
    | wr i v k ih => exact fun m => ih h _
    | rdFlag j k ih => exact fun m => ih _ (h _) m
    | wrFlag j b k ih => exact fun m => ih h _
  obtain ⟨e, he, h1⟩ := key (Mem.ofArray a)
  refine ⟨e, he, ?_⟩
  unfold Act.execOn
  generalize p.exec (Mem.ofArray a) = x at h1
  obtain ⟨x1, x2⟩ := x
  simp only at h1
  subst h1
  rfl

theorem Act.All.and {P P' : R → Prop} {E E' : Err → Prop} {p : Act α R} (h : p.All P E)
    (h' : p.All P' E') : p.All (fun r => P r ∧ P' r) (fun e => E e ∧ E' e) := by
  induction p with
  | ret r => exact ⟨h, h'⟩
  | fail e => exact ⟨h, h'⟩
  | rd i k ih => exact fun v => ih v (h v) (h' v)
  | wr i v k ih => exact ih h h'
  | rdFlag j k ih => exact fun b => ih b (h b) (h' b)
  | wrFlag j b k ih => exact ih h h'

/-- A loop that gets stuck in iteration `i0`, given an invariant of its local state. -/
theorem Act.All.foldlM_stuck {P : S → Prop} {E : Err → Prop} {l : List ι} {f : S → ι → Act α S}
    {i0 : ι} (hi : i0 ∈ l) (h : ∀ i ∈ l, ∀ s, P s → (f s i).All P E)
    (h0 : ∀ s, P s → (f s i0).All (fun _ => False) E) {s : S} (hs : P s) :
    (l.foldlM f s).All (fun _ => False) E := by
  induction l generalizing s with
  | nil => cases hi
  | cons i l ih =>
    rw [List.foldlM_cons]
    rcases List.mem_cons.1 hi with rfl | hi
    · exact (h0 s hs).bind fun _ h => h.elim
    · exact (h i (by simp) s hs).bind fun r hr => ih hi (fun j hj => h j (by simp [hj])) hr

theorem foldlM_err {l : List ι} {f : S → ι → M S} {P : S → Prop} {E : Err → Prop}
    (h : ∀ i ∈ l, ∀ s, P s → (∀ s', f s i = .ok s' → P s') ∧ (∀ e, f s i = .error e → E e))
    {s : S} (hs : P s) :
    (∀ s', l.foldlM f s = .ok s' → P s') ∧ (∀ e, l.foldlM f s = .error e → E e) := by
  induction l generalizing s with
  | nil => exact ⟨fun _ h => by cases h; exact hs, fun _ h => by cases h⟩
  | cons i l ih =>
    rw [List.foldlM_cons]
    have h1 := h i (by simp) s hs
    cases hx : f s i with
    | ok s1 => exact ih (fun j hj => h j (by simp [hj])) (h1.1 s1 hx)
    | error e => exact ⟨fun _ h => (by cases h), fun e' he => by cases he; exact h1.2 e hx⟩

end Verif
