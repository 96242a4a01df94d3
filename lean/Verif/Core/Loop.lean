import Verif.Core.Act
/-
Lemmas about `for` loops: the list of values of the loop variable, loops as folds.
-/
namespace Verif
variable {α σ : Type}

theorem lt_ceilDiv {t n d : Nat} (hd : 0 < d) : t < ceilDiv n d ↔ t * d < n := by
  unfold ceilDiv
  rw [Nat.lt_iff_add_one_le, Nat.le_div_iff_mul_le hd, Nat.add_mul]
  omega

theorem mem_steps {lo hi st x : Nat} (h : 0 < st) :
    x ∈ steps lo hi st ↔ ∃ t, x = lo + t * st ∧ x < hi := by
  simp only [steps, List.mem_map, List.mem_range, lt_ceilDiv h]
  constructor
  · rintro ⟨t, ht, rfl⟩; exact ⟨t, rfl, by omega⟩
  · rintro ⟨t, rfl, ht⟩; exact ⟨t, by omega, rfl⟩

theorem steps_nodup {lo hi st : Nat} (h : 0 < st) : (steps lo hi st).Nodup := by
  unfold steps
  rw [List.Nodup, List.pairwise_map]
  refine List.nodup_range.imp fun {a b} hab he => hab ?_
  exact Nat.eq_of_mul_eq_mul_right h (by omega)

theorem steps_one (n : Nat) : steps 0 n 1 = List.range n := by
  simp [steps, ceilDiv]

theorem ceilDiv_mul (n b : Nat) (h : 0 < b) : ceilDiv (n * b) b = n := by
  unfold ceilDiv
  rw [show n * b + b - 1 = (b - 1) + b * n by rw [Nat.mul_comm n b]; omega,
    Nat.add_mul_div_left _ _ h, Nat.div_eq_of_lt (by omega)]
  omega

theorem steps_mul (n b : Nat) (h : 0 < b) : steps 0 (n * b) b = (List.range n).map (· * b) := by
  simp [steps, ceilDiv_mul n b h]

theorem steps_of_ge {lo hi st : Nat} (h : hi ≤ lo) : steps lo hi st = [] := by
  have : hi - lo = 0 := by omega
  rcases Nat.eq_zero_or_pos st with rfl | hs
  · simp [steps, ceilDiv]
  · have : ceilDiv 0 st = 0 := Nat.div_eq_of_lt (by omega)
    simp [steps, *]

theorem steps_cons {lo hi st : Nat} (h : lo < hi) (hs : 0 < st) :
    steps lo hi st = lo :: steps (lo + st) hi st := by
  have : ceilDiv (hi - lo) st = ceilDiv (hi - (lo + st)) st + 1 := by
    unfold ceilDiv
    rcases Nat.lt_or_ge (hi - lo) st with h1 | h1
    · rw [show hi - (lo + st) = 0 by omega, Nat.div_eq_of_lt (a := 0 + st - 1) (by omega)]
      rw [show hi - lo + st - 1 = (hi - lo - 1) + st by omega, Nat.add_div_right _ hs,
        Nat.div_eq_of_lt (by omega)]
    · rw [show hi - lo + st - 1 = (hi - (lo + st) + st - 1) + st by omega,
        Nat.add_div_right _ hs]
  simp only [steps, this, List.range_succ_eq_map, List.map_cons, List.map_map]
  congr 1
  · omega
  · apply List.map_congr_left
    intro t _
    simp [Nat.add_mul]; omega

/-- Blocks of `b` consecutive numbers starting at the multiples of `b`. -/
theorem steps_flatMap (n b : Nat) (h : 0 < b) :
    (steps 0 (n * b) b).flatMap (fun x => (List.range b).map (x + ·)) = List.range (n * b) := by
  rw [steps_mul n b h, List.flatMap_map]
  induction n with
  | zero => simp
  | succ n ih =>
    rw [List.range_succ, List.flatMap_append, ih, Nat.add_mul, Nat.one_mul, List.range_add]
    simp

section
variable {m : Type → Type} [Monad m] [MonadExceptOf Err m]

theorem forGo_eq {hi st : Nat} (h : 0 < st) (body : Nat → σ → m σ) :
    ∀ fuel cur (s : σ), hi - cur ≤ fuel →
      forGo hi st body fuel cur s = (steps cur hi st).foldlM (fun s i => body i s) s := by
  intro fuel
  induction fuel with
  | zero =>
    intro cur s hf
    rw [steps_of_ge (by omega)]
    simp [forGo]; omega
  | succ fuel ih =>
    intro cur s hf
    rcases Nat.lt_or_ge cur hi with hlt | hge
    · rw [steps_cons hlt h]
      simp only [forGo, hlt, if_true, List.foldlM_cons]
      congr; funext s'
      exact ih _ _ (by omega)
    · rw [steps_of_ge hge]
      simp [forGo]; omega

theorem forStep_eq {lo hi st : Nat} (h : 0 < st) (s : σ) (body : Nat → σ → m σ) :
    forStep lo hi st s body = (steps lo hi st).foldlM (fun s i => body i s) s :=
  forGo_eq h body _ _ _ (Nat.le_refl _)

theorem forStep_nil {lo hi st : Nat} (h : hi ≤ lo) (s : σ) (body : Nat → σ → m σ) :
    forStep lo hi st s body = pure s := by
  unfold forStep
  rw [show hi - lo = 0 by omega]
  simp [forGo]; omega
end

/-- A loop with step 0 never ends normally, whatever the number of iterations one is
willing to wait. -/
theorem forGo_zero {lo hi fuel : Nat} (h : lo < hi) (body : Nat → σ → M σ) (s s' : σ) :
    forGo hi 0 body fuel lo s ≠ Except.ok s' := by
  induction fuel generalizing s with
  | zero => simp [forGo, h]
  | succ n ih =>
    simp only [forGo, h, if_true]
    cases body lo s with
    | error e => nofun
    | ok t => exact ih t

theorem forStep_zero {lo hi : Nat} (h : lo < hi) (s s' : σ) (body : Nat → σ → M σ) :
    forStep lo hi 0 s body ≠ Except.ok s' := forGo_zero h body s s'

theorem foldlM_ok {ι : Type} {l : List ι} {f : σ → ι → M σ} {g : σ → ι → σ} {P : σ → Prop}
    (hg : ∀ i ∈ l, ∀ s, P s → f s i = .ok (g s i) ∧ P (g s i)) {s : σ} (hs : P s) :
    l.foldlM f s = .ok (l.foldl g s) ∧ P (l.foldl g s) := by
  induction l generalizing s with
  | nil => exact ⟨rfl, hs⟩
  | cons i l ih =>
    have h1 := hg i (by simp) s hs
    have h2 := ih (fun j hj => hg j (by simp [hj])) h1.2
    refine ⟨?_, h2.2⟩
    rw [List.foldlM_cons, h1.1]
    exact h2.1

/-- A loop whose body always succeeds is a fold. -/
theorem forStep_ok {lo hi st : Nat} (h : 0 < st) {body : Nat → σ → M σ} {g : σ → Nat → σ}
    (hg : ∀ i ∈ steps lo hi st, ∀ s, body i s = .ok (g s i)) (s : σ) :
    forStep lo hi st s body = .ok ((steps lo hi st).foldl g s) := by
  rw [forStep_eq h]
  exact (foldlM_ok (P := fun _ => True) (fun i hi s _ => ⟨hg i hi s, trivial⟩) trivial).1

/-- The same with an invariant of the loop-carried state. -/
theorem forStep_ok_inv {lo hi st : Nat} (h : 0 < st) {body : Nat → σ → M σ} {g : σ → Nat → σ}
    (P : σ → Prop)
    (hg : ∀ i ∈ steps lo hi st, ∀ s, P s → body i s = .ok (g s i) ∧ P (g s i)) {s : σ}
    (hs : P s) :
    forStep lo hi st s body = .ok ((steps lo hi st).foldl g s) ∧
      P ((steps lo hi st).foldl g s) := by
  rw [forStep_eq h]
  exact foldlM_ok hg hs

/-- If the body reports an error in the iteration `i0` whatever happened before, the loop
does not succeed. -/
theorem foldlM_not_ok {ι : Type} {l : List ι} {f : σ → ι → M σ} {i0 : ι} (hi : i0 ∈ l)
    (he : ∀ s s', f s i0 ≠ .ok s') (s s' : σ) : l.foldlM f s ≠ .ok s' := by
  induction l generalizing s with
  | nil => cases hi
  | cons i l ih =>
    rw [List.foldlM_cons]
    cases h : f s i with
    | error e => nofun
    | ok t =>
      rcases List.mem_cons.1 hi with rfl | hi
      · exact absurd h (he _ _)
      · exact ih hi t

@[simp] theorem M_bind_ok {a : σ} {f : σ → M α} : (Except.ok a >>= f) = f a := rfl
@[simp] theorem M_bind_error {e : Err} {f : σ → M α} :
    ((Except.error e : M σ) >>= f) = Except.error e := rfl
@[simp] theorem M_pure {a : σ} : (pure a : M σ) = Except.ok a := rfl
@[simp] theorem M_throw {e : Err} : (throw e : M σ) = Except.error e := rfl

end Verif
