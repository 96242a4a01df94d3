import Verif.Model.Util
import Verif.Proof.Tiled
import Verif.Core.Errs
/-
Helper lemmas about src/util.
-/
set_option linter.unusedSectionVars false
namespace Verif.Util
open Tiled
variable {α : Type}

theorem fillRect_ok [Arith α] {R C : Nat} {body : Nat → Nat → Array α → M (Array α)}
    {f : Nat → Nat → α}
    (hb : ∀ i, i < R → ∀ j, j < C → MDoes (body i j) [(i * C + j, fun _ => f i j)]) :
    (forStep 0 R 1 (zeros (R * C)) fun i a => forStep 0 C 1 a fun j a => body i j a) =
      .ok (rect R C f) := by
  have hd := nest2_does hb (zeros (R * C)) (fun u hu => by
    obtain ⟨i, hi, j, hj, hu⟩ := mem_nest2.1 hu
    rw [List.mem_singleton] at hu
    subst hu
    rw [zeros_size]
    exact idx_lt hi hj)
  refine hd.trans (congrArg Except.ok ?_)
  refine applyA_rect (by simp) (zeros_holds R C) fun i hi j hj => ?_
  rw [nest2_cell hi hj]
  · simp
  · intro i' hi' j' hj' u hu he
    rw [List.mem_singleton] at hu
    subst hu
    exact idx_inj hj' hj he

theorem transpose_ok [Arith α] {so sr : Nat} {org : Array α} {f : Nat → Nat → α}
    (h : Holds org sr so f) : transpose_rect so sr org = .ok (rect so sr (tr f)) :=
  fillRect_ok fun _ hi _ hj => MDoes.read (h.rd hj hi) MDoes.wr

theorem vec_holds [Arith α] {v : Array α} {m n : Nat} (h : m * n ≤ v.size) :
    Holds v m n fun i j => v.getD (i * n + j) Arith.zero := by
  intro i hi j hj
  have : i * n + j < v.size := Nat.lt_of_lt_of_le (idx_lt hi hj) h
  simp [this]

/-- A loop that never writes a vector out of bounds but reads one: only `oob` is possible. -/
theorem transpose_short [Arith α] {so sr : Nat} {org : Array α} (h : org.size < sr * so) :
    transpose_rect so sr org = .error .oob := by
  have he : MErrs (· = .oob) (transpose_rect so sr org) :=
    by
      unfold transpose_rect
      refine MErrs.forStep Nat.one_pos (fun i s => ?_) _
      refine MErrs.forStep Nat.one_pos (fun j s => ?_) _
      exact .bind (.rd (by rfl) _ _) fun x => .wr (by rfl) _ _ _
  have hn : ∀ r, transpose_rect so sr org ≠ .ok r := by
    have h1 : 0 < so := Nat.pos_of_ne_zero fun h0 => by rw [h0] at h; omega
    have h2 : 0 < sr := Nat.pos_of_ne_zero fun h0 => by rw [h0] at h; omega
    unfold transpose_rect
    intro r
    rw [forStep_eq (by decide), steps_one]
    refine foldlM_not_ok (i0 := so - 1) (List.mem_range.2 (by omega)) (fun s s' => ?_) _ _
    rw [forStep_eq (by decide), steps_one]
    refine foldlM_not_ok (i0 := sr - 1) (List.mem_range.2 (by omega)) (fun t t' => ?_) _ _
    have : (sr - 1) * so + so = sr * so := by rw [← Nat.succ_mul]; congr 1; omega
    rw [rd_oob (by omega)]
    nofun
  cases hr : transpose_rect so sr org with
  | ok r => exact absurd hr (hn r)
  | error e => rw [he e hr]

/-! ### printing -/

theorem identity_ok [Arith α] (one : α) (N : Nat) : create_identity_matrix one N =
    .ok (rowMajor N fun i j => if i = j then one else Arith.zero) := by
  have hd : MDoes (fun a => forStep 0 N 1 a fun i m => wr m (i * N + i) one)
      ((steps 0 N 1).flatMap fun i => [(i * N + i, fun _ => one)]) :=
    MDoes.forStep (by decide) fun i _ => MDoes.wr
  have := hd (zeros (N * N)) (fun u hu => by
    obtain ⟨i, hi, hu⟩ := List.mem_flatMap.1 hu
    rw [List.mem_singleton] at hu
    subst hu
    rw [steps_one, List.mem_range] at hi
    rw [zeros_size]
    exact idx_lt hi hi)
  refine this.trans (congrArg Except.ok ?_)
  refine applyA_rect (by simp) (zeros_holds N N) fun i hi j hj => ?_
  split
  · next h =>
    subst h
    rw [steps_one, cellFold_flatMap_unique List.nodup_range (i0 := i) (List.mem_range.2 hi)]
    · simp
    · intro k hk hne u hu he
      rw [List.mem_singleton] at hu
      subst hu
      exact hne (idx_inj (List.mem_range.1 hk) hi he).1
  · next h =>
    refine cellFold_none fun u hu he => h ?_
    obtain ⟨k, hk, hu⟩ := List.mem_flatMap.1 hu
    rw [List.mem_singleton] at hu
    subst hu
    rw [steps_one, List.mem_range] at hk
    obtain ⟨h1, h2⟩ := idx_inj hk hj he
    omega

theorem generate_ok [Arith α] (g : Nat → α) (n : Nat) :
    (forStep 0 n 1 (zeros n) fun i m => wr m i (g i)) = .ok (Array.ofFn (n := n) fun i => g i) := by
  have hd : MDoes (fun a => forStep 0 n 1 a fun i m => wr m i (g i))
      ((steps 0 n 1).flatMap fun i => [(i, fun _ => g i)]) :=
    MDoes.forStep (by decide) fun i _ => MDoes.wr
  have := hd (zeros n) (fun u hu => by
    obtain ⟨i, hi, hu⟩ := List.mem_flatMap.1 hu
    rw [List.mem_singleton] at hu
    subst hu
    rw [steps_one, List.mem_range] at hi
    rw [zeros_size]
    exact hi)
  refine this.trans (congrArg Except.ok ?_)
  apply Array.ext_getElem?
  intro p
  rw [applyA_get]
  by_cases hp : p < n
  · rw [show (zeros n : Array α)[p]? = some Arith.zero by simp [zeros, hp], Option.map_some,
      steps_one, cellFold_flatMap_unique List.nodup_range (i0 := p) (List.mem_range.2 hp)]
    · simp [hp]
    · intro k hk hne u hu he
      rw [List.mem_singleton] at hu
      subst hu
      exact hne he
  · rw [Array.getElem?_eq_none (by simp; omega), Array.getElem?_eq_none (by simp; omega)]
    rfl

/-- `p` completes and prints `out`. -/
def Emits (p : Print α Unit) (out : List (Tok α)) : Prop :=
  ∀ s, p.run.run s = (.ok (), s ++ out)

/-- `p` raises `e`. -/
def Raises (p : Print α Unit) (e : Err) : Prop := ∀ s, (p.run.run s).1 = .error e

theorem Emits.pure : Emits (Pure.pure () : Print α Unit) [] := by
  intro s; simp; rfl

theorem Emits.emit (t : Tok α) : Emits (emit t) [t] := fun _ => rfl

theorem Emits.bind {p : Print α Unit} {q : Unit → Print α Unit} {o o' : List (Tok α)}
    (hp : Emits p o) (hq : Emits (q ()) o') : Emits (p >>= q) (o ++ o') := by
  intro s
  have h1 := hp s
  have h2 := hq (s ++ o)
  simp only [ExceptT.run_bind, StateT.run_bind]
  rw [h1, ← List.append_assoc]
  exact h2

theorem Emits.sepIf (j : Nat) : Emits (sepIf j : Print α Unit) (if j > 0 then [.sep] else []) := by
  unfold Util.sepIf
  split
  · exact .emit _
  · exact .pure

theorem Emits.at {m : Array α} {p : Nat} {x : α} (h : m[p]? = some x) {f : α → Print α Unit} {o}
    (hf : Emits (f x) o) : Emits (MonadExcept.ofExcept (rdAt m p) >>= f) o := by
  rw [rdAt_ok h]
  exact hf

theorem Emits.forStep {n : Nat} {body : Nat → Unit → Print α Unit} {o : Nat → List (Tok α)}
    (h : ∀ i, i < n → Emits (body i ()) (o i)) :
    Emits (Verif.forStep 0 n 1 () body) ((List.range n).flatMap o) := by
  rw [forStep_eq (by decide), steps_one]
  have : ∀ l : List Nat, (∀ i ∈ l, i < n) →
      Emits (l.foldlM (fun s i => body i s) ()) (l.flatMap o) := by
    intro l
    induction l with
    | nil => exact fun _ => .pure
    | cons i l ih =>
      intro hl
      rw [List.foldlM_cons, List.flatMap_cons]
      exact (h i (hl i (by simp))).bind (ih fun j hj => hl j (by simp [hj]))
  exact this _ fun i hi => List.mem_range.1 hi

theorem Raises.bind_left {p : Print α Unit} {q : Unit → Print α Unit} {e} (hp : Raises p e) :
    Raises (p >>= q) e := by
  intro s
  have h1 := hp s
  simp only [ExceptT.run_bind, StateT.run_bind]
  generalize p.run.run s = r at h1
  obtain ⟨r1, r2⟩ := r
  subst h1
  rfl

theorem Raises.bind_right {p : Print α Unit} {q : Unit → Print α Unit} {e o} (hp : Emits p o)
    (hq : Raises (q ()) e) : Raises (p >>= q) e := by
  intro s
  have h1 := hp s
  have h2 := hq (s ++ o)
  simp only [ExceptT.run_bind, StateT.run_bind]
  rw [h1]
  exact h2

/-- Either outcome, as long as an exception is `e`. -/
def EmitsOr (p : Print α Unit) (e : Err) : Prop := (∃ o, Emits p o) ∨ Raises p e

theorem Raises.foldlM {l : List Nat} {body : Nat → Unit → Print α Unit} {e i0}
    (h : ∀ i ∈ l, EmitsOr (body i ()) e) (hi : i0 ∈ l) (h0 : Raises (body i0 ()) e) :
    Raises (l.foldlM (fun s i => body i s) ()) e := by
  induction l with
  | nil => cases hi
  | cons i l ih =>
    rw [List.foldlM_cons]
    rcases h i (by simp) with ⟨o, ho⟩ | hr
    · rcases List.mem_cons.1 hi with rfl | hi
      · exact h0.bind_left
      · exact .bind_right ho (ih (fun j hj => h j (by simp [hj])) hi)
    · exact hr.bind_left

theorem EmitsOr.foldlM {l : List Nat} {body : Nat → Unit → Print α Unit} {e}
    (h : ∀ i ∈ l, EmitsOr (body i ()) e) : EmitsOr (l.foldlM (fun s i => body i s) ()) e := by
  induction l with
  | nil => exact .inl ⟨_, .pure⟩
  | cons i l ih =>
    rw [List.foldlM_cons]
    rcases h i (by simp) with ⟨o, ho⟩ | hr
    · rcases ih (fun j hj => h j (by simp [hj])) with ⟨o', ho'⟩ | hr'
      · exact .inl ⟨_, ho.bind ho'⟩
      · exact .inr (.bind_right ho hr')
    · exact .inr hr.bind_left

theorem EmitsOr.bind {p : Print α Unit} {q : Unit → Print α Unit} {e} (hp : EmitsOr p e)
    (hq : EmitsOr (q ()) e) : EmitsOr (p >>= q) e := by
  rcases hp with ⟨o, ho⟩ | hr
  · rcases hq with ⟨o', ho'⟩ | hr'
    · exact .inl ⟨_, ho.bind ho'⟩
    · exact .inr (.bind_right ho hr')
  · exact .inr hr.bind_left

theorem intersperse_concat (s : Tok α) (l : List (Tok α)) (x : Tok α) :
    (l ++ [x]).intersperse s = l.intersperse s ++ (if l = [] then [] else [s]) ++ [x] := by
  induction l with
  | nil => rfl
  | cons a l ih =>
    cases l with
    | nil => rfl
    | cons b l =>
      have : (a :: b :: l) ++ [x] = a :: b :: (l ++ [x]) := rfl
      rw [this, List.intersperse_cons_cons, List.intersperse_cons_cons]
      have e : b :: (l ++ [x]) = (b :: l) ++ [x] := rfl
      rw [e, ih]
      simp

theorem row_text (n : Nat) (f : Nat → Tok α) :
    (List.range n).flatMap (fun j => (if j > 0 then [.sep] else []) ++ [f j]) =
      ((List.range n).map f).intersperse .sep := by
  induction n with
  | zero => rfl
  | succ n ih =>
    rw [List.range_succ, List.flatMap_append, ih, List.map_append]
    simp only [List.map_cons, List.map_nil, List.flatMap_cons, List.flatMap_nil, List.append_nil]
    rw [intersperse_concat, List.append_assoc]
    rcases Nat.eq_zero_or_pos n with rfl | hn
    · rfl
    · rw [if_pos hn, if_neg]
      rw [List.map_eq_nil_iff, List.range_eq_nil]
      omega

end Verif.Util
