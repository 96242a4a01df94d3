import Verif.Proof.ScheduleDrop
import Verif.Proof.Async
import Verif.Core.Errs
/-
Failing executions of the recursive multiplication with all tasks in flight.
-/
set_option linter.unusedSectionVars false
namespace Verif
open Verif.Kernel Verif.Recursive Verif.StaticImproved
variable {α R S ι : Type}

/-! ### Tasks whose outcome does not depend on the values they read -/

/-- Every path of the task ends with `o`, whatever values it reads. -/
abbrev Act.Ends (p : Act α R) (o : M R) : Prop := p.All (fun r => o = .ok r) (fun e => o = .error e)

/-- All paths of the task end alike. -/
def Act.Uniform (p : Act α R) : Prop := ∃ o, p.Ends o

theorem Act.Uniform.pure (r : R) : (Pure.pure r : Act α R).Uniform :=
  ⟨.ok r, (rfl : Except.ok r = Except.ok r)⟩

theorem Act.Uniform.bind {p : Act α R} {f : R → Act α S} (hp : p.Uniform)
    (hf : ∀ r, (f r).Uniform) : (p >>= f).Uniform := by
  obtain ⟨o, ho⟩ := hp
  cases o with
  | error e =>
    exact ⟨.error e, Act.All.bind (P' := fun _ => False)
      (ho.mono (fun r h => by cases h) fun e' h => by cases h; rfl) fun r h => h.elim⟩
  | ok r0 =>
    obtain ⟨o, ho'⟩ := hf r0
    exact ⟨o, Act.All.bind (P' := fun r => r = r0)
      (ho.mono (fun r h => by cases h; rfl) fun e' h => by cases h) fun r h => by rw [h]; exact ho'⟩

theorem Act.Uniform.ofM (x : M R) : (Act.ofM x : Act α R).Uniform :=
  ⟨x, Act.All.ofM (fun _ h => h) fun _ h => h⟩

theorem Act.Uniform.write (n i : Nat) (v : α) : (Act.write n i v).Uniform := by
  unfold Act.write
  split
  · exact ⟨.ok (), (rfl : Except.ok () = Except.ok ())⟩
  · exact ⟨.error .oob, (rfl : (Except.error Err.oob : M Unit) = _)⟩

theorem Act.Uniform.writeAt (n i : Nat) (v : α) : (Act.writeAt n i v).Uniform := by
  unfold Act.writeAt
  split
  · exact ⟨.ok (), (rfl : Except.ok () = Except.ok ())⟩
  · exact ⟨.error .outOfRange, (rfl : (Except.error Err.outOfRange : M Unit) = _)⟩

/-- The outcome after the handler of `catchOutOfRange`. -/
def caught : M Unit → M Unit
  | .ok r => .ok r
  | .error e => if e = .outOfRange then .ok () else .error e

theorem Act.Uniform.catchOutOfRange {p : Act α Unit} (h : p.Uniform) :
    p.catchOutOfRange.Uniform := by
  obtain ⟨o, ho⟩ := h
  refine ⟨caught o, ?_⟩
  unfold Act.catchOutOfRange
  induction p with
  | ret r => cases ho; exact (rfl : caught (.ok r) = _)
  | fail e =>
    cases ho
    show Act.All _ _ (if e = .outOfRange then _ else _)
    unfold caught
    by_cases h : e = .outOfRange <;> simp [Act.All, h]
  | rd i k ih => exact fun v => ih v (ho v)
  | wr i v k ih => exact ih ho
  | rdFlag j k ih => exact fun b => ih b (ho b)
  | wrFlag j b k ih => exact ih ho

theorem Act.Uniform.addTo [Arith α] (n i : Nat) (v : α) : (Act.addTo n i v).Uniform := by
  unfold Act.addTo Act.read Act.write
  by_cases h : i < n
  · refine ⟨.ok (), ?_⟩
    simp only [if_pos h]
    exact fun c => (rfl : Except.ok () = Except.ok ())
  · refine ⟨.error .oob, ?_⟩
    simp only [if_neg h]
    exact (rfl : (Except.error Err.oob : M Unit) = _)

theorem Act.Uniform.foldlM {l : List ι} {f : S → ι → Act α S} (h : ∀ s i, (f s i).Uniform) (s : S) :
    (l.foldlM f s).Uniform := by
  induction l generalizing s with
  | nil => exact .pure s
  | cons i l ih => rw [List.foldlM_cons]; exact (h s i).bind fun r => ih r

theorem Act.Uniform.forStep {lo hi st : Nat} (hst : 0 < st) {body : Nat → S → Act α S}
    (h : ∀ i s, (body i s).Uniform) (s : S) : (Verif.forStep lo hi st s body).Uniform := by
  rw [forStep_eq hst]
  exact .foldlM (fun s i => h i s) s

theorem Act.Ends.exec {p : Act α R} {o : M R} (h : p.Ends o) (m : Mem α) : (p.exec m).1 = o := by
  induction p generalizing m with
  | ret r => exact h.symm
  | fail e => exact h.symm
  | rd i k ih => exact ih _ (h _) m
  | wr i v k ih => exact ih h _
  | rdFlag j k ih => exact ih _ (h _) m
  | wrFlag j b k ih => exact ih h _

/-- If a task with uniform ends fails once, it never returns. -/
theorem Act.Uniform.noRet [Arith α] {p : Act α R} (h : p.Uniform) {a : Array α} {e : Err}
    (he : p.execOn a = .error e) : p.NoRet := by
  obtain ⟨o, ho⟩ := h
  have h1 := ho.exec (Mem.ofArray a)
  unfold Act.execOn at he
  generalize hx : p.exec (Mem.ofArray a) = x at h1 he
  obtain ⟨x1, x2⟩ := x
  cases x1 with
  | ok r => cases he
  | error e' =>
    exact ho.mono (fun r hr => by rw [← h1] at hr; cases hr) fun _ _ => trivial

theorem Act.All.at {P : R → Prop} {E} {p : Act α R} (off : Nat) (h : p.All P E) :
    (p.at off).All P E := by
  induction p with
  | ret r => exact h
  | fail e => exact h
  | rd i k ih => exact fun v => ih v (h v)
  | wr i v k ih => exact ih h
  | rdFlag j k ih => exact fun b => ih b (h b)
  | wrFlag j b k ih => exact ih h

theorem Act.Errs.addTo [Arith α] {E : Err → Prop} (h : E .oob) (n i : Nat) (v : α) :
    (Act.addTo n i v).Errs E :=
  Act.Errs.bind (Act.Errs.read h n i) fun _ => Act.Errs.write h n i _

theorem Act.Errs.catchOutOfRange {E : Err → Prop} {p : Act α Unit}
    (h : p.Errs fun e => e = .outOfRange ∨ E e) : p.catchOutOfRange.Errs E := by
  unfold Act.catchOutOfRange
  induction p with
  | ret r => trivial
  | fail e =>
    show Act.All _ _ (if e = .outOfRange then _ else _)
    split
    · trivial
    · exact h.resolve_left (by assumption)
  | rd i k ih => exact fun v => ih v (h v)
  | wr i v k ih => exact ih h
  | rdFlag j k ih => exact fun b => ih b (h b)
  | wrFlag j b k ih => exact ih h

/-- A tree that never completes and raises only errors `e0` has the only outcome `e0`. -/
theorem stuck_run {t : Tree α} {e0 : Err} (hs : t.Stuck) (he : t.Errs fun e => e = e0) (c : Nat → α) (fl)
    (f : (Nat → α) → ND R) : ND.bind (ND.run c fl t) f = ND.fail e0 := by
  funext o
  apply propext
  constructor
  · rintro (⟨e, h, rfl⟩ | ⟨c', h, _⟩)
    · rcases h with ⟨_, _, _, _, h⟩ | ⟨m', t', e', h1, h2, h3⟩
      · cases h
      · cases h3
        exact congrArg Except.error (Tree.Errs.failed (E := fun e => e = e0) h2 (he.steps h1))
    · rcases h with ⟨m', t', h1, h2, _⟩ | ⟨_, _, _, _, _, h⟩
      · exact absurd h2 (hs.steps h1).not_done
      · cases h
  · rintro rfl
    obtain ⟨m', t', h1, h2 | ⟨e, h2⟩⟩ := exists_end ⟨c, fl⟩ t
    · exact absurd h2 (hs.steps h1).not_done
    · have : e = e0 := Tree.Errs.failed (E := fun e => e = e0) h2 (he.steps h1)
      subst this
      exact .inl ⟨e, .inr ⟨m', t', e, h1, h2, rfl⟩, rfl⟩

/-- The error is an access out of bounds. -/
def IsOob (e : Err) : Prop := e = .oob

theorem IsOob.oob : IsOob .oob := rfl

namespace Async
variable [Arith α]

theorem kernel_errs (A B : Array α) (nC N x y bs : Nat) :
    (kernel A B nC N x y bs).Errs IsOob := by
  refine Act.Errs.catchOutOfRange ?_
  refine Act.Errs.forStep (by decide) (fun i _ => Act.Errs.forStep (by decide) (fun j _ => ?_) _) _
  refine Act.Errs.bind (Act.Errs.ofM ?_) fun r => ?_
  · refine MErrs.forStep (by decide) (fun k s => ?_) _
    exact (MErrs.rdAt (.inl rfl) _ _).bind fun a => (MErrs.rdAt (.inl rfl) _ _).bind fun b => .pure
  · unfold Act.writeAt
    split
    · trivial
    · exact .inl rfl

theorem kernel_transposed_errs (A B : Array α) (nC N x y bs : Nat) :
    (kernel_transposed A B nC N x y bs).Errs IsOob := by
  refine Act.Errs.forStep (by decide) (fun i _ => Act.Errs.forStep (by decide) (fun j _ => ?_) _) _
  refine Act.Errs.bind (Act.Errs.ofM ?_) fun r => Act.Errs.write IsOob.oob _ _ _
  refine MErrs.forStep (by decide) (fun k s => ?_) _
  exact (MErrs.rd IsOob.oob _ _).bind fun a => (MErrs.rd IsOob.oob _ _).bind fun b => .pure

theorem kernel_transposed_uniform (A B : Array α) (nC N x y bs : Nat) :
    (kernel_transposed A B nC N x y bs).Uniform :=
  .forStep (by decide) (fun _ _ => .forStep (by decide) (fun _ _ =>
    (Act.Uniform.ofM _).bind fun _ => .write _ _ _) _) _

theorem kernel_uniform (A B : Array α) (nC N x y bs : Nat) : (kernel A B nC N x y bs).Uniform :=
  .catchOutOfRange (.forStep (by decide) (fun _ _ => .forStep (by decide) (fun _ _ =>
    (Act.Uniform.ofM _).bind fun _ => .writeAt _ _ _) _) _)

theorem macAt_errs (As Bs : Array α) (p q : Nat) (r : α) : MErrs IsOob (macAt As Bs p q r) :=
  (MErrs.rd IsOob.oob _ _).bind fun _ => (MErrs.rd IsOob.oob _ _).bind fun _ => .pure

theorem blocked_errs (A B : Array α) (nC N x y bs : Nat) {bi : Nat} (hb : 0 < bi) :
    (kernel_transposed_blocked A B nC N x y bs bi).Errs IsOob := by
  have hl : ∀ (src : Array α) (x k : Nat) (small : Array α),
      MErrs IsOob (loadSmall src N x k bs bi small) := fun src x k small =>
    MErrs.forStep (by decide) (fun _ _ => MErrs.forStep (by decide) (fun _ _ =>
      (MErrs.rd IsOob.oob _ _).bind fun _ => MErrs.wr IsOob.oob _ _ _) _) _
  refine Act.Errs.bind (Act.Errs.forStep hb (fun k st => ?_) _) fun _ => trivial
  refine Act.Errs.bind (Act.Errs.ofM (hl _ _ _ _)) fun As =>
    Act.Errs.bind (Act.Errs.ofM (hl _ _ _ _)) fun Bs => Act.Errs.bind ?_ fun _ => trivial
  refine Act.Errs.forStep (by decide) (fun i _ => Act.Errs.forStep (by decide) (fun j _ => ?_) _) _
  refine Act.Errs.bind (Act.Errs.ofM (MErrs.forStep (by decide) (fun k s => ?_) _)) fun acc => ?_
  · repeat' first
      | exact MErrs.pure
      | refine MErrs.bind (macAt_errs _ _ _ _ _) fun _ => ?_
  · unfold store8
    repeat' first
      | exact Act.Errs.addTo IsOob.oob _ _ _
      | refine Act.Errs.bind (Act.Errs.addTo IsOob.oob _ _ _) fun _ => ?_

theorem blocked_uniform (A B : Array α) (nC N x y bs : Nat) {bi : Nat} (hb : 0 < bi) :
    (kernel_transposed_blocked A B nC N x y bs bi).Uniform := by
  refine Act.Uniform.bind (Act.Uniform.forStep hb (fun k st => ?_) _) fun _ => .pure _
  refine (Act.Uniform.ofM _).bind fun As => (Act.Uniform.ofM _).bind fun Bs =>
    Act.Uniform.bind ?_ fun _ => .pure _
  refine Act.Uniform.forStep (by decide) (fun i _ => Act.Uniform.forStep (by decide) (fun j _ =>
    (Act.Uniform.ofM _).bind fun acc => ?_) _) _
  unfold store8
  repeat' first
    | exact Act.Uniform.addTo _ _ _
    | refine Act.Uniform.bind (Act.Uniform.addTo _ _ _) fun _ => ?_

theorem submatrix_errs (s : Multiplier α) (x y bs : Nat) :
    (submatrix_kernel s x y bs).Errs IsOob := by
  unfold submatrix_kernel
  dsimp only
  split
  · exact kernel_errs _ _ _ _ _ _ _
  · split
    · exact kernel_transposed_errs _ _ _ _ _ _ _
    · exact blocked_errs _ _ _ _ _ _ _ (by omega)

/-- A kernel that fails when it is run alone never returns. -/
theorem submatrix_noRet {s : Multiplier α} {x y bs : Nat} {e : Err}
    (h : calculate_submatrix s x y bs = .error e) : (submatrix_kernel s x y bs).NoRet := by
  rw [calculate_eq] at h
  refine Act.Uniform.noRet ?_ h
  unfold submatrix_kernel
  dsimp only
  split
  · exact kernel_uniform _ _ _ _ _ _ _
  · split
    · exact kernel_transposed_uniform _ _ _ _ _ _ _
    · exact blocked_uniform _ _ _ _ _ _ _ (by omega)

theorem allocate_errs (E : Err → Prop) (off n : Nat) : (allocate off n : Act α Unit).Errs E := by
  unfold allocate
  refine Act.Errs.forStep (by decide) (fun i _ => ?_) _
  trivial

theorem extract_errs (E : Err → Prop) (src nS dst nC x y n : Nat) :
    (extract_submatrix src nS dst nC x y n : Act α Unit).Errs E := by
  refine Act.Errs.catchOutOfRange ?_
  refine Act.Errs.forStep (by decide) (fun i _ => Act.Errs.forStep (by decide) (fun j _ => ?_) _) _
  refine Act.Errs.bind ?_ fun v => Act.All.at _ ?_
  · unfold readAtFrom
    split
    · exact fun _ => trivial
    · exact .inl rfl
  · unfold Act.writeAt
    split
    · trivial
    · exact .inl rfl

theorem insert_errs (N src : Nat) (w : Work) :
    (insert_submatrix N src w : Act α Unit).Errs IsOob :=
  Act.Errs.forStep (by decide) (fun i _ => Act.Errs.forStep (by decide) (fun j _ =>
    Act.Errs.bind (Act.All.at _ (Act.Errs.read IsOob.oob _ _)) fun v => Act.Errs.write IsOob.oob _ _ _) _) _

/-- The tasks of the recursion only fail by accesses out of bounds. -/
theorem distribute_errs (s : Multiplier α) (br : Nat) (bs : Nat) : ∀ off x y,
    (distribute_recursively s br off x y bs).Errs IsOob := by
  induction bs using Nat.strongRecOn with
  | ind bs ih =>
    intro off x y
    rcases Nat.lt_or_ge br bs with h | h
    · rw [tasks_step h]
      refine .seq fun t ht => ?_
      simp only [List.mem_cons, List.not_mem_nil, or_false] at ht
      rcases ht with rfl | rfl
      · exact .act (allocate_errs _ _ _)
      · refine .par fun t ht => ?_
        obtain ⟨i, _, rfl⟩ := List.mem_map.1 ht
        refine .seq fun t ht => ?_
        simp only [List.mem_cons, List.not_mem_nil, or_false] at ht
        rcases ht with rfl | rfl
        · exact ih _ (by omega) _ _ _
        · exact .act (extract_errs _ _ _ _ _ _ _ _)
    · rw [tasks_leaf h]
      exact .act (Act.Errs.bind (allocate_errs _ _ _) fun _ => Act.All.at _ (submatrix_errs _ _ _ _))

/-- If the recursion fails when its levels run one after the other, then its tasks never all
return. -/
theorem distribute_stuck {s : Multiplier α} {br : Nat} (bs : Nat) : ∀ off x y (e : Err),
    Recursive.distribute_recursively (calculate_submatrix s) br x y bs = ND.ofM (.error e) →
    (distribute_recursively s br off x y bs).Stuck := by
  have hm : ∀ x y bs C, calculate_submatrix s x y bs = .ok C → C.size = bs * bs :=
    fun _ _ _ _ h => calculate_size h
  induction bs using Nat.strongRecOn with
  | ind bs ih =>
    intro off x y e he
    rcases Nat.lt_or_ge br bs with h | h
    · rw [tasks_step h]
      suffices hq : ∃ q, q < 4 ∧ ∃ e', Recursive.distribute_recursively (calculate_submatrix s) br
          (x + (offset (bs / 2) q).1) (y + (offset (bs / 2) q).2) (bs / 2) =
            ND.ofM (.error e') by
        obtain ⟨q, hq, e', he'⟩ := hq
        refine .seq (List.mem_cons_of_mem _ (List.mem_cons_self ..)) ?_
        refine .par (List.mem_map.2 ⟨q, List.mem_range.2 hq, rfl⟩) ?_
        exact .seq (List.mem_cons_self ..) (ih _ (by omega) _ _ _ e' he')
      rw [distribute_step h] at he
      have hsz : ∀ {x y v}, Recursive.distribute_recursively (calculate_submatrix s) br x y (bs / 2) =
          ND.ofM (.ok v) → v.size = bs / 2 * (bs / 2) := by
        intro x y v hv
        exact distribute_size hm _ x y v (by rw [hv]; rfl)
      obtain ⟨o0, h0⟩ := distribute_det hm (br := br) (bs / 2) x y
      cases o0 with
      | error e' => exact ⟨0, by omega, e', by simpa [offset] using h0⟩
      | ok s0 =>
      obtain ⟨o1, h1⟩ := distribute_det hm (br := br) (bs / 2) (x + bs / 2) y
      cases o1 with
      | error e' => exact ⟨1, by omega, e', by simpa [offset] using h1⟩
      | ok s1 =>
      obtain ⟨o2, h2⟩ := distribute_det hm (br := br) (bs / 2) x (y + bs / 2)
      cases o2 with
      | error e' => exact ⟨2, by omega, e', by simpa [offset] using h2⟩
      | ok s2 =>
      obtain ⟨o3, h3⟩ := distribute_det hm (br := br) (bs / 2) (x + bs / 2) (y + bs / 2)
      cases o3 with
      | error e' => exact ⟨3, by omega, e', by simpa [offset] using h3⟩
      | ok s3 =>
      rw [h0, h1, h2, h3] at he
      simp only [ND.ofM_ok, ND.pure_bind'] at he
      rw [(quad_does (by omega) (hsz h0) (hsz h1) (hsz h2) (hsz h3)).runOn] at he
      have h4 : (ND.ofM (.error e) : ND (Array α)) (.error e) := rfl
      rw [← he] at h4
      cases h4
    · rw [tasks_leaf h]
      rw [distribute_leaf h] at he
      have h4 : calculate_submatrix s x y bs = .error e := by
        have : (ND.ofM (.error e) : ND (Array α)) (.error e) := rfl
        rw [← he] at this
        exact this.symm
      exact .act (Act.NoRet.bind_right fun _ => Act.All.at _ (submatrix_noRet h4))

theorem execOn_errs {E : Err → Prop} {p : Act α R} (h : p.Errs E) {a : Array α} {e : Err}
    (he : p.execOn a = .error e) : E e := by
  have key : ∀ m e, (p.exec m).1 = .error e → E e := by
    clear he
    induction p with
    | ret r => exact fun m e he => by cases he
    | fail e' => exact fun m e he => by cases he; exact h
    | rd i k ih => exact fun m => ih _ (h _) m
    | wr i v k ih => exact fun m => ih h _
    | rdFlag j k ih => exact fun m => ih _ (h _) m
    | wrFlag j b k ih => exact fun m => ih h _
  unfold Act.execOn at he
  have := key (Mem.ofArray a)
  generalize p.exec (Mem.ofArray a) = x at he this
  obtain ⟨x1, x2⟩ := x
  cases x1 with
  | ok r => cases he
  | error e' => cases he; exact this e rfl

/-- Level by level, too, the recursion only fails by accesses out of bounds. -/
theorem levels_errs (s : Multiplier α) (br : Nat) (bs : Nat) : ∀ x y,
    (Recursive.distribute_recursively (calculate_submatrix s) br x y bs).All (fun _ => True)
      IsOob := by
  have hx : ∀ (nC : Nat) (v : Array α) (x y n : Nat),
      (Recursive.extract_submatrix nC v x y n).Errs IsOob := by
    intro nC v x y n
    refine Act.Errs.catchOutOfRange ?_
    refine Act.Errs.forStep (by decide) (fun i _ => Act.Errs.forStep (by decide) (fun j _ => ?_) _) _
    refine Act.Errs.bind (Act.Errs.ofM (MErrs.rdAt (.inl rfl) _ _)) fun r => ?_
    unfold Act.writeAt
    split
    · trivial
    · exact .inl rfl
  induction bs using Nat.strongRecOn with
  | ind bs ih =>
    intro x y
    rcases Nat.lt_or_ge br bs with h | h
    · rw [distribute_step h]
      refine (ih _ (by omega) _ _).bind fun s0 _ => (ih _ (by omega) _ _).bind fun s1 _ =>
        (ih _ (by omega) _ _).bind fun s2 _ => (ih _ (by omega) _ _).bind fun s3 _ => ?_
      refine ND.All.runOn (.par fun t ht => ?_)
      simp only [List.mem_cons, List.not_mem_nil, or_false] at ht
      rcases ht with rfl | rfl | rfl | rfl <;> exact .act (hx _ _ _ _ _)
    · rw [distribute_leaf h]
      refine ND.All.ofM (fun _ _ => trivial) fun e he => ?_
      rw [calculate_eq] at he
      exact execOn_errs (submatrix_errs s x y bs) he

theorem levels_error {s : Multiplier α} {br bs x y : Nat} {e : Err}
    (h : Recursive.distribute_recursively (calculate_submatrix s) br x y bs = ND.ofM (.error e)) :
    e = .oob := by
  rcases levels_errs s br bs x y (.error e) (by rw [h]; rfl) with ⟨_, _, h'⟩ | ⟨e', h1, h2⟩
  · cases h'
  · cases h2; exact h1

/-- Either all packages return, or one of them fails. -/
theorem packages_cases (s : Multiplier α) (br : Nat) (ws : List Work) :
    (∃ subs, computePackages (calculate_submatrix s) br ws = ND.ofM (.ok subs)) ∨
    ∃ w ∈ ws, ∃ e, Recursive.distribute_recursively (calculate_submatrix s) br w.x w.y w.N =
        ND.ofM (.error e) ∧
      computePackages (calculate_submatrix s) br ws = ND.ofM (.error e) := by
  induction ws with
  | nil => exact .inl ⟨[], rfl⟩
  | cons w ws ih =>
    obtain ⟨o, ho⟩ := Async.distribute_det (mult := calculate_submatrix s) (br := br)
      (fun _ _ _ _ h => calculate_size h) w.N w.x w.y
    cases o with
    | error e =>
      refine .inr ⟨w, List.mem_cons_self .., e, ho, ?_⟩
      rw [computePackages, ho, ofM_bind_error]
    | ok v =>
      rcases ih with ⟨subs, h⟩ | ⟨w', hw', e, he, h⟩
      · refine .inl ⟨(w, v) :: subs, ?_⟩
        rw [computePackages, ho, ND.ofM_ok, ND.pure_bind', h, ND.ofM_ok, ND.pure_bind']
        rfl
      · refine .inr ⟨w', List.mem_cons_of_mem _ hw', e, he, ?_⟩
        rw [computePackages, ho, ND.ofM_ok, ND.pure_bind', h, ofM_bind_error]

/-- A loop whose body always fails. -/
theorem repeat_error {body : Nat → R → ND R} {e : Err} {n : Nat} (hn : 0 < n) {z : R}
    (h : ∀ i s, body i s = ND.ofM (.error e)) :
    forStep (m := ND) 0 n 1 z body = ND.ofM (.error e) := by
  rw [forStep_eq (by decide), steps_one]
  obtain ⟨k, rfl⟩ : ∃ k, n = k + 1 := ⟨n - 1, by omega⟩
  rw [List.range_succ_eq_map, List.foldlM_cons, h, ofM_bind_error]

theorem package_tasks_errs (s : Multiplier α) (N br : Nat) (ws : List Work) : ∀ off,
    ∀ t ∈ package_tasks s N br off ws, t.Errs IsOob := by
  induction ws with
  | nil => exact fun off t ht => by cases ht
  | cons w ws ih =>
    intro off t ht
    rcases List.mem_cons.1 ht with rfl | ht
    · refine .seq fun t ht => ?_
      simp only [List.mem_cons, List.not_mem_nil, or_false] at ht
      rcases ht with rfl | rfl
      · exact distribute_errs _ _ _ _ _ _
      · exact .act (insert_errs _ _ _)
    · exact ih _ t ht

theorem package_tasks_stuck {s : Multiplier α} {N br : Nat} {w : Work} {e : Err}
    (he : Recursive.distribute_recursively (calculate_submatrix s) br w.x w.y w.N =
      ND.ofM (.error e)) (ws : List Work) (hw : w ∈ ws) : ∀ off,
    ∃ t ∈ package_tasks s N br off ws, t.Stuck := by
  induction ws with
  | nil => cases hw
  | cons w' ws ih =>
    intro off
    rcases List.mem_cons.1 hw with rfl | hw
    · exact ⟨_, List.mem_cons_self .., .seq (List.mem_cons_self ..) (distribute_stuck _ _ _ _ e he)⟩
    · obtain ⟨t, ht, hs⟩ := ih hw (off + cells br w'.N)
      exact ⟨t, List.mem_cons_of_mem _ ht, hs⟩

end Async
end Verif
