import Verif.SpecDriver
import Verif.Props.Naive
import Verif.Props.Util
import Verif.Proof.Proposal
/-
Lemmas about Model/Driver.lean.
-/
set_option linter.unusedSectionVars false
namespace Verif

theorem ND.bind_assoc {R S T : Type} (x : ND R) (f : R → ND S) (g : S → ND T) :
    (x >>= f) >>= g = x >>= fun r => f r >>= g := by
  funext o
  apply propext
  constructor
  · rintro (⟨e, h, rfl⟩ | ⟨s, h, ho⟩)
    · rcases h with ⟨e', h, he⟩ | ⟨r, h, h'⟩
      · cases he; exact .inl ⟨_, h, rfl⟩
      · exact .inr ⟨r, h, .inl ⟨e, h', rfl⟩⟩
    · rcases h with ⟨e', h, he⟩ | ⟨r, h, h'⟩
      · cases he
      · exact .inr ⟨r, h, .inr ⟨s, h', ho⟩⟩
  · rintro (⟨e, h, rfl⟩ | ⟨r, h, ⟨e, h', rfl⟩ | ⟨s, h', ho⟩⟩)
    · exact .inl ⟨e, .inl ⟨e, h, rfl⟩, rfl⟩
    · exact .inl ⟨e, .inr ⟨r, h, h'⟩, rfl⟩
    · exact .inr ⟨s, .inr ⟨r, h, h'⟩, ho⟩

theorem ND.fail_bind {R S : Type} (e : Err) (f : R → ND S) : ND.fail e >>= f = ND.fail e := by
  funext o
  apply propext
  constructor
  · rintro (⟨e', h, rfl⟩ | ⟨r, h, _⟩)
    · cases h; rfl
    · cases h
  · rintro h
    exact .inl ⟨e, rfl, h⟩

theorem ND.throw_bind {R S : Type} (e : Err) (f : R → ND S) :
    (throw e : ND R) >>= f = ND.fail e := ND.fail_bind e f

theorem ND.bind_eq {R S : Type} (x : ND R) (f : R → ND S) : ND.bind x f = x >>= f := rfl
theorem ND.pure_eq {R : Type} (r : R) : ND.pure r = (Pure.pure r : ND R) := rfl

namespace Driver
open Util
variable {α : Type} [Arith α]

theorem createA_ok (e : Env α) (N : Nat) : createA e N = .ok (rowMajor N (entryA e N)) :=
  Props.C49_random e.rand N

theorem createB_ok (e : Env α) (N : Nat) (t : Bool) :
    createB e N t = .ok (rowMajor N (entryB e)) := by
  have hif : ∀ (i j p : Nat), MDoes (fun B => if i = j then wrAt B p e.one else wrAt B p Arith.zero)
      [(p, fun _ => entryB e i j)] := by
    intro i j p
    unfold entryB
    split
    · exact MDoes.wrAt
    · exact MDoes.wrAt
  unfold createB
  cases t with
  | false => exact fillRect_ok (f := entryB e) fun i _ j _ => hif i j _
  | true =>
    refine (Tiled.fill_ok (N := N) (R := N) (C := N) (pos := fun i j => (j, i)) (f := entryB e)
      (body := fun i j B => if i = j then wrAt B (j * N + i) e.one
        else wrAt B (j * N + i) Arith.zero)
      (Nat.le_refl _) (Nat.le_refl _) (fun _ _ h h' => ⟨h', h⟩) (fun _ _ _ _ => rfl)
      (fun i hi j hj => ?_)).trans (congrArg Except.ok (rect_congr fun i hi j hj => ?_))
    · have : entryB e j i = entryB e i j := by unfold entryB; simp only [eq_comm]
      exact this ▸ hif i j _
    · rw [Tiled.pad, if_pos ⟨hi, hj⟩]

/-- Printing a matrix that is too short raises. -/
theorem print_short {N : Nat} {m : Array α} (h : m.size < N * N) :
    (print_matrix N m).out.1 = .error .outOfRange := by
  have elem : ∀ i j, EmitsOr (do
      sepIf j
      let x ← MonadExcept.ofExcept (rdAt m (i * N + j))
      emit (.elem x) : Print α Unit) .outOfRange := by
    intro i j
    refine .bind (.inl ⟨_, .sepIf j⟩) ?_
    cases hx : m[i * N + j]? with
    | none =>
      right
      rw [rdAt_err (by simpa using hx)]
      exact fun _ => rfl
    | some x => exact .inl ⟨_, .at hx (.emit _)⟩
  have row : ∀ i, EmitsOr (forStep 0 N 1 () fun j _ => (do
      sepIf j
      let x ← MonadExcept.ofExcept (rdAt m (i * N + j))
      emit (.elem x) : Print α Unit)) .outOfRange := by
    intro i
    rw [forStep_eq (by decide)]
    exact .foldlM fun j _ => elem i j
  have hN : 0 < N := Nat.pos_of_ne_zero fun h0 => by rw [h0] at h; omega
  have hbad : Raises (print_matrix N m) .outOfRange := by
    unfold print_matrix printLoops
    rw [forStep_eq (by decide), steps_one]
    refine .foldlM (i0 := N - 1) (fun i _ => (row i).bind (.inl ⟨_, .emit _⟩))
      (List.mem_range.2 (by omega)) (.bind_left ?_)
    rw [forStep_eq (by decide), steps_one]
    refine .foldlM (i0 := N - 1) (fun j _ => elem _ j) (List.mem_range.2 (by omega)) ?_
    refine .bind_right (.sepIf _) ?_
    rw [rdAt_err]
    · exact fun _ => rfl
    · show m.size ≤ (N - 1) * N + (N - 1)
      have : (N - 1) * N + N = N * N := by rw [← Nat.succ_mul]; congr 1; omega
      omega
  exact hbad []

theorem printIf_holds {v N : Nat} {m : Array α} {f : Nat → Nat → α} (h : Holds m N N f) :
    printIf v (print_matrix N m) = (Pure.pure () : ND Unit) := by
  unfold printIf printed
  rw [Props.C57_print N m f h]
  split <;> rfl

theorem printIf_eq (v N : Nat) (m : Array α) : printIf v (print_matrix N m) =
    if v ≥ 2 ∧ m.size < N * N then ND.fail .outOfRange else (Pure.pure () : ND Unit) := by
  by_cases h : m.size < N * N
  · unfold printIf printed
    rw [print_short h]
    simp only [h, and_true]
    rfl
  · rw [if_neg (fun h' => h h'.2)]
    exact printIf_holds (vec_holds (by omega))

theorem printB_ok {v N : Nat} {t : Bool} {B : Array α} {f : Nat → Nat → α} (h : Holds B N N f) :
    printIf v (printB N t B) = (Pure.pure () : ND Unit) := by
  unfold printB
  cases t with
  | false => exact printIf_holds h
  | true =>
    unfold printIf printed
    simp only [not_true_eq_false, if_false]
    rw [Props.C57_print_transposed N B f h]
    split <;> rfl

/-- Both references are the same matrix, bit for bit. -/
theorem ref_eq (e : Env α) (N : Nat) (t : Bool) :
    (if ¬ t = true then
      Naive.naive_matrix_multiply N (rowMajor N (entryA e N)) (rowMajor N (entryB e))
    else Naive.naive_matrix_multiply_transposed N (rowMajor N (entryA e N))
      (rowMajor N (entryB e))) =
      (Pure.pure (rowMajor N (mulSpec N (entryA e N) (entryB e))) : ND (Array α)) := by
  cases t with
  | false => exact Props.C01_naive N _ _ _ _ (holds_rect _ _ _) (holds_rect _ _ _)
  | true =>
    simp only [not_true_eq_false, if_false]
    refine (Props.C02_naive_transposed N _ _ _ _ (holds_rect _ _ _) (holds_rect _ _ _)).trans ?_
    refine congrArg ND.pure (congrArg _ ?_)
    funext i j
    show dot N _ _ = dot N _ _
    refine congrArg _ ?_
    funext k
    unfold entryB
    simp only [eq_comm]

theorem diff_ok (e : Env α) {N : Nat} {C Cref : Array α} (h : N * N ≤ C.size)
    (h' : N * N ≤ Cref.size) : ∃ d, diff_matrix e N C Cref = .ok d ∧ d.size = N * N := by
  unfold diff_matrix
  rw [forStep_eq (by decide), steps_one]
  suffices hs : ∀ l : List Nat, (∀ k ∈ l, k < N * N) → ∀ d0 : Array α, d0.size = N * N →
      ∃ d, l.foldlM (fun d k => do
        let x ← rdAt Cref k
        let y ← rdAt C k
        wrAt d k (e.absDiff x y)) d0 = (.ok d : M _) ∧ d.size = N * N from
    hs _ (fun k hk => List.mem_range.1 hk) _ (by simp)
  intro l
  induction l with
  | nil => exact fun _ d0 h0 => ⟨d0, rfl, h0⟩
  | cons k l ih =>
    intro hl d0 h0
    have hk : k < N * N := hl k (by simp)
    rw [List.foldlM_cons]
    have e1 : rdAt Cref k = .ok (Cref[k]'(by omega)) := rdAt_ok (by simp)
    have e2 : rdAt C k = .ok (C[k]'(by omega)) := rdAt_ok (by simp)
    have e3 : ∀ v, wrAt d0 k v = .ok (d0.setIfInBounds k v) := by
      intro v
      unfold wrAt
      rw [if_pos (by omega)]
    rw [e1, M_bind_ok, e2, M_bind_ok, e3, M_bind_ok]
    exact ih (fun k hk => hl k (by simp [hk])) _ (by simp [h0])

/-- The reference as computed by the driver. -/
def reference (e : Env α) (N : Nat) : Array α := rowMajor N (mulSpec N (entryA e N) (entryB e))

/-- What happens to a result `C`. -/
def finish (e : Env α) (o : Opts) (C : Array α) : ND (Report α) :=
  if o.verbose ≥ 2 ∧ C.size < o.N * o.N then ND.fail .outOfRange
  else ND.pure ⟨0, false,
    if e.root && o.check then some (std_equal e.close C (reference e o.N)) else none, C⟩

theorem check_ok (e : Env α) (o : Opts) (C0 C : Array α) (b : Bool)
    (h : ¬ (o.verbose ≥ 2 ∧ C.size < o.N * o.N)) :
    check e ⟨o, rowMajor o.N (entryA e o.N), rowMajor o.N (entryB e), C0, e.root, b⟩ C =
      (Pure.pure (if e.root && o.check then some (std_equal e.close C (reference e o.N)) else none) :
        ND (Option Bool)) := by
  unfold check
  by_cases hc : (e.root && o.check) = true
  · simp only [hc, if_true]
    rw [compute_ref, ref_eq, ND.pure_bind', printIf_holds (holds_rect _ _ _), ND.pure_bind']
    unfold show_diff
    split
    · obtain ⟨d, hd, hs⟩ := diff_ok e (N := o.N) (C := C) (Cref := reference e o.N) (by omega)
        (by simp [reference])
      rw [show rowMajor o.N (mulSpec o.N (entryA e o.N) (entryB e)) = reference e o.N from rfl, hd]
      rw [ND.ofM_ok, ND.pure_bind']
      have := printIf_holds (v := 2) (vec_holds (v := d) (m := o.N) (n := o.N) (by omega))
      rw [printIf, if_pos (Nat.le_refl _)] at this
      rw [this]
      exact ND.pure_bind' _ _
    · exact ND.pure_bind' _ _
  · simp only [hc]
    rfl

/-- The driver runs an algorithm before HPX stops. -/
theorem main_hpx (e : Env α) (o : Opts) (P : ND (Array α)) (hh : o.help = false)
    (h1 : o.algorithm ≠ "kernel_test") (h2 : o.algorithm ≠ "kernel_tiled")
    (hP : dispatch e o (rowMajor o.N (entryA e o.N)) (rowMajor o.N (entryB e)) =
      P >>= fun C => Pure.pure (some C)) : main e o = P >>= finish e o := by
  unfold main hpx_main
  rw [if_neg (by simp [hh]), createA_ok, ND.ofM_ok, ND.pure_bind', printIf_holds (holds_rect _ _ _),
    ND.pure_bind', createB_ok, ND.ofM_ok, ND.pure_bind', printB_ok (holds_rect _ _ _),
    ND.pure_bind', hP, ND.bind_assoc, ND.bind_assoc]
  refine congrArg _ (funext fun C => ?_)
  rw [ND.pure_bind']
  show (_ >>= _) >>= _ = _
  rw [printIf_eq, ND.bind_assoc]
  unfold finish
  split
  · exact ND.fail_bind _ _
  · next h =>
    rw [ND.pure_bind', ND.pure_bind']
    unfold after_hpx kernels
    rw [if_neg h1, if_neg h2, if_neg (by simp), ND.pure_bind']
    show _ >>= _ = _
    rw [check_ok e o C C false h, ND.pure_bind']
    rfl

/-- The driver runs no algorithm before HPX stops. -/
theorem main_late (e : Env α) (o : Opts) (hh : o.help = false)
    (hP : dispatch e o (rowMajor o.N (entryA e o.N)) (rowMajor o.N (entryB e)) =
      Pure.pure none) : main e o = after_hpx e ⟨o, rowMajor o.N (entryA e o.N),
        rowMajor o.N (entryB e), #[], e.root, true⟩ := by
  unfold main hpx_main
  rw [if_neg (by simp [hh]), createA_ok, ND.ofM_ok, ND.pure_bind', printIf_holds (holds_rect _ _ _),
    ND.pure_bind', createB_ok, ND.ofM_ok, ND.pure_bind', printB_ok (holds_rect _ _ _),
    ND.pure_bind', hP, ND.pure_bind']
  exact ND.pure_bind' _ _

theorem after_kernel (e : Env α) (o : Opts) (P : ND (Array α))
    (hk : kernels ⟨o, rowMajor o.N (entryA e o.N), rowMajor o.N (entryB e), #[], e.root, true⟩ =
      P >>= fun C => printIf o.verbose (print_matrix o.N C) >>= fun _ => Pure.pure (some C)) :
    after_hpx e ⟨o, rowMajor o.N (entryA e o.N), rowMajor o.N (entryB e), #[], e.root, true⟩ =
      P >>= finish e o := by
  unfold after_hpx
  rw [hk, ND.bind_assoc]
  refine congrArg _ (funext fun C => ?_)
  rw [printIf_eq, ND.bind_assoc]
  unfold finish
  split
  · exact ND.fail_bind _ _
  · next h =>
    rw [ND.pure_bind', ND.pure_bind']
    show _ >>= _ = _
    rw [check_ok e o #[] C true h, ND.pure_bind']
    rfl

/-- The driver raises before HPX stops. -/
theorem main_throws (e : Env α) (o : Opts) (x : Err) (hh : o.help = false)
    (hP : dispatch e o (rowMajor o.N (entryA e o.N)) (rowMajor o.N (entryB e)) =
      ND.fail x) : main e o = ND.fail x := by
  unfold main hpx_main
  rw [if_neg (by simp [hh]), createA_ok, ND.ofM_ok, ND.pure_bind', printIf_holds (holds_rect _ _ _),
    ND.pure_bind', createB_ok, ND.ofM_ok, ND.pure_bind', printB_ok (holds_rect _ _ _),
    ND.pure_bind', hP, ND.fail_bind, ND.fail_bind]

theorem foldlM_const {x : ND (Array α)} {l : List Nat} (h : l ≠ []) (s s' : Array α) :
    l.foldlM (fun _ _ => x) s = l.foldlM (fun _ _ => x) s' := by
  cases l with
  | nil => exact absurd rfl h
  | cons i l => rw [List.foldlM_cons, List.foldlM_cons]

/-- The loop of the driver over the repetitions is that of `single::matrix_multiply`. -/
theorem single_eq (o : Opts) (A B : Array α) (h : 1 ≤ o.repetitions) : single o A B =
    Recursive.single_matrix_multiply o.N A B o.transposed o.block_result o.block_input
      o.repetitions := by
  unfold single Recursive.single_matrix_multiply
  rw [forStep_eq (by decide), forStep_eq (by decide), steps_one]
  refine foldlM_const (fun h0 => ?_) _ _
  rw [List.range_eq_nil] at h0
  omega

theorem single_zero (o : Opts) (A B : Array α) (h : o.repetitions = 0) : single o A B =
    (Pure.pure #[] : ND (Array α)) := by
  unfold single
  rw [h]
  exact forStep_nil (Nat.le_refl _) _ _

theorem std_equal_iff (close : α → α → Bool) (N : Nat) (C : Array α) (f : Nat → Nat → α) :
    std_equal close C (rowMajor N f) = true ↔
      C.size = N * N ∧ ∀ i, i < N → ∀ j, j < N → ∃ c, C[i * N + j]? = some c ∧ close c (f i j) := by
  have hr : ∀ i j, i < N → j < N → (rowMajor N f)[i * N + j]? = some (f i j) :=
    fun i j hi hj => holds_rect N N f i hi j hj
  unfold std_equal
  rw [Bool.and_eq_true, decide_eq_true_iff, List.all_eq_true]
  have hs : (rowMajor N f).size = N * N := by simp [rect]
  rw [hs]
  refine and_congr_right fun hC => ⟨fun h i hi j hj => ?_, fun h k hk => ?_⟩
  · have hp := idx_lt hi hj
    have := h (i * N + j) (List.mem_range.2 (by omega))
    rw [hr i j hi hj] at this
    cases hc : C[i * N + j]? with
    | none => rw [hc] at this; simp at this
    | some c => rw [hc] at this; exact ⟨c, rfl, this⟩
  · rw [List.mem_range, hC] at hk
    have hN : 0 < N := Nat.pos_of_ne_zero fun h0 => by rw [h0] at hk; omega
    have hi : k / N < N := Nat.div_lt_of_lt_mul hk
    have hj : k % N < N := Nat.mod_lt _ hN
    obtain ⟨c, hc, hcl⟩ := h _ hi _ hj
    have hkk : k / N * N + k % N = k := Nat.div_add_mod' k N
    have := hr _ _ hi hj
    rw [hkk] at hc this
    rw [hc, this]
    exact hcl

/-- A copy loop that reads past the end of its source. -/
theorem copy_short {N : Nat} {A : Array α} {a0 : Array α} {pos : Nat → Nat → Nat}
    {pos' : Nat → Nat → Nat} (hp : ∃ i, i < N ∧ ∃ j, j < N ∧ A.size ≤ pos i j) :
    (forStep 0 N 1 a0 fun x a => forStep 0 N 1 a fun k a =>
      rd A (pos x k) >>= fun v => wr a (pos' x k) v) = .error .oob := by
  obtain ⟨i, hi, j, hj, hlt⟩ := hp
  have he : MErrs (· = .oob) (forStep 0 N 1 a0 fun x a => forStep 0 N 1 a fun k a =>
      rd A (pos x k) >>= fun v => wr a (pos' x k) v) := by
    refine MErrs.forStep Nat.one_pos (fun i s => ?_) _
    refine MErrs.forStep Nat.one_pos (fun j s => ?_) _
    exact .bind (.rd (by rfl) _ _) fun x => .wr (by rfl) _ _ _
  have hn : ∀ r, (forStep 0 N 1 a0 fun x a => forStep 0 N 1 a fun k a =>
      rd A (pos x k) >>= fun v => wr a (pos' x k) v) ≠ .ok r := by
    intro r
    rw [forStep_eq (by decide), steps_one]
    refine foldlM_not_ok (i0 := i) (List.mem_range.2 hi) (fun s s' => ?_) _ _
    rw [forStep_eq (by decide), steps_one]
    refine foldlM_not_ok (i0 := j) (List.mem_range.2 hj) (fun t t' => ?_) _ _
    rw [rd_oob hlt]
    nofun
  generalize (forStep 0 N 1 a0 fun x a => forStep 0 N 1 a fun k a =>
      rd A (pos x k) >>= fun v => wr a (pos' x k) v) = r at he hn
  cases r with
  | ok r => exact absurd rfl (hn r)
  | error e => rw [he e rfl]

theorem kernel_test_short {N : Nat} {A B : Array α} {t : Bool} {r : Nat} (h : A.size < N * N) :
    KernelTest.matrix_multiply N A B t r = ND.fail .oob := by
  unfold KernelTest.matrix_multiply
  rw [show KernelTest.padA N A = .error .oob from copy_short (Proposal.short_pos h)]
  exact ND.fail_bind _ _

theorem kernel_tiled_short {b : Tiled.Blocking} (hb : b.Valid) {N : Nat} {A B : Array α} {t : Bool}
    {r : Nat} (h : A.size < N * N) :
    KernelTiled.matrix_multiply b N A B t r = ND.fail .outOfRange := by
  unfold KernelTiled.matrix_multiply Tiled.setup
  rw [Tiled.verify_ok hb, M_bind_ok]
  simp only [Proposal.copy_short (Proposal.short_pos h), M_bind_error]
  exact ND.fail_bind _ _

end Driver
end Verif
