import Verif.Model.Size64
import Verif.Proof.Driver
import Verif.Core.Errs
set_option linter.unusedSectionVars false
/-
Sizes modulo 2^64: no difference below 2^32, errors from there on.
-/
namespace Verif.Size64
open Driver Util
variable {α : Type} [Arith α]

theorem u64_eq {x : Nat} (h : x < 2 ^ 64) : u64 x = x := Nat.mod_eq_of_lt h

theorem sq_lt {N : Nat} (h : N < 2 ^ 32) : N * N < 2 ^ 64 := by
  have := Nat.mul_lt_mul'' h h
  omega

theorem idx64 {N i j : Nat} (h : N < 2 ^ 32) (hi : i < N) (hj : j < N) : u64 (i * N + j) = i * N + j :=
  u64_eq (Nat.lt_trans (idx_lt hi hj) (sq_lt h))

/-- Loops with the same bodies. -/
theorem forStep_congr {σ : Type} {m : Type → Type} [Monad m] [MonadExceptOf Err m]
    {n : Nat} {body body' : Nat → σ → m σ} (h : ∀ i, i < n → ∀ s, body i s = body' i s) (s : σ) :
    forStep 0 n 1 s body = forStep 0 n 1 s body' := by
  rw [forStep_eq (by decide), forStep_eq (by decide), steps_one]
  have : ∀ l : List Nat, (∀ i ∈ l, i < n) → ∀ s,
      l.foldlM (fun s i => body i s) s = l.foldlM (fun s i => body' i s) s := by
    intro l
    induction l with
    | nil => exact fun _ _ => rfl
    | cons i l ih =>
      intro hl s
      rw [List.foldlM_cons, List.foldlM_cons, h i (hl i (by simp))]
      congr
      funext s'
      exact ih (fun j hj => hl j (by simp [hj])) s'
  exact this _ (fun i hi => List.mem_range.1 hi) s

/-! ### below 2^32 -/

theorem component_eq {N : Nat} (h : N < 2 ^ 32) (A B : Array α) {i : Nat} (hi : i < N) {bi : Nat → Nat}
    (hb : ∀ k, k < N → bi k < N * N) : component N A B i bi = Naive.component N A B i bi := by
  refine forStep_congr (fun k hk s => ?_) _
  rw [idx64 h hi hk, u64_eq (Nat.lt_trans (hb k hk) (sq_lt h))]

theorem rowTask_eq {N : Nat} (h : N < 2 ^ 32) (A B : Array α) {i : Nat} (hi : i < N) :
    rowTask N A B false i = Naive.rowTask N A B i := by
  refine forStep_congr (fun j hj s => ?_) _
  rw [if_neg (by decide), component_eq h A B hi (fun k hk => idx_lt hk hj), idx64 h hi hj, u64_eq (sq_lt h)]

theorem rowTaskT_eq {N : Nat} (h : N < 2 ^ 32) (A B : Array α) {i : Nat} (hi : i < N) :
    rowTask N A B true i = Naive.rowTaskT N A B i := by
  refine forStep_congr (fun j hj s => ?_) _
  rw [if_pos rfl, component_eq h A B hi (fun k hk => idx_lt hj hk), idx64 h hi hj, u64_eq (sq_lt h)]

theorem naive_eq {N : Nat} (h : N < 2 ^ 32) (A B : Array α) :
    naive_matrix_multiply N A B false = Naive.naive_matrix_multiply N A B := by
  unfold naive_matrix_multiply Naive.naive_matrix_multiply tree Naive.tree
  rw [u64_eq (sq_lt h), List.map_congr_left fun i hi => congrArg Tree.act (rowTask_eq h A B (List.mem_range.1 hi))]

theorem naiveT_eq {N : Nat} (h : N < 2 ^ 32) (A B : Array α) :
    naive_matrix_multiply N A B true = Naive.naive_matrix_multiply_transposed N A B := by
  unfold naive_matrix_multiply Naive.naive_matrix_multiply_transposed tree Naive.treeT
  rw [u64_eq (sq_lt h), List.map_congr_left fun i hi => congrArg Tree.act (rowTaskT_eq h A B (List.mem_range.1 hi))]

theorem transpose_eq {N : Nat} (h : N < 2 ^ 32) (org : Array α) :
    transpose_matrix N org = Util.transpose_matrix N org := by
  unfold transpose_matrix Util.transpose_matrix
  rw [u64_eq (sq_lt h)]
  refine forStep_congr (fun i hi s => forStep_congr (fun j hj s => ?_) _) _
  rw [idx64 h hi hj, idx64 h hj hi]

theorem printLoops_congr {N : Nat} {idx idx' : Nat → Nat → Nat}
    (h : ∀ i, i < N → ∀ j, j < N → idx i j = idx' i j) (m : Array α) :
    printLoops N N idx m = printLoops N N idx' m := by
  unfold printLoops
  refine forStep_congr (fun i hi s => ?_) _
  rw [forStep_congr (fun j hj s => by rw [h i hi j hj])]

theorem print_eq {N : Nat} (h : N < 2 ^ 32) (m : Array α) : print_matrix N m = Util.print_matrix N m :=
  printLoops_congr (fun _ hi _ hj => idx64 h hi hj) m

theorem printT_eq {N : Nat} (h : N < 2 ^ 32) (m : Array α) :
    print_matrix_transposed N m = Util.print_matrix_transposed N m :=
  printLoops_congr (fun _ hi _ hj => idx64 h hj hi) m

theorem createA_eq {N : Nat} (h : N < 2 ^ 32) (e : Env α) : createA e N = Driver.createA e N := by
  unfold createA Driver.createA
  rw [u64_eq (sq_lt h)]

theorem createB_eq {N : Nat} (h : N < 2 ^ 32) (e : Env α) (t : Bool) :
    createB e N t = Driver.createB e N t := by
  unfold createB Driver.createB
  rw [u64_eq (sq_lt h)]
  split
  · exact forStep_congr (fun i hi s => forStep_congr (fun j hj s => by rw [idx64 h hi hj]) _) _
  · exact forStep_congr (fun i hi s => forStep_congr (fun j hj s => by rw [idx64 h hj hi]) _) _

theorem main_eq (e : Env α) (o : Opts) (h : o.N < 2 ^ 32) : main e o = Driver.main e o := by
  unfold main Driver.main hpx_main Driver.hpx_main printB Driver.printB
  simp only [createA_eq h, createB_eq h, print_eq h, printT_eq h]
  rfl

/-! ### from 2^32 on -/

/-- Some element of the matrix has the number that is the size of the vector. -/
theorem exists_bad {N : Nat} (h : 2 ^ 32 ≤ N) :
    ∃ i j, i < N ∧ j < N ∧ u64 (i * N + j) = u64 (N * N) := by
  have h1 : 2 ^ 32 * 2 ^ 32 ≤ N * N := Nat.mul_le_mul h h
  have h2 : u64 (N * N) < 2 ^ 64 := Nat.mod_lt _ (by decide)
  have hN : 0 < N := by omega
  refine ⟨u64 (N * N) / N, u64 (N * N) % N, ?_, Nat.mod_lt _ hN, ?_⟩
  · rw [Nat.div_lt_iff_lt_mul hN]
    omega
  · rw [Nat.mul_comm, Nat.div_add_mod, u64_eq h2]

theorem rowTask_errs (N : Nat) (A B : Array α) (t : Bool) (i : Nat) :
    (rowTask N A B t i).Errs (· = .outOfRange) := by
  refine Act.Errs.forStep Nat.one_pos (fun j _ => ?_) _
  refine .bind (.ofM ?_) fun r => ?_
  · refine MErrs.forStep Nat.one_pos (fun k s => ?_) _
    exact .bind (.rdAt (by rfl) _ _) fun x => .bind (.rdAt (by rfl) _ _) fun y => .pure
  · unfold Act.writeAt
    split
    · exact trivial
    · exact rfl

theorem naive_fails {N : Nat} (h : 2 ^ 32 ≤ N) (A B : Array α) (t : Bool) :
    (naive_matrix_multiply N A B t).All (fun _ => False) (· = .outOfRange) := by
  obtain ⟨i, j, hi, hj, hij⟩ := exists_bad h
  refine ND.All.runOn_stuck (.par fun t' ht => ?_) (.par (List.mem_map.2 ⟨i, List.mem_range.2 hi, rfl⟩) (.act ?_))
  · obtain ⟨i', _, rfl⟩ := List.mem_map.1 ht
    exact .act (rowTask_errs N A B t i')
  · refine Act.NoRet.forStep Nat.one_pos (i0 := j) (by rw [steps_one]; exact List.mem_range.2 hj)
      (fun s => .bind_right fun r => ?_) _
    rw [hij]
    unfold Act.writeAt
    rw [if_neg (Nat.lt_irrefl _)]
    exact trivial

/-- A loop all of whose errors are `e`, and that keeps `P`. -/
theorem foldlM_either {σ ι : Type} {l : List ι} {f : σ → ι → M σ} {P : σ → Prop} {e : Err}
    (h : ∀ i ∈ l, ∀ s, P s → (∃ s', f s i = .ok s' ∧ P s') ∨ f s i = .error e) {s : σ} (hs : P s) :
    (∃ s', l.foldlM f s = .ok s' ∧ P s') ∨ l.foldlM f s = .error e := by
  induction l generalizing s with
  | nil => exact .inl ⟨s, rfl, hs⟩
  | cons i l ih =>
    rw [List.foldlM_cons]
    rcases h i (by simp) s hs with ⟨s', h1, h2⟩ | h1
    · rw [h1]
      exact ih (fun j hj => h j (by simp [hj])) h2
    · rw [h1]
      exact .inr rfl

theorem foldlM_fails {σ ι : Type} {l : List ι} {f : σ → ι → M σ} {P : σ → Prop} {e : Err}
    (h : ∀ i ∈ l, ∀ s, P s → (∃ s', f s i = .ok s' ∧ P s') ∨ f s i = .error e) {i0 : ι} (hi : i0 ∈ l)
    (h0 : ∀ s, P s → f s i0 = .error e) {s : σ} (hs : P s) : l.foldlM f s = .error e := by
  induction l generalizing s with
  | nil => cases hi
  | cons i l ih =>
    rw [List.foldlM_cons]
    rcases List.mem_cons.1 hi with rfl | hi
    · rw [h0 s hs]
      rfl
    · rcases h i (by simp) s hs with ⟨s', h1, h2⟩ | h1
      · rw [h1]
        exact ih (fun j hj => h j (by simp [hj])) hi h2
      · rw [h1]
        rfl

/-- Two nested loops over a vector that use a bad index. -/
theorem nest_fails {N S : Nat} {body : Nat → Nat → Array α → M (Array α)} {e : Err}
    (h : ∀ i, i < N → ∀ j, j < N → ∀ v : Array α, v.size = S →
      (∃ v', body i j v = .ok v' ∧ v'.size = S) ∨ body i j v = .error e)
    {i0 j0 : Nat} (hi : i0 < N) (hj : j0 < N) (h0 : ∀ v : Array α, v.size = S → body i0 j0 v = .error e)
    {v : Array α} (hv : v.size = S) :
    (forStep 0 N 1 v fun i v => forStep 0 N 1 v fun j v => body i j v) = .error e := by
  rw [forStep_eq (by decide), steps_one]
  refine foldlM_fails (P := fun v : Array α => v.size = S) (fun i hi v hv => ?_) (List.mem_range.2 hi)
    (fun v hv => ?_) hv
  · rw [forStep_eq (by decide), steps_one]
    exact foldlM_either (P := fun v : Array α => v.size = S)
      (fun j hj v hv => h i (List.mem_range.1 hi) j (List.mem_range.1 hj) v hv) hv
  · rw [forStep_eq (by decide), steps_one]
    exact foldlM_fails (P := fun v : Array α => v.size = S)
      (fun j hj v hv => h i0 hi j (List.mem_range.1 hj) v hv) (List.mem_range.2 hj) (fun v hv => h0 v hv) hv

theorem wrAt_either {S p : Nat} {v : Array α} (hv : v.size = S) (x : α) :
    (∃ v', wrAt v p x = .ok v' ∧ v'.size = S) ∨ wrAt v p x = .error .outOfRange := by
  unfold wrAt
  split
  · exact .inl ⟨_, rfl, by simpa using hv⟩
  · exact .inr rfl

theorem wrAt_bad {v : Array α} {p : Nat} (h : v.size = p) (x : α) : wrAt v p x = .error .outOfRange :=
  if_neg (by omega)

theorem zeros_size (n : Nat) : (zeros n : Array α).size = n := by simp [zeros]

theorem createB_fails {N : Nat} (h : 2 ^ 32 ≤ N) (e : Env α) (t : Bool) :
    createB e N t = .error .outOfRange := by
  obtain ⟨i, j, hi, hj, hij⟩ := exists_bad h
  unfold createB
  cases t with
  | false =>
    rw [if_pos (by decide)]
    refine nest_fails (S := u64 (N * N)) (fun i _ j _ v hv => ?_) hi hj (fun v hv => ?_) (zeros_size _)
    · split <;> exact wrAt_either hv _
    · rw [hij]
      split <;> exact wrAt_bad hv _
  | true =>
    rw [if_neg (by decide)]
    refine nest_fails (S := u64 (N * N)) (fun i _ j _ v hv => ?_) hj hi (fun v hv => ?_) (zeros_size _)
    · split <;> exact wrAt_either hv _
    · rw [hij]
      split <;> exact wrAt_bad hv _

theorem transpose_fails {N : Nat} (h : 2 ^ 32 ≤ N) (org : Array α) :
    transpose_matrix N org = .error .oob := by
  obtain ⟨i, j, hi, hj, hij⟩ := exists_bad h
  have hrd : ∀ p, (∃ x, rd org p = .ok x) ∨ rd org p = .error .oob := by
    intro p
    unfold rd
    cases org[p]? with
    | none => exact .inr rfl
    | some x => exact .inl ⟨x, rfl⟩
  refine nest_fails (S := u64 (N * N)) (fun i _ j _ v hv => ?_) hi hj (fun v hv => ?_) (zeros_size _)
  · rcases hrd (u64 (j * N + i)) with ⟨x, hx⟩ | hx
    · rw [hx]
      show (∃ v', wr v _ x = .ok v' ∧ _) ∨ wr v _ x = .error .oob
      unfold wr
      split
      · exact .inl ⟨_, rfl, by simpa using hv⟩
      · exact .inr rfl
    · rw [hx]
      exact .inr rfl
  · rcases hrd (u64 (j * N + i)) with ⟨x, hx⟩ | hx
    · rw [hx, hij]
      exact if_neg (by omega)
    · rw [hx]
      rfl

/-- Printing does nothing but read. -/
theorem print_either (N : Nat) (idx : Nat → Nat → Nat) (m : Array α) :
    EmitsOr (printLoops N N idx m) .outOfRange := by
  unfold printLoops
  rw [forStep_eq (by decide)]
  refine .foldlM fun i _ => .bind ?_ (.inl ⟨_, .emit _⟩)
  rw [forStep_eq (by decide)]
  refine .foldlM fun j _ => .bind (.inl ⟨_, .sepIf j⟩) ?_
  cases hx : m[idx i j]? with
  | none =>
    right
    rw [rdAt_err (by simpa using hx)]
    exact fun _ => rfl
  | some x => exact .inl ⟨_, .at hx (.emit _)⟩

theorem printIf_either (v N : Nat) (m : Array α) :
    printIf v (print_matrix N m) = (Pure.pure () : ND Unit) ∨
      printIf v (print_matrix N m) = ND.fail .outOfRange := by
  unfold printIf
  split
  · unfold printed print_matrix
    rcases print_either N (fun i j => u64 (i * N + j)) m with ⟨o, ho⟩ | hr
    · left
      rw [show (printLoops N N (fun i j => u64 (i * N + j)) m).out.1 = .ok () from
        congrArg Prod.fst (ho [])]
      rfl
    · right
      rw [show (printLoops N N (fun i j => u64 (i * N + j)) m).out.1 = .error .outOfRange from hr []]
      rfl
  · exact .inl rfl

theorem createA_ok (e : Env α) (N : Nat) : ∃ A, createA e N = .ok A := by
  exact ⟨_, generate_ok e.rand (u64 (N * N))⟩

theorem main_fails (e : Env α) (o : Opts) (hh : o.help = false) (h : 2 ^ 32 ≤ o.N) :
    main e o = ND.fail .outOfRange := by
  unfold main hpx_main
  obtain ⟨A, hA⟩ := createA_ok e o.N
  rw [if_neg (by simp [hh]), hA, ND.ofM_ok, ND.pure_bind']
  rcases printIf_either o.verbose o.N A with hp | hp
  · rw [hp, ND.pure_bind', createB_fails h, show (ND.ofM (.error .outOfRange) : ND (Array α)) =
      ND.fail .outOfRange from rfl, ND.fail_bind, ND.fail_bind]
  · rw [hp, ND.fail_bind, ND.fail_bind]

end Verif.Size64
