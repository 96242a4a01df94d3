import Verif.SpecComponents
import Verif.Proof.Driver
import Verif.Proof.Halving
import Verif.Props.Schedule
/-
Lemmas about Model/Components.lean.
-/
set_option linter.unusedSectionVars false
namespace Verif.Components
open Verif.Kernel Verif.Recursive Verif.StaticImproved Verif.Console
variable {α : Type} [Arith α]

theorem dec_inj {m n : Nat} (h : dec m = dec n) : m = n := by
  have := congrArg (fun t => Nat.ofDigitChars 10 t 0) h
  simpa only [dec, Nat.ofDigitChars_ten_toDigits] using this

theorem multiplierName_inj {l l' : Nat} (h : multiplierName l = multiplierName l') : l = l' :=
  dec_inj (List.append_cancel_left h)

theorem recursiveName_inj {l l' : Nat} (h : recursiveName l = recursiveName l') : l = l' :=
  dec_inj (List.append_cancel_left h)

/-- The events of `distribute_recursively` for a block. -/
def log (loc br verbose x y n : Nat) : List Event :=
  let traced := if verbose ≥ 1 then [Event.workOn loc x y n] else []
  if _h : n ≤ br then traced ++ [Event.submatrix loc x y n, Event.moved loc loc (n * n)]
  else
    (traced ++ if verbose ≥ 1 then [Event.large n] else []) ++
      ((log loc br verbose x y (n / 2) ++ [Event.moved loc loc (n / 2 * (n / 2))]) ++
        (log loc br verbose (x + n / 2) y (n / 2) ++ [Event.moved loc loc (n / 2 * (n / 2))]) ++
        (log loc br verbose x (y + n / 2) (n / 2) ++ [Event.moved loc loc (n / 2 * (n / 2))]) ++
        (log loc br verbose (x + n / 2) (y + n / 2) (n / 2) ++ [Event.moved loc loc (n / 2 * (n / 2))]))
termination_by n
decreasing_by all_goals omega

/-- All lookups on locality `loc` find a component with these values. -/
structure Good (names : Names α) (loc : Nat) (obj : Multiplier α) (br verbose : Nat) : Prop where
  m : ∃ c, (multiplierName loc, c) ∈ names.multipliers
  m' : ∀ c, (multiplierName loc, c) ∈ names.multipliers → c = ⟨loc, obj⟩
  r : ∃ c, (recursiveName loc, c) ∈ names.recursives
  r' : ∀ c, (recursiveName loc, c) ∈ names.recursives → c = ⟨loc, br, verbose⟩

theorem connect_to_eq {β : Type} {t : List (Text × β)} {name : Text} {c : β}
    (he : ∃ c, (name, c) ∈ t) (ha : ∀ c', (name, c') ∈ t → c' = c) :
    connect_to t name = (Pure.pure c : ND β) := by
  funext o
  apply propext
  obtain ⟨c0, h0⟩ := he
  constructor
  · rintro (⟨c', h, rfl⟩ | ⟨h, _⟩)
    · rw [ha c' h]; rfl
    · exact absurd h0 (h c0)
  · intro h
    refine .inl ⟨c, ?_, h⟩
    rw [← ha c0 h0]; exact h0

theorem bind_congr {R S : Type} {x : ND R} {f g : R → ND S} (h : ∀ r, x (.ok r) → f r = g r) :
    x >>= f = x >>= g := by
  funext o
  apply propext
  constructor
  · rintro (h' | ⟨r, hr, h'⟩)
    · exact .inl h'
    · exact .inr ⟨r, hr, h r hr ▸ h'⟩
  · rintro (h' | ⟨r, hr, h'⟩)
    · exact .inl h'
    · exact .inr ⟨r, hr, (h r hr).symm ▸ h'⟩

theorem size_distribute {obj : Multiplier α} {br x y n : Nat} {C : Array α}
    (h : Recursive.distribute_recursively (calculate_submatrix obj) br x y n (.ok C)) : C.size = n * n :=
  distribute_size (fun _ _ _ _ h => calculate_size h) n x y C h

theorem distribute_eq {names : Names α} {loc br verbose : Nat} {obj : Multiplier α}
    (g : Good names loc obj br verbose) (n : Nat) : ∀ x y,
    distribute_recursively names ⟨loc, br, verbose⟩ x y n =
      Recursive.distribute_recursively (calculate_submatrix obj) br x y n >>= fun C =>
        pure (C, log loc br verbose x y n) := by
  induction n using Nat.strongRecOn with
  | _ n ih =>
    intro x y
    rw [distribute_recursively, Recursive.distribute_recursively, log]
    by_cases h : n ≤ br
    · simp only [h, dite_true]
      rw [connect_to_eq g.m g.m', ND.pure_bind']
      refine bind_congr fun C hC => ?_
      rw [calculate_size hC.symm]
    · have hlt : n / 2 < n := by omega
      simp only [h, dite_false]
      rw [connect_to_eq g.r g.r', ND.pure_bind']
      simp only [ih _ hlt, ND.bind_assoc, ND.pure_bind', Nat.add_zero, Nat.zero_add]
      refine bind_congr fun s0 h0 => bind_congr fun s1 h1 => bind_congr fun s2 h2 => bind_congr fun s3 h3 =>
        bind_congr fun C _ => ?_
      rw [size_distribute h0, size_distribute h1, size_distribute h2, size_distribute h3]

theorem foldlM_log {ι S : Type} (l : List ι) (body : S → ND S) (ev : List Event) :
    ∀ (s : S) (ev0 : List Event),
    l.foldlM (fun (st : S × List Event) _ => body st.1 >>= fun C => pure (C, st.2 ++ ev)) (s, ev0) =
      (l.foldlM (fun s _ => body s) s : ND S) >>= fun C => pure (C, ev0 ++ l.flatMap fun _ => ev) := by
  induction l with
  | nil => intro s ev0; simp [ND.pure_bind']
  | cons i l ih =>
    intro s ev0
    simp only [List.foldlM_cons, ND.bind_assoc, ND.pure_bind', ih, List.flatMap_cons, List.append_assoc]

/-- `ev`, `n` times. -/
def times (n : Nat) (ev : List Event) : List Event := (steps 0 n 1).flatMap fun _ => ev

theorem single_eq (here N : Nat) (A B : Array α) (t : Bool) (br bi reps verbose : Nat) :
    single_matrix_multiply here N A B t br bi reps verbose =
      Recursive.single_matrix_multiply N A B t br bi reps >>= fun C =>
        pure (C, Event.moved here here (A.size + B.size) ::
          times reps (log here br verbose 0 0 N ++ [Event.moved here here (N * N)])) := by
  unfold single_matrix_multiply Recursive.single_matrix_multiply times
  dsimp only
  rw [forStep_eq Nat.one_pos, forStep_eq Nat.one_pos]
  have g : Good (α := α)
      ⟨[(multiplierName here, ⟨here, ⟨N, A, B, t, bi⟩⟩)], [(recursiveName here, ⟨here, br, verbose⟩)]⟩
      here ⟨N, A, B, t, bi⟩ br verbose := by
    constructor <;> simp
  simp only [distribute_eq g, ND.bind_assoc, ND.pure_bind']
  have hb : ∀ st : Array α × List Event,
      (Recursive.distribute_recursively (calculate_submatrix ⟨N, A, B, t, bi⟩) br 0 0 N >>= fun C =>
        (pure (C, st.2 ++ (log here br verbose 0 0 N ++ [Event.moved here here C.size])) :
          ND (Array α × List Event))) =
      Recursive.distribute_recursively (calculate_submatrix ⟨N, A, B, t, bi⟩) br 0 0 N >>= fun C =>
        pure (C, st.2 ++ (log here br verbose 0 0 N ++ [Event.moved here here (N * N)])) := fun st =>
    bind_congr fun C hC => by rw [size_distribute hC]
  simp only [hb]
  rw [foldlM_log (steps 0 reps 1)
    (fun _ => Recursive.distribute_recursively (calculate_submatrix ⟨N, A, B, t, bi⟩) br 0 0 N)]
  simp only [List.cons_append, List.nil_append]

theorem computePackages_append (mult : Nat → Nat → Nat → M (Array α)) (br : Nat) (a b : List Work) :
    computePackages mult br (a ++ b) =
      computePackages mult br a >>= fun ra => computePackages mult br b >>= fun rb =>
        pure (ra ++ rb) := by
  induction a with
  | nil =>
    simp only [List.nil_append, computePackages, ND.pure_bind']
    funext o
    apply propext
    constructor
    · intro h
      cases o with
      | ok r => exact .inr ⟨r, h, rfl⟩
      | error e => exact .inl ⟨e, h, rfl⟩
    · rintro (⟨e, h, rfl⟩ | ⟨r, h, h'⟩)
      · exact h
      · cases h'; exact h
  | cons w a ih =>
    simp only [List.cons_append, computePackages, ih, ND.bind_assoc, ND.pure_bind']

/-- The events of the packages of one locality. -/
def workLog (here loc br verbose : Nat) (ws : List Work) : List Event :=
  ws.flatMap fun w => log loc br verbose w.x w.y w.N ++ [Event.moved loc here (w.N * w.N)]

theorem localityWork_eq {names : Names α} {ids : List Nat} {here br verbose i l : Nat} {obj : Multiplier α}
    (hl : ids[i]? = some l) : ∀ (ws : List Work) (_ : ws ≠ [] → Good names l obj br verbose),
    localityWork names ids here br verbose i ws =
      computePackages (calculate_submatrix obj) br ws >>= fun r => pure (r, workLog here l br verbose ws)
  | [], _ => by simp only [localityWork, computePackages, ND.pure_bind', workLog, List.flatMap_nil]
  | w :: ws, g => by
    have g := g (by simp)
    have hid : idAt ids i = .ok l := by simp only [idAt, hl]
    simp only [localityWork, computePackages, hid, ND.ofM_ok, ND.pure_bind', distribute_eq g,
      localityWork_eq hl ws (fun _ => g), ND.bind_assoc, workLog, List.flatMap_cons]
    refine bind_congr fun sub hsub => ?_
    rw [size_distribute hsub]

/-- The events of all packages. -/
def allLog (here br verbose : Nat) : List Nat → List (List Work) → List Event
  | l :: ids, ws :: rest => workLog here l br verbose ws ++ allLog here br verbose ids rest
  | _, _ => []

theorem allWork_eq {names : Names α} {ids : List Nat} {here br verbose : Nat} {obj : Multiplier α} :
    ∀ (aw : List (List Work)) (i : Nat), i + aw.length ≤ ids.length →
    (∀ j l, ids[i + j]? = some l → (aw.getD j []) ≠ [] → Good names l obj br verbose) →
    allWork names ids here br verbose i aw =
      computePackages (calculate_submatrix obj) br aw.flatten >>= fun r =>
        pure (r, allLog here br verbose (ids.drop i) aw)
  | [], i, _, _ => by
    simp only [allWork, List.flatten_nil, computePackages, ND.pure_bind']
    cases h : ids.drop i <;> rfl
  | ws :: rest, i, hlen, g => by
    simp only [List.length_cons] at hlen
    have hi : i < ids.length := by omega
    have hl : ids[i]? = some ids[i] := List.getElem?_eq_getElem hi
    have h0 := localityWork_eq (names := names) (ids := ids) (here := here) (br := br) (verbose := verbose) (obj := obj) hl ws
      (fun h => g 0 _ (by simp) (by simpa using h))
    have h1 := allWork_eq (names := names) (ids := ids) (here := here) (br := br) (verbose := verbose) (obj := obj) rest (i + 1)
      (by omega) (fun j l hj hne => g (j + 1) l (by rw [← hj]; congr 1; omega) (by simpa using hne))
    rw [List.drop_eq_getElem_cons hi]
    simp only [allWork, h0, h1, List.flatten_cons, computePackages_append, ND.bind_assoc,
      ND.pure_bind', allLog]

theorem mem_registered {ids : List Nat} {br v reps : Nat} {aw : List (List Work)} {name : Text}
    {c : RecursiveAt} : (name, c) ∈ registered ids br v reps aw ↔
      0 < reps ∧ ∃ i l, ids[i]? = some l ∧ aw.getD i [] ≠ [] ∧ name = recursiveName l ∧
        c = ⟨l, br, v⟩ := by
  simp only [registered, List.mem_flatMap, List.mem_range]
  constructor
  · rintro ⟨k, hk, i, hi, w, hw, hc⟩
    refine ⟨by omega, i, ?_⟩
    unfold created at hc
    cases h : ids[i]? with
    | none => rw [h] at hc; simp at hc
    | some l =>
      rw [h] at hc
      simp only [List.mem_singleton, Prod.mk.injEq] at hc
      exact ⟨l, rfl, List.ne_nil_of_mem hw, hc.1, hc.2⟩
  · rintro ⟨hr, i, l, hl, hne, rfl, rfl⟩
    refine ⟨0, hr, i, ?_, ?_⟩
    · by_contra h
      apply hne
      simp only [List.getD_eq_getElem?_getD, List.getElem?_eq_none (Nat.le_of_not_lt h), Option.getD_none]
    · obtain ⟨w, hw⟩ := List.exists_mem_of_ne_nil _ hne
      exact ⟨w, hw, by simp only [created, hl, List.mem_singleton]⟩

theorem computing_length {all : List Nat} {root : Nat} (hroot : root ∈ all) :
    (computing all root).length = if 1 < all.length then all.length - 1 else all.length := by
  unfold computing
  split
  · exact List.length_erase_of_mem hroot
  · rfl

theorem create_schedule_length {p : Params} {N L : Nat} {aw : List (List Work)}
    (h : create_schedule p N L = .ok aw) : aw.length = L := by
  rcases Nat.eq_zero_or_pos L with rfl | hL
  · simp [create_schedule, create_schedule_state] at h
  · obtain ⟨⟨aw', h', hlen⟩, _⟩ := Props.C15_schedule_terminates p N L hL
    rw [h] at h'
    cases h'
    exact hlen

theorem matrix_multiply_eq (p : Params) (N : Nat) (A B : Array α) (t : Bool)
    (bi br reps verbose : Nat) (all : List Nat) (root : Nat) (hroot : root ∈ all) :
    matrix_multiply p N A B t bi br reps verbose all root =
      ND.ofM (create_schedule p N (computing all root).length) >>= fun aw =>
      StaticImproved.matrix_multiply p N A B t bi br reps all.length >>= fun C =>
        pure (C, ((computing all root).map fun l => Event.moved root l (A.size + B.size)) ++
          times reps (allLog root br verbose (computing all root) aw)) := by
  rw [computing_length hroot]
  unfold matrix_multiply StaticImproved.matrix_multiply times
  dsimp only
  cases haw : create_schedule p N (if 1 < all.length then all.length - 1 else all.length) with
  | error e =>
    have h : ∀ {R S : Type} (f : R → ND S), ND.ofM (.error e : M R) >>= f = ND.fail e :=
      fun f => ND.fail_bind e f
    simp only [h]
  | ok aw =>
    simp only [ND.ofM_ok, ND.pure_bind']
    rw [forStep_eq Nat.one_pos, forStep_eq Nat.one_pos]
    rcases Nat.eq_zero_or_pos reps with rfl | hr
    · have h0 : steps 0 0 1 = [] := by decide
      simp only [h0, List.foldlM_nil, ND.pure_bind', List.flatMap_nil, List.append_nil]
    have hlen := create_schedule_length haw
    rw [← computing_length hroot] at hlen
    have hw := allWork_eq (α := α)
      (names := ⟨(computing all root).map fun l => (multiplierName l, ⟨l, ⟨N, A, B, t, bi⟩⟩),
        registered (computing all root) br verbose reps aw⟩)
      (ids := computing all root) (here := root) (br := br) (verbose := verbose) (obj := ⟨N, A, B, t, bi⟩) aw 0
      (by omega) (fun j l hj hne => by
        rw [Nat.zero_add] at hj
        refine ⟨⟨_, List.mem_map.2 ⟨l, List.mem_of_getElem? hj, rfl⟩⟩, fun c hc => ?_,
          ⟨_, mem_registered.2 ⟨hr, j, l, hj, hne, rfl, rfl⟩⟩, fun c hc => ?_⟩
        · obtain ⟨l', _, h⟩ := List.mem_map.1 hc
          simp only [Prod.mk.injEq] at h
          rw [← h.2, multiplierName_inj h.1]
        · obtain ⟨_, i, l', _, _, hn, rfl⟩ := mem_registered.1 hc
          rw [recursiveName_inj hn])
    simp only [hw, List.drop_zero, ND.bind_assoc, ND.pure_bind']
    have := foldlM_log (steps 0 reps 1)
      (fun C => computePackages (calculate_submatrix ⟨N, A, B, t, bi⟩) br aw.flatten >>= fun subs =>
        ND.runOn C (.par (subs.map fun ws => .act (insert_submatrix N ws.2 ws.1))))
      (allLog root br verbose (computing all root) aw) (zeros (N * N))
      ((computing all root).map fun l => Event.moved root l (A.size + B.size))
    simp only [ND.bind_assoc] at this
    exact this

/-! ### Counting events -/

theorem halvings_le {br n : Nat} (h : n ≤ br) : halvings br n = 0 := by
  rw [halvings, if_pos h]

theorem halvings_gt {br n : Nat} (h : br < n) : halvings br n = halvings br (n / 2) + 1 := by
  rw [halvings, if_neg (by omega)]

theorem leafSize_halvings (br n : Nat) : leafSize br n = n / 2 ^ halvings br n := by
  induction n using Nat.strongRecOn with
  | ind n ih =>
    rcases Nat.lt_or_ge br n with h | h
    · rw [leafSize_gt h, halvings_gt h, ih _ (by omega), Nat.div_div_eq_div_mul, Nat.pow_succ,
        Nat.mul_comm]
    · rw [leafSize_le h, halvings_le h]; simp

theorem log_le {loc br v x y n : Nat} (h : n ≤ br) : log loc br v x y n =
    (if v ≥ 1 then [Event.workOn loc x y n] else []) ++
      [Event.submatrix loc x y n, Event.moved loc loc (n * n)] := by
  rw [log]; simp only [h, dite_true]

theorem log_gt {loc br v x y n : Nat} (h : br < n) : log loc br v x y n =
    ((if v ≥ 1 then [Event.workOn loc x y n] else []) ++ if v ≥ 1 then [Event.large n] else []) ++
      ((log loc br v x y (n / 2) ++ [Event.moved loc loc (n / 2 * (n / 2))]) ++
        (log loc br v (x + n / 2) y (n / 2) ++ [Event.moved loc loc (n / 2 * (n / 2))]) ++
        (log loc br v x (y + n / 2) (n / 2) ++ [Event.moved loc loc (n / 2 * (n / 2))]) ++
        (log loc br v (x + n / 2) (y + n / 2) (n / 2) ++ [Event.moved loc loc (n / 2 * (n / 2))])) := by
  rw [log]; simp only [Nat.not_le.2 h, dite_false]

theorem submatrices_append (a b : List Event) :
    submatrices (a ++ b) = submatrices a + submatrices b := List.countP_append ..
theorem works_append (a b : List Event) : works (a ++ b) = works a + works b := List.countP_append ..
theorem larges_append (a b : List Event) : larges (a ++ b) = larges a + larges b := List.countP_append ..
theorem worksOfSize_append (n : Nat) (a b : List Event) :
    worksOfSize n (a ++ b) = worksOfSize n a + worksOfSize n b := List.countP_append ..
theorem largesOfSize_append (n : Nat) (a b : List Event) :
    largesOfSize n (a ++ b) = largesOfSize n a + largesOfSize n b := List.countP_append ..
theorem elementsOn_append (l : Nat) (a b : List Event) :
    elementsOn l (a ++ b) = elementsOn l a + elementsOn l b := by
  simp [elementsOn]

theorem submatrices_moved (a b n : Nat) : submatrices [Event.moved a b n] = 0 := rfl
theorem works_moved (a b n : Nat) : works [Event.moved a b n] = 0 := rfl
theorem larges_moved (a b n : Nat) : larges [Event.moved a b n] = 0 := rfl
theorem worksOfSize_moved (m a b n : Nat) : worksOfSize m [Event.moved a b n] = 0 := rfl
theorem largesOfSize_moved (m a b n : Nat) : largesOfSize m [Event.moved a b n] = 0 := rfl
theorem elementsOn_moved (l a b n : Nat) : elementsOn l [Event.moved a b n] = 0 := rfl

theorem submatrices_log (loc br v n : Nat) : ∀ x y,
    submatrices (log loc br v x y n) = 4 ^ halvings br n := by
  induction n using Nat.strongRecOn with
  | ind n ih =>
    intro x y
    rcases Nat.lt_or_ge br n with h | h
    · rw [log_gt h, halvings_gt h]
      simp only [submatrices_append, submatrices_moved, ih (n / 2) (by omega)]
      have : submatrices (if v ≥ 1 then [Event.workOn loc x y n] else []) = 0 := by split <;> rfl
      have : submatrices (if v ≥ 1 then [Event.large n] else []) = 0 := by split <;> rfl
      rw [Nat.pow_succ]; omega
    · rw [log_le h, halvings_le h, submatrices_append]
      have : submatrices (if v ≥ 1 then [Event.workOn loc x y n] else []) = 0 := by split <;> rfl
      rw [this]; rfl

theorem works_log {v : Nat} (hv : 1 ≤ v) (loc br n : Nat) : ∀ x y,
    3 * works (log loc br v x y n) + 1 = 4 ^ (halvings br n + 1) := by
  induction n using Nat.strongRecOn with
  | ind n ih =>
    intro x y
    rcases Nat.lt_or_ge br n with h | h
    · rw [log_gt h, halvings_gt h]
      simp only [works_append, works_moved, ge_iff_le, hv, if_true]
      have h0 := ih (n / 2) (by omega) x y
      have h1 := ih (n / 2) (by omega) (x + n / 2) y
      have h2 := ih (n / 2) (by omega) x (y + n / 2)
      have h3 := ih (n / 2) (by omega) (x + n / 2) (y + n / 2)
      have : works [Event.workOn loc x y n] = 1 := rfl
      have : works [Event.large n] = 0 := rfl
      rw [Nat.pow_succ 4 (halvings br (n / 2) + 1)]; omega
    · rw [log_le h, halvings_le h, works_append]
      simp only [ge_iff_le, hv, if_true]; rfl

theorem larges_log {v : Nat} (hv : 1 ≤ v) (loc br n : Nat) : ∀ x y,
    3 * larges (log loc br v x y n) + 1 = 4 ^ halvings br n := by
  induction n using Nat.strongRecOn with
  | ind n ih =>
    intro x y
    rcases Nat.lt_or_ge br n with h | h
    · rw [log_gt h, halvings_gt h]
      simp only [larges_append, larges_moved, ge_iff_le, hv, if_true]
      have h0 := ih (n / 2) (by omega) x y
      have h1 := ih (n / 2) (by omega) (x + n / 2) y
      have h2 := ih (n / 2) (by omega) x (y + n / 2)
      have h3 := ih (n / 2) (by omega) (x + n / 2) (y + n / 2)
      have : larges [Event.workOn loc x y n] = 0 := rfl
      have : larges [Event.large n] = 1 := rfl
      rw [Nat.pow_succ 4 (halvings br (n / 2))]; omega
    · rw [log_le h, halvings_le h, larges_append]
      simp only [ge_iff_le, hv, if_true]; rfl

/-- What the events of a block say about it. -/
theorem mem_log {loc br v n : Nat} : ∀ {x y : Nat} {e : Event}, e ∈ log loc br v x y n →
    (∃ x' y' m, (e = .workOn loc x' y' m ∨ (m = leafSize br n ∧ e = .submatrix loc x' y' m)) ∧
      x ≤ x' ∧ x' + m ≤ x + n ∧ y ≤ y' ∧ y' + m ≤ y + n ∧ (1 ≤ v ∨ e = .submatrix loc x' y' m)) ∨
    (1 ≤ v ∧ ∃ m, e = .large m ∧ br < m ∧ m ≤ n) ∨ ∃ m, e = .moved loc loc m := by
  induction n using Nat.strongRecOn with
  | ind n ih =>
    intro x y e he
    rcases Nat.lt_or_ge br n with h | h
    · rw [log_gt h] at he
      simp only [List.mem_append] at he
      have step : ∀ a b, a ≤ 1 → b ≤ 1 → e ∈ log loc br v (x + a * (n / 2)) (y + b * (n / 2)) (n / 2) →
          (∃ x' y' m, (e = .workOn loc x' y' m ∨ (m = leafSize br n ∧ e = .submatrix loc x' y' m)) ∧
            x ≤ x' ∧ x' + m ≤ x + n ∧ y ≤ y' ∧ y' + m ≤ y + n ∧ (1 ≤ v ∨ e = .submatrix loc x' y' m)) ∨
          (1 ≤ v ∧ ∃ m, e = .large m ∧ br < m ∧ m ≤ n) ∨ ∃ m, e = .moved loc loc m := by
        intro a b ha hb he
        have ha' : a * (n / 2) ≤ n / 2 := by
          rcases Nat.le_one_iff_eq_zero_or_eq_one.1 ha with rfl | rfl <;> simp
        have hb' : b * (n / 2) ≤ n / 2 := by
          rcases Nat.le_one_iff_eq_zero_or_eq_one.1 hb with rfl | rfl <;> simp
        rcases ih (n / 2) (by omega) he with ⟨x', y', m, h1, h2, h3, h4, h5, h6⟩ |
          ⟨hv, m, h1, h2, h3⟩ | h1
        · rw [leafSize_gt h]
          exact .inl ⟨x', y', m, h1, by omega, by omega, by omega, by omega, h6⟩
        · exact .inr (.inl ⟨hv, m, h1, h2, by omega⟩)
        · exact .inr (.inr h1)
      rcases he with (he | he) | (((he | he) | (he | he)) | (he | he)) | (he | he)
      · split at he
        · rename_i hv
          rw [List.mem_singleton] at he
          exact .inl ⟨x, y, n, .inl he, by omega, by omega, by omega, by omega, .inl hv⟩
        · cases he
      · split at he
        · rename_i hv
          rw [List.mem_singleton] at he
          exact .inr (.inl ⟨hv, n, he, h, by omega⟩)
        · cases he
      · exact step 0 0 (by omega) (by omega) (by simpa using he)
      · exact .inr (.inr ⟨_, List.mem_singleton.1 he⟩)
      · exact step 1 0 (by omega) (by omega) (by simpa using he)
      · exact .inr (.inr ⟨_, List.mem_singleton.1 he⟩)
      · exact step 0 1 (by omega) (by omega) (by simpa using he)
      · exact .inr (.inr ⟨_, List.mem_singleton.1 he⟩)
      · exact step 1 1 (by omega) (by omega) (by simpa using he)
      · exact .inr (.inr ⟨_, List.mem_singleton.1 he⟩)
    · rw [log_le h] at he
      rw [List.mem_append] at he
      rcases he with he | he
      · split at he
        · rename_i hv
          rw [List.mem_singleton] at he
          exact .inl ⟨x, y, n, .inl he, by omega, by omega, by omega, by omega, .inl hv⟩
        · cases he
      · rw [List.mem_cons, List.mem_singleton] at he
        rcases he with he | he
        · exact .inl ⟨x, y, n, .inr ⟨(leafSize_le h).symm, he⟩, by omega, by omega, by omega, by omega,
            .inr he⟩
        · exact .inr (.inr ⟨_, he⟩)

theorem worksOfSize_large {loc br v m n : Nat} (h : n < m) (x y : Nat) :
    worksOfSize m (log loc br v x y n) = 0 := by
  unfold worksOfSize
  rw [List.countP_eq_zero]
  intro e he
  rcases mem_log he with ⟨x', y', m', h1 | ⟨_, h1⟩, _, _, _, _, _⟩ | ⟨_, m', h1, _⟩ | ⟨m', h1⟩ <;> subst h1
  · simp only [beq_iff_eq]; omega
  · simp
  · simp
  · simp

theorem worksOfSize_log {v : Nat} (hv : 1 ≤ v) (loc br n : Nat) : ∀ k, k ≤ halvings br n → ∀ x y,
    worksOfSize (n / 2 ^ k) (log loc br v x y n) = 4 ^ k := by
  induction n using Nat.strongRecOn with
  | ind n ih =>
    intro k hk x y
    rcases Nat.lt_or_ge br n with h | h
    · rw [log_gt h]
      simp only [worksOfSize_append, worksOfSize_moved, ge_iff_le, hv, if_true]
      have hl : worksOfSize (n / 2 ^ k) [Event.large n] = 0 := rfl
      cases k with
      | zero =>
        have : worksOfSize n [Event.workOn loc x y n] = 1 := by simp [worksOfSize]
        simp only [Nat.pow_zero, Nat.div_one] at hl ⊢
        rw [this, hl, worksOfSize_large (by omega), worksOfSize_large (by omega),
          worksOfSize_large (by omega), worksOfSize_large (by omega)]
      | succ k =>
        rw [halvings_gt h] at hk
        have hd : n / 2 ^ (k + 1) = n / 2 / 2 ^ k := by
          rw [Nat.div_div_eq_div_mul, Nat.pow_succ, Nat.mul_comm]
        have hlt : n / 2 / 2 ^ k < n := by
          have := Nat.div_le_self (n / 2) (2 ^ k); omega
        have h0 : worksOfSize (n / 2 / 2 ^ k) [Event.workOn loc x y n] = 0 := by
          simp only [worksOfSize, List.countP_singleton, beq_iff_eq]
          rw [if_neg (by omega)]
        have h1 : worksOfSize (n / 2 / 2 ^ k) [Event.large n] = 0 := rfl
        rw [hd, h0, h1]
        simp only [ih (n / 2) (by omega) k (by omega)]
        rw [Nat.pow_succ]; omega
    · rw [halvings_le h] at hk
      obtain rfl : k = 0 := by omega
      rw [log_le h, worksOfSize_append]
      simp only [ge_iff_le, hv, if_true]
      simp [worksOfSize]

theorem largesOfSize_large {loc br v m n : Nat} (h : n < m) (x y : Nat) :
    largesOfSize m (log loc br v x y n) = 0 := by
  unfold largesOfSize
  rw [List.countP_eq_zero]
  intro e he
  rcases mem_log he with ⟨x', y', m', h1 | ⟨_, h1⟩, _, _, _, _, _⟩ | ⟨_, m', h1, _⟩ | ⟨m', h1⟩ <;> subst h1
  · simp
  · simp
  · simp only [beq_iff_eq]; omega
  · simp

theorem largesOfSize_log {v : Nat} (hv : 1 ≤ v) (loc br n : Nat) : ∀ k, k < halvings br n → ∀ x y,
    largesOfSize (n / 2 ^ k) (log loc br v x y n) = 4 ^ k := by
  induction n using Nat.strongRecOn with
  | ind n ih =>
    intro k hk x y
    rcases Nat.lt_or_ge br n with h | h
    · rw [log_gt h]
      simp only [largesOfSize_append, largesOfSize_moved, ge_iff_le, hv, if_true]
      cases k with
      | zero =>
        have h0 : largesOfSize n [Event.workOn loc x y n] = 0 := rfl
        have h1 : largesOfSize n [Event.large n] = 1 := by simp [largesOfSize]
        simp only [Nat.pow_zero, Nat.div_one]
        rw [h0, h1, largesOfSize_large (by omega), largesOfSize_large (by omega),
          largesOfSize_large (by omega), largesOfSize_large (by omega)]
      | succ k =>
        rw [halvings_gt h] at hk
        have hd : n / 2 ^ (k + 1) = n / 2 / 2 ^ k := by
          rw [Nat.div_div_eq_div_mul, Nat.pow_succ, Nat.mul_comm]
        have hlt : n / 2 / 2 ^ k < n := by
          have := Nat.div_le_self (n / 2) (2 ^ k); omega
        have h0 : largesOfSize (n / 2 / 2 ^ k) [Event.workOn loc x y n] = 0 := rfl
        have h1 : largesOfSize (n / 2 / 2 ^ k) [Event.large n] = 0 := by
          simp only [largesOfSize, List.countP_singleton, beq_iff_eq]
          rw [if_neg (by omega)]
        rw [hd, h0, h1]
        simp only [ih (n / 2) (by omega) k (by omega)]
        rw [Nat.pow_succ]; omega
    · rw [halvings_le h] at hk
      omega

theorem elementsOn_log (l loc br v n : Nat) : ∀ x y,
    elementsOn l (log loc br v x y n) =
      if loc = l then (2 ^ halvings br n * (n / 2 ^ halvings br n)) ^ 2 else 0 := by
  induction n using Nat.strongRecOn with
  | ind n ih =>
    intro x y
    have z1 : elementsOn l (if v ≥ 1 then [Event.workOn loc x y n] else []) = 0 := by split <;> rfl
    have z2 : elementsOn l (if v ≥ 1 then [Event.large n] else []) = 0 := by split <;> rfl
    rcases Nat.lt_or_ge br n with h | h
    · rw [log_gt h, halvings_gt h]
      simp only [elementsOn_append, elementsOn_moved, ih (n / 2) (by omega), z1, z2]
      split
      · have hd : n / 2 ^ (halvings br (n / 2) + 1) = n / 2 / 2 ^ halvings br (n / 2) := by
          rw [Nat.div_div_eq_div_mul, Nat.pow_succ, Nat.mul_comm]
        rw [hd]
        generalize n / 2 / 2 ^ halvings br (n / 2) = s
        generalize halvings br (n / 2) = h
        ring
      · rfl
    · rw [log_le h, halvings_le h, elementsOn_append, z1]
      simp [elementsOn, Nat.pow_two]

theorem times_succ (n : Nat) (ev : List Event) : times (n + 1) ev = times n ev ++ ev := by
  unfold times steps
  have h : ∀ m, ceilDiv (m - 0) 1 = m := fun m => by simp [ceilDiv]
  simp only [h, List.range_succ, List.map_append, List.flatMap_append, List.map_cons, List.map_nil,
    List.flatMap_cons, List.flatMap_nil, List.append_nil]

theorem mem_times {n : Nat} {ev : List Event} {e : Event} (h : e ∈ times n ev) : e ∈ ev := by
  obtain ⟨_, _, h⟩ := List.mem_flatMap.1 h
  exact h

/-- A function that adds up over lists. -/
theorem measure_times {f : List Event → Nat} (h0 : f [] = 0) (h : ∀ a b, f (a ++ b) = f a + f b)
    (n : Nat) (ev : List Event) : f (times n ev) = n * f ev := by
  induction n with
  | zero =>
    have : times 0 ev = [] := by
      have : steps 0 0 1 = [] := by decide
      simp only [times, this, List.flatMap_nil]
    rw [this, h0, Nat.zero_mul]
  | succ n ih => rw [times_succ, h, ih, Nat.succ_mul]

theorem measure_workLog {f : List Event → Nat} (h0 : f [] = 0) (h : ∀ a b, f (a ++ b) = f a + f b)
    (here loc br v : Nat) (ws : List Work) : f (workLog here loc br v ws) =
      (ws.map fun w => f (log loc br v w.x w.y w.N) + f [Event.moved loc here (w.N * w.N)]).sum := by
  induction ws with
  | nil => exact h0
  | cons w ws ih =>
    simp only [workLog, List.flatMap_cons, h, List.map_cons, List.sum_cons] at ih ⊢
    rw [ih]

theorem measure_allLog {f : List Event → Nat} (h0 : f [] = 0) (h : ∀ a b, f (a ++ b) = f a + f b)
    {g : Work → Nat} {here br v : Nat} : ∀ (ids : List Nat) (aw : List (List Work)),
    (∀ l ∈ ids, ∀ w : Work,
      f (log l br v w.x w.y w.N) + f [Event.moved l here (w.N * w.N)] = g w) →
    aw.length ≤ ids.length → f (allLog here br v ids aw) = (aw.flatten.map g).sum
  | _, [], _, _ => by
    have : ∀ ids, allLog here br v ids [] = [] := fun ids => by cases ids <;> rfl
    rw [this, h0]; rfl
  | [], _ :: _, _, hl => by simp at hl
  | l :: ids, ws :: rest, hg, hl => by
    simp only [List.length_cons, Nat.add_le_add_iff_right] at hl
    simp only [allLog, h, measure_workLog h0 h, hg l List.mem_cons_self,
      measure_allLog h0 h ids rest (fun l hl => hg l (List.mem_cons_of_mem _ hl)) hl, List.flatten_cons,
      List.map_append, List.sum_append]

theorem mem_allLog {here br v : Nat} {e : Event} : ∀ {ids : List Nat} {aw : List (List Work)},
    e ∈ allLog here br v ids aw → ∃ (i l : Nat) (ws : List Work) (w : Work), ids[i]? = some l ∧
      aw[i]? = some ws ∧ w ∈ ws ∧ (e ∈ log l br v w.x w.y w.N ∨ e = .moved l here (w.N * w.N))
  | [], _, h => by simp [allLog] at h
  | _ :: _, [], h => by simp [allLog] at h
  | l :: ids, ws :: rest, h => by
    rw [allLog, List.mem_append] at h
    rcases h with h | h
    · obtain ⟨w, hw, h⟩ := List.mem_flatMap.1 h
      rw [List.mem_append, List.mem_singleton] at h
      exact ⟨0, l, ws, w, rfl, rfl, hw, h⟩
    · obtain ⟨i, l', ws', w, h1, h2, h3, h4⟩ := mem_allLog h
      exact ⟨i + 1, l', ws', w, by simpa using h1, by simpa using h2, h3, h4⟩

theorem elementsOn_nil (l : Nat) : elementsOn l [] = 0 := rfl

theorem elementsOn_workLog (l here loc br v : Nat) (ws : List Work) :
    elementsOn l (workLog here loc br v ws) =
    if loc = l then
      (ws.map fun w => (2 ^ halvings br w.N * (w.N / 2 ^ halvings br w.N)) ^ 2).sum else 0 := by
  rw [measure_workLog (elementsOn_nil l) (elementsOn_append l)]
  simp only [elementsOn_log, elementsOn_moved, Nat.add_zero]
  split
  · rfl
  · induction ws with
    | nil => rfl
    | cons w ws ih => simp

theorem elementsOn_allLog {here br v l : Nat} : ∀ {ids : List Nat} {aw : List (List Work)} {i : Nat}
    {ws : List Work}, ids.Nodup → ids[i]? = some l → aw[i]? = some ws →
    elementsOn l (allLog here br v ids aw) =
      (ws.map fun w => (2 ^ halvings br w.N * (w.N / 2 ^ halvings br w.N)) ^ 2).sum
  | [], _, _, _, _, h, _ => by simp at h
  | _ :: _, [], _, _, _, _, h => by simp at h
  | l0 :: ids, ws0 :: rest, i, ws, hnd, hl, hw => by
    rw [List.nodup_cons] at hnd
    rw [allLog, elementsOn_append, elementsOn_workLog]
    cases i with
    | zero =>
      simp only [List.getElem?_cons_zero, Option.some.injEq] at hl hw
      subst hl; subst hw
      rw [if_pos rfl]
      have : elementsOn l0 (allLog here br v ids rest) = 0 := by
        unfold elementsOn
        rw [List.sum_eq_zero_iff]
        intro t ht
        obtain ⟨e, he, rfl⟩ := List.mem_map.1 ht
        obtain ⟨i, l, ws, w, h1, h2, h3, h4⟩ := mem_allLog he
        have hne : l ≠ l0 := fun h => hnd.1 (h ▸ List.mem_of_getElem? h1)
        rcases h4 with h4 | rfl
        · rcases mem_log h4 with ⟨x', y', m', h1 | ⟨_, h1⟩, _, _, _, _, _⟩ | ⟨_, m', h1, _⟩ | ⟨m', h1⟩ <;> subst h1
          · rfl
          · simp [hne]
          · rfl
          · rfl
        · rfl
      rw [this, Nat.add_zero]
    | succ i =>
      simp only [List.getElem?_cons_succ] at hl hw
      have hne : l0 ≠ l := fun h => hnd.1 (h ▸ List.mem_of_getElem? hl)
      rw [if_neg hne, Nat.zero_add, elementsOn_allLog hnd.2 hl hw]

theorem sent_append (a b : List Event) : sent (a ++ b) = sent a + sent b := by simp [sent]

theorem sentFromTo_append (a b : Nat) (s t : List Event) :
    sentFromTo a b (s ++ t) = sentFromTo a b s + sentFromTo a b t := by simp [sentFromTo]

theorem sent_moved (a b n : Nat) : sent [Event.moved a b n] = if a = b then 0 else n := by simp [sent]

theorem sentFromTo_moved (a b a' b' n : Nat) :
    sentFromTo a b [Event.moved a' b' n] = if a' = a ∧ b' = b then n else 0 := by simp [sentFromTo]

theorem sent_log (loc br v x y n : Nat) : sent (log loc br v x y n) = 0 := by
  unfold sent
  rw [List.sum_eq_zero_iff]
  intro t ht
  obtain ⟨e, he, rfl⟩ := List.mem_map.1 ht
  rcases mem_log he with ⟨x', y', m', h1 | ⟨_, h1⟩, _, _, _, _, _⟩ | ⟨_, m', h1, _⟩ | ⟨m', h1⟩ <;> subst h1
  · rfl
  · rfl
  · rfl
  · simp

theorem sentFromTo_log {a b : Nat} (hab : a ≠ b) (loc br v x y n : Nat) :
    sentFromTo a b (log loc br v x y n) = 0 := by
  unfold sentFromTo
  rw [List.sum_eq_zero_iff]
  intro t ht
  obtain ⟨e, he, rfl⟩ := List.mem_map.1 ht
  rcases mem_log he with ⟨x', y', m', h1 | ⟨_, h1⟩, _, _, _, _, _⟩ | ⟨_, m', h1, _⟩ | ⟨m', h1⟩ <;> subst h1
  · rfl
  · rfl
  · rfl
  · exact if_neg fun h => hab (h.1.symm.trans h.2)

/-- No data from a locality that has no work. -/
theorem sentFromTo_allLog_other {here br v a b : Nat} (hab : a ≠ b) {ids : List Nat} {aw : List (List Work)}
    (h : a ∉ ids ∨ b ≠ here) : sentFromTo a b (allLog here br v ids aw) = 0 := by
  unfold sentFromTo
  rw [List.sum_eq_zero_iff]
  intro t ht
  obtain ⟨e, he, rfl⟩ := List.mem_map.1 ht
  obtain ⟨i, l, ws, w, h1, h2, h3, h4 | rfl⟩ := mem_allLog he
  · rcases mem_log h4 with ⟨x', y', m', h1 | ⟨_, h1⟩, _, _, _, _, _⟩ | ⟨_, m', h1, _⟩ | ⟨m', h1⟩ <;> subst h1
    · rfl
    · rfl
    · rfl
    · exact if_neg fun h => hab (h.1.symm.trans h.2)
  · refine if_neg fun h' => ?_
    rcases h with h | h
    · exact h (h'.1 ▸ List.mem_of_getElem? h1)
    · exact h h'.2.symm

theorem sentFromTo_allLog {here br v l : Nat} (hne : l ≠ here) : ∀ {ids : List Nat} {aw : List (List Work)}
    {i : Nat} {ws : List Work}, ids.Nodup → ids[i]? = some l → aw[i]? = some ws →
    sentFromTo l here (allLog here br v ids aw) = (ws.map fun w => w.N * w.N).sum
  | [], _, _, _, _, h, _ => by simp at h
  | _ :: _, [], _, _, _, _, h => by simp at h
  | l0 :: ids, ws0 :: rest, i, ws, hnd, hl, hw => by
    rw [List.nodup_cons] at hnd
    rw [allLog, sentFromTo_append, measure_workLog rfl (sentFromTo_append l here)]
    simp only [sentFromTo_log hne, sentFromTo_moved, Nat.zero_add]
    cases i with
    | zero =>
      simp only [List.getElem?_cons_zero, Option.some.injEq] at hl hw
      subst hl; subst hw
      rw [sentFromTo_allLog_other hne (.inl hnd.1), Nat.add_zero]
      simp
    | succ i =>
      simp only [List.getElem?_cons_succ] at hl hw
      have hne' : l0 ≠ l := fun h => hnd.1 (h ▸ List.mem_of_getElem? hl)
      rw [sentFromTo_allLog hne hnd.2 hl hw]
      simp [hne']

theorem passedOn_append (a b : List Event) : passedOn (a ++ b) = passedOn a + passedOn b := by simp [passedOn]

theorem passedOn_moved (a b n : Nat) : passedOn [Event.moved a b n] = n := by simp [passedOn]

theorem returned_le {br n : Nat} (h : n ≤ br) : returned br n = 2 * n ^ 2 := by
  unfold returned
  rw [halvings_le h]
  simp
  ring

theorem returned_gt {br n : Nat} (h : br < n) : returned br n = n ^ 2 + 4 * returned br (n / 2) := by
  unfold returned
  rw [halvings_gt h, Finset.sum_range_succ']
  have : ∀ k, n / 2 ^ (k + 1) = n / 2 / 2 ^ k := fun k => by
    rw [Nat.pow_succ, Nat.mul_comm, Nat.div_div_eq_div_mul]
  simp only [this, Nat.pow_zero, Nat.div_one, Nat.one_mul, Nat.pow_succ 4, Nat.mul_add, Finset.mul_sum]
  have h4 : ∀ m k : Nat, 4 ^ k * 4 * m = 4 * (4 ^ k * m) := fun m k => by ring
  simp only [h4]
  omega

theorem passedOn_log (loc br v n : Nat) : ∀ x y,
    passedOn (log loc br v x y n) + n * n = returned br n := by
  induction n using Nat.strongRecOn with
  | ind n ih =>
    intro x y
    have h1 : passedOn (if v ≥ 1 then [Event.workOn loc x y n] else []) = 0 := by split <;> rfl
    have h2 : passedOn (if v ≥ 1 then [Event.large n] else []) = 0 := by split <;> rfl
    rcases Nat.lt_or_ge br n with h | h
    · rw [log_gt h, returned_gt h]
      simp only [passedOn_append, passedOn_moved, h1, h2]
      have := fun x y => ih (n / 2) (by omega) x y
      rw [this, this, this, this]
      ring
    · rw [log_le h, returned_le h, passedOn_append, h1]
      show 0 + (0 + (n * n + 0)) + n * n = _
      ring

theorem returned_bound (br n : Nat) : returned br n ≤ (halvings br n + 2) * n ^ 2 ∧
    (2 ^ halvings br n ∣ n → returned br n = (halvings br n + 2) * n ^ 2) := by
  have hk : ∀ k, 4 ^ k * (n / 2 ^ k) ^ 2 = (2 ^ k * (n / 2 ^ k)) ^ 2 := fun k => by
    rw [Nat.mul_pow, ← Nat.pow_mul, Nat.mul_comm k 2, Nat.pow_mul]
  have hle : ∀ k, 4 ^ k * (n / 2 ^ k) ^ 2 ≤ n ^ 2 := fun k => by
    rw [hk]; exact Nat.pow_le_pow_left (Nat.mul_div_le n _) 2
  have hsplit : (halvings br n + 2) * n ^ 2 = (∑ _k ∈ Finset.range (halvings br n + 1), n ^ 2) + n ^ 2 := by
    rw [Finset.sum_const, Finset.card_range, smul_eq_mul]; ring
  unfold returned
  refine ⟨?_, fun hd => ?_⟩
  · rw [hsplit]
    exact Nat.add_le_add (Finset.sum_le_sum fun k _ => hle k) (hle _)
  · have heq : ∀ k, k ≤ halvings br n → 4 ^ k * (n / 2 ^ k) ^ 2 = n ^ 2 := fun k h => by
      rw [hk, Nat.mul_div_cancel' (Nat.dvd_trans (Nat.pow_dvd_pow 2 h) hd)]
    rw [hsplit, heq _ (Nat.le_refl _)]
    congr 1
    refine Finset.sum_congr rfl fun k h => heq k ?_
    have := Finset.mem_range.1 h
    omega

theorem halvings_pow {br q : Nat} (hq : q ≤ br) (d : Nat) :
    2 ^ halvings br (2 ^ d * q) * (2 ^ d * q / 2 ^ halvings br (2 ^ d * q)) = 2 ^ d * q := by
  have hle : ∀ d, halvings br (2 ^ d * q) ≤ d := by
    intro d
    induction d with
    | zero => rw [halvings_le (by simpa using hq)]
    | succ d ih =>
      rcases Nat.lt_or_ge br (2 ^ (d + 1) * q) with h | h
      · rw [halvings_gt h]
        have : 2 ^ (d + 1) * q / 2 = 2 ^ d * q := by
          rw [Nat.pow_succ, Nat.mul_right_comm]; exact Nat.mul_div_cancel _ (by decide)
        rw [this]; omega
      · rw [halvings_le h]; omega
  exact Nat.mul_div_cancel' (Dvd.dvd.mul_right (Nat.pow_dvd_pow 2 (hle d)) q)

end Verif.Components
