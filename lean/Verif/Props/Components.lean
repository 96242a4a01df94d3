import Verif.Proof.PrintSchedule
/-
C117: components are found by name, and the work is done where the schedule says.
C118: what the recursion and the scheduler write with `verbose >= 1`.
C119: how many elements travel between the localities.
-/
namespace Verif.Props
open Verif.Kernel Verif.StaticImproved Verif.Components Verif.Console
variable {α : Type} [Arith α]

/-! ### C117 -/

/-- **C117.** Different localities have different names, and no component of one type has a name of the
other type. -/
theorem C117_names (l l' : Nat) :
    (multiplierName l = multiplierName l' ↔ l = l') ∧ (recursiveName l = recursiveName l' ↔ l = l') ∧
    multiplierName l ≠ recursiveName l' :=
  ⟨⟨multiplierName_inj, congrArg multiplierName⟩, ⟨recursiveName_inj, congrArg recursiveName⟩, by
    unfold multiplierName recursiveName; simp⟩

private theorem fst_bind {R S : Type} (x : ND R) (s : S) :
    Prod.fst <$> (x >>= fun r => (pure (r, s) : ND (R × S))) = x := by
  show (x >>= fun r => (pure (r, s) : ND (R × S))) >>= (fun p => (pure p.1 : ND R)) = x
  rw [ND.bind_assoc]
  simp only [ND.pure_bind']
  funext o
  apply propext
  constructor
  · rintro (⟨e, h, rfl⟩ | ⟨r, h, h'⟩)
    · exact h
    · cases h'; exact h
  · intro h
    cases o with
    | ok r => exact .inr ⟨r, h, rfl⟩
    | error e => exact .inl ⟨e, h, rfl⟩

/-- **C117.** The program that looks its components up by name has the same outcomes as the one in which
every call reaches the right object, whatever `verbose` is. -/
theorem C117_single (here N : Nat) (A B : Array α) (transposed : Bool) (br bi reps verbose : Nat) :
    Prod.fst <$> single_matrix_multiply here N A B transposed br bi reps verbose =
      Recursive.single_matrix_multiply N A B transposed br bi reps := by
  rw [single_eq, fst_bind]

/-- **C117.** The same for several localities, with any numbers and in any order. -/
theorem C117_pseudodynamic (p : Params) (N : Nat) (A B : Array α) (transposed : Bool)
    (bi br reps verbose : Nat) (all : List Nat) (root : Nat) (hroot : root ∈ all) :
    Prod.fst <$> Components.matrix_multiply p N A B transposed bi br reps verbose all root =
      StaticImproved.matrix_multiply p N A B transposed bi br reps all.length := by
  rw [matrix_multiply_eq _ _ _ _ _ _ _ _ _ _ _ hroot]
  cases haw : create_schedule p N (computing all root).length with
  | error e =>
    rw [computing_length hroot] at haw
    have h : ∀ {R S : Type} (f : R → ND S), ND.ofM (.error e : M R) >>= f = ND.fail e :=
      fun f => ND.fail_bind e f
    unfold StaticImproved.matrix_multiply
    simp only [haw, h]
    show ND.fail e >>= _ = _
    rw [ND.fail_bind]
  | ok aw => rw [ND.ofM_ok, ND.pure_bind', fst_bind]

private theorem single_events {here N : Nat} {A B : Array α} {t : Bool} {br bi reps verbose : Nat}
    {C : Array α} {ev : List Event}
    (h : single_matrix_multiply here N A B t br bi reps verbose (.ok (C, ev))) :
    ev = [Event.moved here here (A.size + B.size)] ++
      times reps (log here br verbose 0 0 N ++ [Event.moved here here (N * N)]) := by
  rw [single_eq] at h
  rcases h with ⟨e, _, h⟩ | ⟨r, _, h⟩
  · cases h
  · cases h; rfl

private theorem single_mem {here N : Nat} {A B : Array α} {t : Bool} {br bi reps verbose : Nat}
    {C : Array α} {ev : List Event}
    (h : single_matrix_multiply here N A B t br bi reps verbose (.ok (C, ev))) {e : Event} (he : e ∈ ev) :
    e ∈ log here br verbose 0 0 N ∨ ∃ m, e = .moved here here m := by
  rw [single_events h, List.mem_append, List.mem_singleton] at he
  rcases he with he | he
  · exact .inr ⟨_, he⟩
  · have := mem_times he
    rw [List.mem_append, List.mem_singleton] at this
    exact this.imp id fun h => ⟨_, h⟩

private theorem single_measure {here N : Nat} {A B : Array α} {t : Bool} {br bi reps verbose : Nat}
    {C : Array α} {ev : List Event}
    (h : single_matrix_multiply here N A B t br bi reps verbose (.ok (C, ev))) {f : List Event → Nat}
    (h0 : f [] = 0) (ha : ∀ a b, f (a ++ b) = f a + f b) (hm : ∀ n, f [Event.moved here here n] = 0) :
    f ev = reps * f (log here br verbose 0 0 N) := by
  rw [single_events h, ha, hm, measure_times h0 ha, ha, hm, Nat.add_zero, Nat.zero_add]

private theorem events {p : Params} {N : Nat} {A B : Array α} {t : Bool} {bi br reps verbose : Nat}
    {all : List Nat} {root : Nat} (hroot : root ∈ all) {aw : List (List Work)}
    (haw : create_schedule p N (computing all root).length = .ok aw) {C : Array α} {ev : List Event}
    (h : Components.matrix_multiply p N A B t bi br reps verbose all root (.ok (C, ev))) :
    ev = ((computing all root).map fun l => Event.moved root l (A.size + B.size)) ++
      times reps (allLog root br verbose (computing all root) aw) := by
  rw [matrix_multiply_eq _ _ _ _ _ _ _ _ _ _ _ hroot, haw, ND.ofM_ok, ND.pure_bind'] at h
  rcases h with ⟨e, _, h⟩ | ⟨r, _, h⟩
  · cases h
  · cases h; rfl

private theorem mem_events {p : Params} {N : Nat} {A B : Array α} {t : Bool} {bi br reps verbose : Nat}
    {all : List Nat} {root : Nat} (hroot : root ∈ all) {aw : List (List Work)}
    (haw : create_schedule p N (computing all root).length = .ok aw) {C : Array α} {ev : List Event}
    (h : Components.matrix_multiply p N A B t bi br reps verbose all root (.ok (C, ev))) {e : Event}
    (he : e ∈ ev) : (∃ a b n, e = .moved a b n) ∨
      ∃ (i l : Nat) (ws : List Work) (w : Work), (computing all root)[i]? = some l ∧ aw[i]? = some ws ∧
        w ∈ ws ∧ e ∈ log l br verbose w.x w.y w.N := by
  rw [events hroot haw h, List.mem_append, List.mem_map] at he
  rcases he with ⟨l, _, rfl⟩ | he
  · exact .inl ⟨_, _, _, rfl⟩
  · obtain ⟨i, l, ws, w, h1, h2, h3, h4 | h4⟩ := mem_allLog (mem_times he)
    · exact .inr ⟨i, l, ws, w, h1, h2, h3, h4⟩
    · exact .inl ⟨_, _, _, h4⟩

private theorem measure_map {f : List Event → Nat} (h0 : f [] = 0) (ha : ∀ a b, f (a ++ b) = f a + f b)
    (g : Nat → Event) (ls : List Nat) : f (ls.map g) = (ls.map fun l => f [g l]).sum := by
  induction ls with
  | nil => exact h0
  | cons l ls ih => rw [List.map_cons, ← List.singleton_append, ha, ih]; rfl

private theorem measure_events {p : Params} {N : Nat} {A B : Array α} {t : Bool} {bi br reps verbose : Nat}
    {all : List Nat} {root : Nat} (hroot : root ∈ all) {aw : List (List Work)}
    (haw : create_schedule p N (computing all root).length = .ok aw) {C : Array α} {ev : List Event}
    (h : Components.matrix_multiply p N A B t bi br reps verbose all root (.ok (C, ev)))
    {f : List Event → Nat} (h0 : f [] = 0) (ha : ∀ a b, f (a ++ b) = f a + f b) :
    f ev = ((computing all root).map fun l => f [Event.moved root l (A.size + B.size)]).sum +
      reps * f (allLog root br verbose (computing all root) aw) := by
  rw [events hroot haw h, ha, measure_map h0 ha, measure_times h0 ha]

private theorem sum_zero {ls : List Nat} : (ls.map fun _ => 0).sum = 0 := by
  induction ls with
  | nil => rfl
  | cons l ls ih => rw [List.map_cons, List.sum_cons, ih]

/-- **C117.** `single` works on the locality it is called on only, with blocks inside of the matrix that
have the size at which the halving stops. -/
theorem C117_single_place (here N : Nat) (A B : Array α) (transposed : Bool) (br bi reps verbose : Nat)
    (C : Array α) (ev : List Event)
    (h : single_matrix_multiply here N A B transposed br bi reps verbose (.ok (C, ev)))
    (l x y n : Nat) (he : Event.submatrix l x y n ∈ ev) :
    l = here ∧ n = leafSize br N ∧ x + n ≤ N ∧ y + n ≤ N := by
  rcases single_mem h he with he | ⟨m, h1⟩
  · rcases mem_log he with ⟨x', y', m, h1 | ⟨hm, h1⟩, _, h2, _, h3, _⟩ | ⟨_, m, h1, _⟩ | ⟨m, h1⟩
    · cases h1
    · cases h1; exact ⟨rfl, hm, by omega, by omega⟩
    · cases h1
    · cases h1
  · cases h1

/-- **C117.** Every block that is computed on a locality lies inside of a package that the schedule
gives to this locality, and has the size at which the halving of this package stops. -/
theorem C117_place (p : Params) (N : Nat) (A B : Array α) (transposed : Bool)
    (bi br reps verbose : Nat) (all : List Nat) (root : Nat) (hroot : root ∈ all)
    (aw : List (List Work)) (haw : create_schedule p N (computing all root).length = .ok aw)
    (C : Array α) (ev : List Event)
    (h : Components.matrix_multiply p N A B transposed bi br reps verbose all root (.ok (C, ev)))
    (l x y n : Nat) (he : Event.submatrix l x y n ∈ ev) :
    ∃ (i : Nat) (ws : List Work) (w : Work), (computing all root)[i]? = some l ∧ aw[i]? = some ws ∧ w ∈ ws ∧
      n = leafSize br w.N ∧ w.x ≤ x ∧ x + n ≤ w.x + w.N ∧ w.y ≤ y ∧ y + n ≤ w.y + w.N := by
  rcases mem_events hroot haw h he with ⟨_, _, _, h5⟩ | ⟨i, l', ws, w, h1, h2, h3, h4⟩
  · cases h5
  rcases mem_log h4 with ⟨x', y', m, h5 | ⟨hm, h5⟩, h6, h7, h8, h9, _⟩ | ⟨_, m, h5, _⟩ | ⟨m, h5⟩
  · cases h5
  · cases h5; exact ⟨i, ws, w, h1, h2, h3, hm, h6, h7, h8, h9⟩
  · cases h5
  · cases h5

/-- **C117.** If there are other localities, nothing is computed and no block is divided on the root. -/
theorem C117_root_idle (p : Params) (N : Nat) (A B : Array α) (transposed : Bool)
    (bi br reps verbose : Nat) (all : List Nat) (root : Nat) (hroot : root ∈ all) (hnd : all.Nodup)
    (hall : 1 < all.length) (C : Array α) (ev : List Event)
    (h : Components.matrix_multiply p N A B transposed bi br reps verbose all root (.ok (C, ev)))
    (x y n : Nat) : Event.submatrix root x y n ∉ ev ∧ Event.workOn root x y n ∉ ev := by
  have hlen : 0 < (computing all root).length := by
    rw [computing_length hroot, if_pos hall]; omega
  obtain ⟨⟨aw, haw, _⟩, _⟩ := C15_schedule_terminates p N _ hlen
  have hno : root ∉ computing all root := by
    unfold computing
    rw [if_pos hall]
    exact fun hm => (hnd.mem_erase_iff.1 hm).1 rfl
  constructor <;> intro he <;>
    rcases mem_events hroot haw h he with ⟨_, _, _, h5⟩ | ⟨i, l', ws, w, h1, h2, h3, h4⟩
  · cases h5
  · rcases mem_log h4 with ⟨x', y', m, h5 | ⟨_, h5⟩, _⟩ | ⟨_, m, h5, _⟩ | ⟨m, h5⟩ <;> cases h5
    exact hno (List.mem_of_getElem? h1)
  · cases h5
  · rcases mem_log h4 with ⟨x', y', m, h5 | ⟨_, h5⟩, _⟩ | ⟨_, m, h5, _⟩ | ⟨m, h5⟩ <;> cases h5
    exact hno (List.mem_of_getElem? h1)

/-- **C117.** How many elements are computed on each locality: for every package of the schedule
the square of the number of rows that are left when a block is halved until it is small enough. -/
theorem C117_share (p : Params) (N : Nat) (A B : Array α) (transposed : Bool)
    (bi br reps verbose : Nat) (all : List Nat) (root : Nat) (hroot : root ∈ all) (hnd : all.Nodup)
    (aw : List (List Work)) (haw : create_schedule p N (computing all root).length = .ok aw)
    (C : Array α) (ev : List Event)
    (h : Components.matrix_multiply p N A B transposed bi br reps verbose all root (.ok (C, ev)))
    (i l : Nat) (ws : List Work) (hl : (computing all root)[i]? = some l) (hws : aw[i]? = some ws) :
    elementsOn l ev =
      reps * (ws.map fun w => (2 ^ halvings br w.N * (w.N / 2 ^ halvings br w.N)) ^ 2).sum := by
  rw [measure_events hroot haw h (elementsOn_nil l) (elementsOn_append l)]
  simp only [elementsOn_moved, sum_zero, Nat.zero_add]
  rw [elementsOn_allLog ?_ hl hws]
  unfold computing
  split
  · exact hnd.erase _
  · exact hnd

/-- **C117.** If the matrix can be halved down to blocks that are small enough for the scheduler and for
the recursion, every locality computes in each repetition exactly as many elements as the scheduler has
counted for it. -/
theorem C117_share_exact (p : Params) (N e q : Nat) (A B : Array α) (transposed : Bool)
    (bi br reps verbose : Nat) (all : List Nat) (root : Nat) (hroot : root ∈ all) (hnd : all.Nodup)
    (hN : N = 2 ^ e * q) (hq : q ≤ p.min_work_size) (hbr : q ≤ br) (s : Sched)
    (hs : create_schedule_state p N (computing all root).length = .ok s)
    (C : Array α) (ev : List Event)
    (h : Components.matrix_multiply p N A B transposed bi br reps verbose all root (.ok (C, ev)))
    (i l t : Nat) (hl : (computing all root)[i]? = some l) (ht : s.total_work[i]? = some t) :
    elementsOn l ev = reps * t := by
  have haw : create_schedule p N (computing all root).length = .ok s.all_work := by
    unfold create_schedule; rw [hs]; rfl
  obtain ⟨hL, k, s', hi, _, hs', _⟩ := schedule_ok haw
  rw [hs] at hs'
  obtain rfl : s = s' := by cases hs'; rfl
  have hacc := C18_accounting_exact p N _ e q k s hL hN hq hi
  rw [hacc, List.getElem?_map] at ht
  cases hws : s.all_work[i]? with
  | none => rw [hws] at ht; cases ht
  | some ws =>
    rw [hws, Option.map_some, Option.some.injEq] at ht
    rw [C117_share p N A B transposed bi br reps verbose all root hroot hnd _ haw C ev h i l ws hl hws, ← ht]
    congr 2
    refine List.map_congr_left fun w hw => ?_
    obtain ⟨d, hd⟩ := (iter_even hL hN hq hi).pow w
      (List.mem_flatten.2 ⟨ws, List.mem_of_getElem? hws, hw⟩)
    rw [hd, halvings_pow hbr, Nat.pow_two]

/-! ### C118 -/

/-- **C118.** With `verbose = 0` the recursion writes nothing. -/
theorem C118_single_silent (here N : Nat) (A B : Array α) (transposed : Bool) (br bi reps : Nat)
    (C : Array α) (ev : List Event)
    (h : single_matrix_multiply here N A B transposed br bi reps 0 (.ok (C, ev))) :
    works ev = 0 ∧ larges ev = 0 := by
  constructor <;> first | unfold works | unfold larges
  all_goals
    rw [List.countP_eq_zero]
    intro e he
    rcases single_mem h he with he | ⟨m, h1⟩
    · rcases mem_log he with ⟨x', y', m, _, _, _, _, _, h1 | h1⟩ | ⟨h1, _⟩ | ⟨m, h1⟩ <;> first
      | omega
      | (subst h1; simp)
    · subst h1; simp

/-- **C118.** With `verbose = 0` the recursion writes nothing. -/
theorem C118_pseudodynamic_silent (p : Params) (N : Nat) (A B : Array α) (transposed : Bool)
    (bi br reps : Nat) (all : List Nat) (root : Nat) (hroot : root ∈ all)
    (C : Array α) (ev : List Event)
    (h : Components.matrix_multiply p N A B transposed bi br reps 0 all root (.ok (C, ev))) :
    works ev = 0 ∧ larges ev = 0 := by
  have hlen : 0 < (computing all root).length := by
    rw [computing_length hroot]
    have := List.length_pos_of_mem hroot
    split <;> omega
  obtain ⟨⟨aw, haw, _⟩, _⟩ := C15_schedule_terminates p N _ hlen
  constructor <;> first | unfold works | unfold larges
  all_goals
    rw [List.countP_eq_zero]
    intro e he
    rcases mem_events hroot haw h he with ⟨_, _, _, h1⟩ | ⟨i, l', ws, w, _, _, _, h4⟩
    · subst h1; simp
    · rcases mem_log h4 with ⟨x', y', m, _, _, _, _, _, h1 | h1⟩ | ⟨h1, _⟩ | ⟨m, h1⟩ <;> first
      | omega
      | (subst h1; simp)

/-- **C118.** The lines of `single`: in each repetition `4 ^ k` lines `work on` for every size `N / 2 ^ k`
down to the one at which the halving stops, one line `handling large matrix` with its size for each of them
that is divided, and a computed block for each of them that is not. -/
theorem C118_single_lines (here N : Nat) (A B : Array α) (transposed : Bool) (br bi reps verbose : Nat)
    (hv : 1 ≤ verbose) (C : Array α) (ev : List Event)
    (h : single_matrix_multiply here N A B transposed br bi reps verbose (.ok (C, ev))) :
    (∀ k, k ≤ halvings br N → worksOfSize (N / 2 ^ k) ev = reps * 4 ^ k) ∧
    (∀ k, k < halvings br N → largesOfSize (N / 2 ^ k) ev = reps * 4 ^ k) ∧
    3 * works ev + reps = reps * 4 ^ (halvings br N + 1) ∧
    3 * larges ev + reps = reps * 4 ^ halvings br N ∧
    submatrices ev = reps * 4 ^ halvings br N := by
  refine ⟨fun k hk => ?_, fun k hk => ?_, ?_, ?_, ?_⟩
  · rw [single_measure h (f := worksOfSize (N / 2 ^ k)) rfl (worksOfSize_append _) (fun _ => rfl),
      worksOfSize_log hv _ _ _ k hk]
  · rw [single_measure h (f := largesOfSize (N / 2 ^ k)) rfl (largesOfSize_append _) (fun _ => rfl),
      largesOfSize_log hv _ _ _ k hk]
  · rw [single_measure h (f := works) rfl works_append (fun _ => rfl), ← works_log hv here br N 0 0]; ring
  · rw [single_measure h (f := larges) rfl larges_append (fun _ => rfl), ← larges_log hv here br N 0 0]; ring
  · rw [single_measure h (f := submatrices) rfl submatrices_append (fun _ => rfl), submatrices_log]

/-- **C118.** The lines of `pseudodynamic`: those of the packages of the schedule. -/
theorem C118_pseudodynamic_lines (p : Params) (N : Nat) (A B : Array α) (transposed : Bool)
    (bi br reps verbose : Nat) (hv : 1 ≤ verbose) (all : List Nat) (root : Nat) (hroot : root ∈ all)
    (aw : List (List Work)) (haw : create_schedule p N (computing all root).length = .ok aw)
    (C : Array α) (ev : List Event)
    (h : Components.matrix_multiply p N A B transposed bi br reps verbose all root (.ok (C, ev))) :
    works ev = reps * (aw.flatten.map fun w => (4 ^ (halvings br w.N + 1) - 1) / 3).sum ∧
    larges ev = reps * (aw.flatten.map fun w => (4 ^ halvings br w.N - 1) / 3).sum ∧
    submatrices ev = reps * (aw.flatten.map fun w => 4 ^ halvings br w.N).sum := by
  have hlen : aw.length ≤ (computing all root).length := Nat.le_of_eq (create_schedule_length haw)
  refine ⟨?_, ?_, ?_⟩
  · rw [measure_events hroot haw h (f := works) rfl works_append,
      measure_allLog (g := fun w => (4 ^ (halvings br w.N + 1) - 1) / 3) rfl works_append _ _ (fun l _ w => ?_) hlen]
    · simp only [works_moved, sum_zero, Nat.zero_add]
    · have := works_log hv l br w.N w.x w.y
      rw [works_moved]
      omega
  · rw [measure_events hroot haw h (f := larges) rfl larges_append,
      measure_allLog (g := fun w => (4 ^ halvings br w.N - 1) / 3) rfl larges_append _ _ (fun l _ w => ?_) hlen]
    · simp only [larges_moved, sum_zero, Nat.zero_add]
    · have := larges_log hv l br w.N w.x w.y
      rw [larges_moved]
      omega
  · rw [measure_events hroot haw h (f := submatrices) rfl submatrices_append,
      measure_allLog (g := fun w => 4 ^ halvings br w.N) rfl submatrices_append _ _ (fun l _ w => ?_) hlen]
    · simp only [submatrices_moved, sum_zero, Nat.zero_add]
    · exact submatrices_log ..

/-- **C118.** A line `work on` names the locality to which the schedule gives the package, a block of the
package. -/
theorem C118_pseudodynamic_work (p : Params) (N : Nat) (A B : Array α) (transposed : Bool)
    (bi br reps verbose : Nat) (all : List Nat) (root : Nat) (hroot : root ∈ all)
    (aw : List (List Work)) (haw : create_schedule p N (computing all root).length = .ok aw)
    (C : Array α) (ev : List Event)
    (h : Components.matrix_multiply p N A B transposed bi br reps verbose all root (.ok (C, ev)))
    (l x y n : Nat) (he : Event.workOn l x y n ∈ ev) :
    ∃ (i : Nat) (ws : List Work) (w : Work), (computing all root)[i]? = some l ∧ aw[i]? = some ws ∧ w ∈ ws ∧
      w.x ≤ x ∧ x + n ≤ w.x + w.N ∧ w.y ≤ y ∧ y + n ≤ w.y + w.N := by
  rcases mem_events hroot haw h he with ⟨_, _, _, h5⟩ | ⟨i, l', ws, w, h1, h2, h3, h4⟩
  · cases h5
  rcases mem_log h4 with ⟨x', y', m, h5 | ⟨hm, h5⟩, h6, h7, h8, h9, _⟩ | ⟨_, m, h5, _⟩ | ⟨m, h5⟩
  · cases h5; exact ⟨i, ws, w, h1, h2, h3, h6, h7, h8, h9⟩
  · cases h5
  · cases h5
  · cases h5

/-- **C118.** The printed schedule says how many localities there are and which sizes the packages of
each of them have, in order, and nothing else. -/
theorem C118_schedule_text (aw aw' : List (List Work)) :
    print_schedule aw = print_schedule aw' ↔ aw.map (·.map (·.N)) = aw'.map (·.map (·.N)) :=
  ⟨print_schedule_inj, print_schedule_congr⟩

/-- **C118.** The squares of all printed sizes add up to at most `N * N`; if the matrix can be halved
down to `min_work_size`, to `N * N` exactly. -/
theorem C118_schedule_sizes (p : Params) (N L : Nat) (aw : List (List Work))
    (h : create_schedule p N L = .ok aw) :
    ((aw.map (·.map (·.N))).flatten.map fun n => n * n).sum ≤ N * N ∧
    ((∃ e q, N = 2 ^ e * q ∧ q ≤ p.min_work_size) →
      ((aw.map (·.map (·.N))).flatten.map fun n => n * n).sum = N * N) := by
  have hsum : ∀ aw : List (List Work), ((aw.map (·.map (·.N))).flatten.map fun n => n * n).sum =
      (aw.map fun ws => (ws.map fun w => w.N * w.N).sum).sum := by
    intro aw
    induction aw with
    | nil => rfl
    | cons ws aw ih =>
      simp only [List.map_cons, List.flatten_cons, List.map_append, List.sum_append, List.sum_cons, ih,
        List.map_map]
      rfl
  rw [hsum]
  obtain ⟨hL, k, s, hi, _, _, rfl⟩ := schedule_ok h
  obtain ⟨htot, hacc⟩ := C18_accounting p N L k s hL hi
  constructor
  · have hlen : s.all_work.length = s.total_work.length := by
      have hI := (iter_inv hL hi).1
      rw [hI.len1, hI.len2]
    rw [← htot]
    generalize s.all_work = aw at hacc hlen
    generalize s.total_work = tw at hacc hlen
    clear htot hi h
    induction aw generalizing tw with
    | nil => simp
    | cons ws aw ih =>
      cases tw with
      | nil => simp at hlen
      | cons t tw =>
        simp only [List.length_cons, Nat.add_right_cancel_iff] at hlen
        simp only [List.map_cons, List.sum_cons]
        obtain ⟨t', ht, hle, _⟩ := hacc 0 ws rfl
        simp only [List.getElem?_cons_zero, Option.some.injEq] at ht
        subst ht
        have := ih tw (fun i ws h => by
          obtain ⟨t', h1, h2⟩ := hacc (i + 1) ws (by simpa using h)
          exact ⟨t', by simpa using h1, h2⟩) hlen
        omega
  · rintro ⟨e, q, hN, hq⟩
    rw [← C18_accounting_exact p N L e q k s hL hN hq hi, htot]

/-! ### C119 -/

/-- **C119.** `single` sends nothing to other localities. -/
theorem C119_single (here N : Nat) (A B : Array α) (transposed : Bool) (br bi reps verbose : Nat)
    (C : Array α) (ev : List Event)
    (h : single_matrix_multiply here N A B transposed br bi reps verbose (.ok (C, ev))) : sent ev = 0 := by
  rw [single_measure h (f := sent) rfl sent_append (fun n => by rw [sent_moved, if_pos rfl]), sent_log,
    Nat.mul_zero]

private theorem computing_nodup {all : List Nat} (hnd : all.Nodup) (root : Nat) :
    (computing all root).Nodup := by
  unfold computing
  split
  · exact hnd.erase _
  · exact hnd

private theorem root_not_computing {all : List Nat} (hnd : all.Nodup) {root : Nat} (hall : 1 < all.length) :
    root ∉ computing all root := by
  unfold computing
  rw [if_pos hall]
  exact fun hm => (hnd.mem_erase_iff.1 hm).1 rfl

/-- **C119.** With other localities, the root sends to each of them both matrices, once and for all
repetitions. -/
theorem C119_to (p : Params) (N : Nat) (A B : Array α) (transposed : Bool)
    (bi br reps verbose : Nat) (all : List Nat) (root : Nat) (hroot : root ∈ all) (hnd : all.Nodup)
    (C : Array α) (ev : List Event)
    (h : Components.matrix_multiply p N A B transposed bi br reps verbose all root (.ok (C, ev)))
    (l : Nat) (hl : l ∈ all) (hne : l ≠ root) : sentFromTo root l ev = A.size + B.size := by
  have hall : 1 < all.length := by
    rcases all with _ | ⟨a, _ | ⟨b, all⟩⟩
    · simp at hl
    · simp only [List.mem_singleton] at hl hroot; omega
    · simp
  have hlen : 0 < (computing all root).length := by
    rw [computing_length hroot, if_pos hall]; omega
  obtain ⟨⟨aw, haw, _⟩, _⟩ := C15_schedule_terminates p N _ hlen
  rw [measure_events hroot haw h (f := sentFromTo root l) rfl (sentFromTo_append _ _),
    sentFromTo_allLog_other hne.symm (.inr hne), Nat.mul_zero, Nat.add_zero]
  simp only [sentFromTo_moved, true_and]
  have hmem : l ∈ computing all root := by
    unfold computing
    rw [if_pos hall]
    exact hnd.mem_erase_iff.2 ⟨hne, hl⟩
  have hn := computing_nodup hnd root
  generalize computing all root = ids at hmem hn
  clear haw hlen
  induction ids with
  | nil => simp at hmem
  | cons a ids ih =>
    rw [List.nodup_cons] at hn
    rw [List.map_cons, List.sum_cons]
    by_cases ha : a = l
    · rw [if_pos ha]
      have : (ids.map fun l_1 => if l_1 = l then A.size + B.size else 0) = ids.map fun _ => 0 :=
        List.map_congr_left fun x hx => if_neg fun hxl => hn.1 (by rw [ha, ← hxl]; exact hx)
      rw [this, sum_zero, Nat.add_zero]
    · rw [if_neg ha, Nat.zero_add]
      exact ih ((List.mem_cons.1 hmem).resolve_left (Ne.symm ha)) hn.2

/-- **C119.** Each of them sends in each repetition one block for each of its packages back. -/
theorem C119_from (p : Params) (N : Nat) (A B : Array α) (transposed : Bool)
    (bi br reps verbose : Nat) (all : List Nat) (root : Nat) (hroot : root ∈ all) (hnd : all.Nodup)
    (aw : List (List Work)) (haw : create_schedule p N (computing all root).length = .ok aw)
    (C : Array α) (ev : List Event)
    (h : Components.matrix_multiply p N A B transposed bi br reps verbose all root (.ok (C, ev)))
    (i l : Nat) (ws : List Work) (hl : (computing all root)[i]? = some l) (hws : aw[i]? = some ws)
    (hne : l ≠ root) : sentFromTo l root ev = reps * (ws.map fun w => w.N * w.N).sum := by
  rw [measure_events hroot haw h (f := sentFromTo l root) rfl (sentFromTo_append _ _),
    sentFromTo_allLog hne (computing_nodup hnd root) hl hws]
  simp only [sentFromTo_moved, hne.symm, false_and, if_false, sum_zero, Nat.zero_add]

/-- **C119.** Two localities other than the root exchange nothing. -/
theorem C119_between (p : Params) (N : Nat) (A B : Array α) (transposed : Bool)
    (bi br reps verbose : Nat) (all : List Nat) (root : Nat) (hroot : root ∈ all)
    (C : Array α) (ev : List Event)
    (h : Components.matrix_multiply p N A B transposed bi br reps verbose all root (.ok (C, ev)))
    (a b : Nat) (ha : a ≠ root) (hb : b ≠ root) (hab : a ≠ b) : sentFromTo a b ev = 0 := by
  have hlen : 0 < (computing all root).length := by
    rw [computing_length hroot]
    have := List.length_pos_of_mem hroot
    split <;> omega
  obtain ⟨⟨aw, haw, _⟩, _⟩ := C15_schedule_terminates p N _ hlen
  rw [measure_events hroot haw h (f := sentFromTo a b) rfl (sentFromTo_append _ _),
    sentFromTo_allLog_other hab (.inr hb)]
  simp only [sentFromTo_moved, ha.symm, false_and, if_false, sum_zero, Nat.zero_add, Nat.mul_zero]

/-- **C119.** All data that is sent: both matrices once to every other locality, and in each repetition the
blocks of all packages. -/
theorem C119_total (p : Params) (N : Nat) (A B : Array α) (transposed : Bool)
    (bi br reps verbose : Nat) (all : List Nat) (root : Nat) (hroot : root ∈ all) (hnd : all.Nodup)
    (hall : 1 < all.length)
    (aw : List (List Work)) (haw : create_schedule p N (computing all root).length = .ok aw)
    (C : Array α) (ev : List Event)
    (h : Components.matrix_multiply p N A B transposed bi br reps verbose all root (.ok (C, ev))) :
    sent ev = (all.length - 1) * (A.size + B.size) + reps * (aw.flatten.map fun w => w.N * w.N).sum := by
  have hno := root_not_computing hnd (root := root) hall
  rw [measure_events hroot haw h (f := sent) rfl sent_append,
    measure_allLog (g := fun w => w.N * w.N) rfl sent_append _ _ (fun l hl w => ?_)
      (Nat.le_of_eq (create_schedule_length haw))]
  · congr 1
    have hlen := computing_length hroot
    rw [if_pos hall] at hlen
    rw [← hlen]
    generalize computing all root = ids at hno
    clear hlen haw
    induction ids with
    | nil => simp
    | cons a ids ih =>
      rw [List.mem_cons, not_or] at hno
      rw [List.map_cons, List.sum_cons, ih hno.2, sent_moved, if_neg hno.1, List.length_cons, Nat.succ_mul,
        Nat.add_comm]
  · rw [sent_log, sent_moved, if_neg (fun hx : l = root => hno (hx ▸ hl)), Nat.zero_add]

/-- **C119.** At most one result matrix is sent back in each repetition; exactly one if the matrix can be
halved down to `min_work_size`. -/
theorem C119_volume (p : Params) (N : Nat) (A B : Array α) (transposed : Bool)
    (bi br reps verbose : Nat) (all : List Nat) (root : Nat) (hroot : root ∈ all) (hnd : all.Nodup)
    (hall : 1 < all.length) (C : Array α) (ev : List Event)
    (h : Components.matrix_multiply p N A B transposed bi br reps verbose all root (.ok (C, ev))) :
    sent ev ≤ (all.length - 1) * (A.size + B.size) + reps * (N * N) ∧
    ((∃ e q, N = 2 ^ e * q ∧ q ≤ p.min_work_size) →
      sent ev = (all.length - 1) * (A.size + B.size) + reps * (N * N)) := by
  have hlen : 0 < (computing all root).length := by
    rw [computing_length hroot, if_pos hall]; omega
  obtain ⟨⟨aw, haw, _⟩, _⟩ := C15_schedule_terminates p N _ hlen
  obtain ⟨h1, h2⟩ := C118_schedule_sizes p N _ aw haw
  have hsum : ((aw.map (·.map (·.N))).flatten.map fun n => n * n).sum =
      (aw.flatten.map fun w => w.N * w.N).sum := by
    rw [← List.map_flatten, List.map_map]; rfl
  rw [hsum] at h1 h2
  rw [C119_total p N A B transposed bi br reps verbose all root hroot hnd hall aw haw C ev h]
  exact ⟨Nat.add_le_add_left (Nat.mul_le_mul_left _ h1) _, fun hx => by rw [h2 hx]⟩

/-- **C119.** With one locality nothing is sent. -/
theorem C119_one (p : Params) (N : Nat) (A B : Array α) (transposed : Bool)
    (bi br reps verbose : Nat) (root : Nat) (C : Array α) (ev : List Event)
    (h : Components.matrix_multiply p N A B transposed bi br reps verbose [root] root (.ok (C, ev))) :
    sent ev = 0 := by
  have hc : computing [root] root = [root] := rfl
  obtain ⟨⟨aw, haw, _⟩, _⟩ := C15_schedule_terminates p N 1 (by decide)
  have haw' : create_schedule p N (computing [root] root).length = .ok aw := haw
  rw [measure_events (List.mem_singleton.2 rfl) haw' h (f := sent) rfl sent_append,
    measure_allLog (g := fun _ => 0) rfl sent_append _ _ (fun l hl w => ?_)
      (Nat.le_of_eq (create_schedule_length haw'))]
  · have hz : ∀ ws : List Work, (ws.map fun _ => 0).sum = 0 := fun ws => by simp
    rw [hz, hc, Nat.mul_zero, List.map_cons, List.map_nil, sent_moved, if_pos rfl]; rfl
  · rw [hc, List.mem_singleton] at hl
    rw [sent_log, sent_moved, if_pos hl]

/-! ### C121: data passed on -/

/-- **C121.** `single` passes both matrices to an object once, and in each repetition returns the blocks of every
level of the recursion. -/
theorem C121_single (here N : Nat) (A B : Array α) (transposed : Bool) (br bi reps verbose : Nat)
    (C : Array α) (ev : List Event)
    (h : single_matrix_multiply here N A B transposed br bi reps verbose (.ok (C, ev))) :
    passedOn ev = A.size + B.size + reps * returned br N := by
  rw [single_events h, passedOn_append, passedOn_moved, measure_times rfl passedOn_append, passedOn_append,
    passedOn_moved, passedOn_log]

/-- **C121.** For a matrix that is divided `d` times without remainder this is `d + 2` times the result, and in
no case more. -/
theorem C121_volume (br N : Nat) :
    returned br N ≤ (halvings br N + 2) * N ^ 2 ∧
    ∀ d s, N = 2 ^ d * s → s ≤ br → (∀ c, c < d → br < 2 ^ (c + 1) * s) → returned br N = (d + 2) * N ^ 2 := by
  refine ⟨(returned_bound br N).1, fun d s hN hs hd => ?_⟩
  have hh : halvings br N = d := by
    rw [hN]
    clear hN
    induction d with
    | zero => rw [Nat.pow_zero, Nat.one_mul, halvings_le hs]
    | succ d ih =>
      rw [halvings_gt (hd d (by omega)), Nat.pow_succ, Nat.mul_assoc, Nat.mul_comm 2 s, ← Nat.mul_assoc,
        Nat.mul_div_cancel _ (by decide), ih fun c hc => hd c (by omega)]
  have := (returned_bound br N).2 (by rw [hh, hN]; exact Nat.dvd_mul_right _ _)
  rw [this, hh]

/-- **C121.** `pseudodynamic` passes both matrices once to every computing locality, and in each repetition
returns the blocks of every level of every package. -/
theorem C121_pseudodynamic (p : Params) (N : Nat) (A B : Array α) (transposed : Bool)
    (bi br reps verbose : Nat) (all : List Nat) (root : Nat) (hroot : root ∈ all)
    (aw : List (List Work)) (haw : create_schedule p N (computing all root).length = .ok aw)
    (C : Array α) (ev : List Event)
    (h : Components.matrix_multiply p N A B transposed bi br reps verbose all root (.ok (C, ev))) :
    passedOn ev = (computing all root).length * (A.size + B.size) +
      reps * (aw.flatten.map fun w => returned br w.N).sum := by
  rw [measure_events hroot haw h (f := passedOn) rfl passedOn_append,
    measure_allLog (g := fun w => returned br w.N) rfl passedOn_append _ _ (fun l hl w => ?_)
      (Nat.le_of_eq (create_schedule_length haw))]
  · congr 1
    simp only [passedOn_moved, List.map_const', List.sum_replicate, smul_eq_mul]
  · rw [passedOn_moved, passedOn_log]

/-! ### Examples -/
section Examples

private theorem run_of_fst {R S : Type} {x : ND (R × S)} {r : R} (h : (Prod.fst <$> x : ND R) (.ok r)) :
    ∃ s, x (.ok (r, s)) := by
  rcases h with ⟨e, _, h⟩ | ⟨⟨r', s⟩, h, h'⟩
  · cases h
  · cases h'; exact ⟨s, h⟩

/-- Tuning parameters without tolerance. -/
private def strict : Params := ⟨2, 0, fun _ _ => false⟩

private theorem strict_loads : ∃ s, create_schedule_state strict 8 3 = .ok s ∧
    s.total_work = [24, 16, 24] ∧ s.all_work.length = 3 ∧ (s.all_work.map (·.map (·.N))) =
      [[2, 2, 2, 2, 2, 2], [2, 2, 2, 2], [2, 2, 2, 2, 2, 2]] := by
  refine ⟨_, rfl, ?_⟩
  decide +kernel

/-- Four localities with the numbers 4, 0, 7 and 2, of which 0 is the root: there are executions, and in
each of them the elements are computed where the schedule says; the root is idle. -/
example (A B : Array α) (a b : Nat → Nat → α) (hA : Holds A 8 8 a) (hB : Holds B 8 8 b) :
    (∃ C ev, Components.matrix_multiply strict 8 A B false 0 1 5 1 [4, 0, 7, 2] 0 (.ok (C, ev))) ∧
    ∀ C ev, Components.matrix_multiply strict 8 A B false 0 1 5 1 [4, 0, 7, 2] 0 (.ok (C, ev)) →
      elementsOn 4 ev = 120 ∧ elementsOn 7 ev = 80 ∧ elementsOn 2 ev = 120 ∧
      works ev = 400 ∧ larges ev = 80 ∧ submatrices ev = 320 ∧
      ∀ x y n, Event.submatrix 0 x y n ∉ ev := by
  constructor
  · have h := C117_pseudodynamic strict 8 A B false 0 1 5 1 [4, 0, 7, 2] 0 (by decide)
    have h' := C22_pseudodynamic strict 8 3 1 A B a b false 1 0 5 4 hA hB (by decide) (by decide) (by decide)
      (by decide) (by decide) (.inl rfl)
    unfold pseudodynamic_matrix_multiply at h'
    rw [show [4, 0, 7, 2].length = 4 from rfl, h'] at h
    obtain ⟨ev, hev⟩ := run_of_fst (x := Components.matrix_multiply strict 8 A B false 0 1 5 1 [4, 0, 7, 2] 0)
      (by rw [h]; rfl)
    exact ⟨_, ev, hev⟩
  · intro C ev h
    obtain ⟨s, hs, ht, hlen, hsz⟩ := strict_loads
    have share := C117_share_exact strict 8 3 1 A B false 0 1 5 1 [4, 0, 7, 2] 0 (by decide) (by decide)
      (by decide) (by decide) (by decide) s hs C ev h
    have haw : create_schedule strict 8 3 = .ok s.all_work := by
      unfold create_schedule; rw [hs]; rfl
    obtain ⟨h1, h2, h3⟩ := C118_pseudodynamic_lines strict 8 A B false 0 1 5 1 (by decide) [4, 0, 7, 2] 0
      (by decide) _ haw C ev h
    have hflat : s.all_work.flatten.map (·.N) = List.replicate 16 2 := by
      rw [List.map_flatten, hsz]; rfl
    have hmap : ∀ g : Nat → Nat, s.all_work.flatten.map (fun w => g w.N) = List.replicate 16 (g 2) := by
      intro g
      rw [← List.map_replicate, ← hflat, List.map_map]; rfl
    have hh : halvings 1 2 = 1 := by
      rw [halvings_gt (by decide), halvings_le (by decide)]
    rw [hmap (fun n => (4 ^ (halvings 1 n + 1) - 1) / 3), hh] at h1
    rw [hmap (fun n => (4 ^ halvings 1 n - 1) / 3), hh] at h2
    rw [hmap (fun n => 4 ^ halvings 1 n), hh] at h3
    refine ⟨share 0 4 24 rfl (by rw [ht]; rfl), share 1 7 16 rfl (by rw [ht]; rfl),
      share 2 2 24 rfl (by rw [ht]; rfl), h1, h2, h3, fun x y n => ?_⟩
    exact (C117_root_idle strict 8 A B false 0 1 5 1 [4, 0, 7, 2] 0 (by decide) (by decide) (by decide) C ev h
      x y n).1

/-- The same four localities: each of the three others gets 128 elements and returns in five repetitions what
it has computed. -/
example (A B : Array α) (hsA : A.size = 64) (hsB : B.size = 64) (C : Array α) (ev : List Event)
    (h : Components.matrix_multiply strict 8 A B false 0 1 5 1 [4, 0, 7, 2] 0 (.ok (C, ev))) :
    sent ev = 3 * 128 + 5 * 64 ∧ sentFromTo 0 7 ev = 128 ∧ sentFromTo 7 0 ev = 80 ∧ sentFromTo 7 2 ev = 0 := by
  obtain ⟨s, hs, _, _, hsz⟩ := strict_loads
  have haw : create_schedule strict 8 3 = .ok s.all_work := by
    unfold create_schedule; rw [hs]; rfl
  have h1 := (C119_volume strict 8 A B false 0 1 5 1 [4, 0, 7, 2] 0 (by decide) (by decide) (by decide) C ev
    h).2 ⟨3, 1, by decide, by decide⟩
  have h2 := C119_to strict 8 A B false 0 1 5 1 [4, 0, 7, 2] 0 (by decide) (by decide) C ev h 7 (by decide)
    (by decide)
  have hget : (s.all_work.map (·.map (·.N)))[1]? = some [2, 2, 2, 2] := by rw [hsz]; rfl
  rw [List.getElem?_map] at hget
  cases hws : s.all_work[1]? with
  | none => rw [hws] at hget; cases hget
  | some ws =>
    rw [hws, Option.map_some, Option.some.injEq] at hget
    have h3 := C119_from strict 8 A B false 0 1 5 1 [4, 0, 7, 2] 0 (by decide) (by decide) _ haw C ev h 1 7 ws
      rfl hws (by decide)
    have hmap : (ws.map fun w => w.N * w.N) = [4, 4, 4, 4] := by
      rw [show (ws.map fun w => w.N * w.N) = (ws.map (·.N)).map (fun n => n * n) by rw [List.map_map]; rfl, hget]
      rfl
    rw [hmap] at h3
    rw [hsA, hsB] at h1 h2
    exact ⟨h1, h2, h3, C119_between strict 8 A B false 0 1 5 1 [4, 0, 7, 2] 0 (by decide) C ev h 7 2 (by decide)
      (by decide) (by decide)⟩

/-- A lookup of a name under which several objects are registered may find any of them; one of a name that
nobody registers does not return. -/
example : connect_to [(recursiveName 1, (10 : Nat)), (recursiveName 2, 20), (recursiveName 1, 30)]
    (recursiveName 1) (.ok 30) ∧
    connect_to [(recursiveName 1, (10 : Nat)), (recursiveName 1, 30)] (recursiveName 1) (.ok 10) ∧
    ∀ o, connect_to [(recursiveName 1, (10 : Nat))] (recursiveName 2) o → o = .error .diverge := by
  refine ⟨.inl ⟨30, by simp, rfl⟩, .inl ⟨10, by simp, rfl⟩, ?_⟩
  rintro o (⟨c, h, _⟩ | ⟨_, h⟩)
  · simp only [List.mem_singleton, Prod.mk.injEq] at h
    exact absurd (recursiveName_inj h.1) (by decide)
  · exact h

/-- `single` on locality 3 with a 7 × 7 matrix and blocks of size 1: two halvings, 21 lines `work on`, 16
computed elements instead of 49. -/
example (A B : Array α) (C : Array α) (ev : List Event)
    (h : single_matrix_multiply 3 7 A B false 1 0 1 2 (.ok (C, ev))) :
    works ev = 21 ∧ larges ev = 5 ∧ submatrices ev = 16 ∧ worksOfSize 3 ev = 4 ∧ largesOfSize 3 ev = 4 := by
  have hh : halvings 1 7 = 2 := by
    rw [halvings_gt (by decide), halvings_gt (by decide), halvings_le (by decide)]
  obtain ⟨h0, h0', h1, h2, h3⟩ := C118_single_lines 3 7 A B false 1 0 1 2 (by decide) C ev h
  rw [hh] at h0 h0' h1 h2 h3
  exact ⟨by omega, by omega, h3, h0 1 (by decide), h0' 1 (by decide)⟩

/-- A matrix of size 8 with blocks of size 2 is copied four times; with size 7 the blocks get smaller. -/
example (A B C : Array α) (ev : List Event) (hA : A.size = 64) (hB : B.size = 64)
    (h : single_matrix_multiply 3 8 A B false 2 0 5 0 (.ok (C, ev))) : passedOn ev = 128 + 5 * 256 := by
  rw [C121_single 3 8 A B false 2 0 5 0 C ev h, hA, hB,
    (C121_volume 2 8).2 2 2 rfl (Nat.le_refl 2) (by decide)]
  rfl

example : returned 1 7 = 49 + 36 + 16 + 16 := by
  rw [returned_gt (by decide), returned_gt (by decide), returned_le (by decide)]
  rfl

end Examples

end Verif.Props
