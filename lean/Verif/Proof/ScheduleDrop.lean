import Verif.Proof.StaticImproved
import Verif.Proof.Kernel
import Mathlib.Data.Finset.Prod
import Mathlib.Order.Interval.Finset.Nat
/-
Helper lemmas about cells that no work package of static_improved.cpp covers.
-/
set_option linter.unusedSectionVars false
namespace Verif.StaticImproved
open Verif.Kernel Verif.Recursive
variable {α : Type} [Arith α]

/-- A set of cells covered by packages is not larger than their area. -/
theorem card_covered (ws : List Work) (S : Finset (Nat × Nat))
    (h : ∀ x ∈ S, ∃ w ∈ ws, Covers w x.1 x.2) :
    S.card ≤ (ws.map fun w => w.N * w.N).sum := by
  induction ws generalizing S with
  | nil =>
    have : S = ∅ := Finset.eq_empty_of_forall_notMem fun x hx => by
      obtain ⟨w, hw, _⟩ := h x hx; cases hw
    simp [this]
  | cons w ws ih =>
    rw [List.map_cons, List.sum_cons, ← Finset.card_filter_add_card_filter_not
      (s := S) (fun x => Covers w x.1 x.2)]
    refine Nat.add_le_add ?_ (ih _ fun x hx => ?_)
    · refine Nat.le_trans (Finset.card_le_card (t := Finset.Ico w.x (w.x + w.N) ×ˢ
        Finset.Ico w.y (w.y + w.N)) fun x hx => ?_) ?_
      · have := (Finset.mem_filter.1 hx).2
        unfold Covers at this
        rw [Finset.mem_product, Finset.mem_Ico, Finset.mem_Ico]
        omega
      · rw [Finset.card_product]; simp
    · obtain ⟨hx1, hx2⟩ := Finset.mem_filter.1 hx
      obtain ⟨v, hv, hc⟩ := h x hx1
      rcases List.mem_cons.1 hv with rfl | hv
      · exact absurd hc hx2
      · exact ⟨v, hv, hc⟩

/-- If the area of the packages is less than `N * N`, some cell is not covered. -/
theorem exists_uncovered {ws : List Work} {N : Nat}
    (h : (ws.map fun w => w.N * w.N).sum < N * N) :
    ∃ r c, r < N ∧ c < N ∧ ∀ w ∈ ws, ¬ Covers w r c := by
  apply Classical.byContradiction
  intro hn
  have := card_covered ws (Finset.range N ×ˢ Finset.range N) fun x hx => by
    rw [Finset.mem_product, Finset.mem_range, Finset.mem_range] at hx
    apply Classical.byContradiction
    intro hx'
    exact hn ⟨x.1, x.2, hx.1, hx.2, fun w hw hc => hx' ⟨w, hw, hc⟩⟩
  rw [Finset.card_product, Finset.card_range] at this
  omega

/-- Areas bounded by loads, list by list. -/
theorem area_flatten {aw : List (List Work)} {tw : List Nat} (hl : aw.length = tw.length)
    (h : ∀ i, i < tw.length → ((aw.getD i []).map fun w => w.N * w.N).sum ≤ tw.getD i 0) (d : Nat)
    (hd : d = 0 ∨ ∃ i, i < tw.length ∧
      ((aw.getD i []).map fun w => w.N * w.N).sum + d ≤ tw.getD i 0) :
    (aw.flatten.map fun w => w.N * w.N).sum + d ≤ tw.sum := by
  induction aw generalizing tw d with
  | nil =>
    have : tw = [] := List.eq_nil_of_length_eq_zero hl.symm
    subst this
    rcases hd with rfl | ⟨i, hi, _⟩
    · simp
    · cases hi
  | cons ws aw ih =>
    cases tw with
    | nil => cases hl
    | cons t tw =>
      have hl' : aw.length = tw.length := by simpa using hl
      have h0 : (ws.map fun w => w.N * w.N).sum ≤ t := by simpa using h 0 (by simp)
      have hs : ∀ i, i < tw.length → ((aw.getD i []).map fun w => w.N * w.N).sum ≤ tw.getD i 0 :=
        fun i hi => by simpa using h (i + 1) (by simpa using hi)
      rw [List.flatten_cons, List.map_append, List.sum_append, List.sum_cons]
      rcases hd with rfl | ⟨i, hi, hd⟩
      · have := ih hl' hs 0 (.inl rfl)
        omega
      · cases i with
        | zero =>
          have := ih hl' hs 0 (.inl rfl)
          have hd : (ws.map fun w => w.N * w.N).sum + d ≤ t := by simpa using hd
          omega
        | succ i =>
          have := ih hl' hs d (.inr ⟨i, by simpa using hi, by simpa using hd⟩)
          omega

/-- Only the load of the first locality can be odd. -/
def InvParity (L : Nat) (s : Sched) : Prop := ∀ i, 0 < i → i < L → 2 ∣ s.load i

theorem InvParity.init (N L : Nat) : InvParity L (initSched N L) := by
  intro i h0 hi
  rw [init_load N L i hi, if_neg (by omega)]
  exact Nat.dvd_zero 2

theorem InvParity.step {p : Params} {N L mi mn j : Nat} {w : Work} {s : Sched} (hI : Inv p N L s)
    (hP : InvParity L s) (h : Split p L s mi mn j w) : InvParity L (split_work s mi mn j) := by
  intro i h0 hi
  have h2 := split_load h hI.len2 (hI.move_le h) hi
  have hp := hP i h0 hi
  have hm : 2 * (w.N / 2) * (w.N / 2) = 2 * (w.N / 2 * (w.N / 2)) := Nat.mul_assoc ..
  rw [hm] at h2
  split at h2 <;> split at h2 <;> omega

/-- A split covers no further cells. -/
theorem covered_step {p : Params} {N L mi mn j : Nat} {w : Work} {s : Sched} (hI : Inv p N L s)
    (h : Split p L s mi mn j w) {r c : Nat}
    (hc : ∃ v ∈ (split_work s mi mn j).all_work.flatten, Covers v r c) :
    ∃ v ∈ s.all_work.flatten, Covers v r c := by
  obtain ⟨v, hv, hvc⟩ := hc
  have := (split_perm h hI.len1).subset (List.mem_append_left [w] hv)
  rcases List.mem_append.1 this with hv | hv
  · exact ⟨v, hv, hvc⟩
  · exact ⟨w, mem_flatten_of_work (by rw [hI.len1]; exact h.mi_lt) h.mem, quarters_sub hv hvc⟩

/-- Loops in `ND`: what holds before and is kept by every iteration holds for every result. -/
theorem nd_forStep_inv {R : Type} {body : Nat → R → ND R} {I : R → Prop} {z : R} (hz : I z)
    (h : ∀ i s s', I s → body i s (.ok s') → I s') {n : Nat} {r : R}
    (hr : forStep (m := ND) 0 n 1 z body (.ok r)) : I r := by
  rw [forStep_eq (by decide), steps_one] at hr
  generalize List.range n = l at hr
  induction l generalizing z with
  | nil => cases hr; exact hz
  | cons a l ih =>
    rw [List.foldlM_cons] at hr
    rcases hr with ⟨e, _, h2⟩ | ⟨x, h1, h2⟩
    · cases h2
    · exact ih (h a z x hz h1) h2

/-- The results of the packages have the right lengths. -/
theorem computePackages_ok {s : Multiplier α} {br : Nat} {ws : List Work}
    {subs : List (Work × Array α)}
    (h : computePackages (calculate_submatrix s) br ws (.ok subs)) :
    subs.map (·.1) = ws ∧ ∀ x ∈ subs, x.2.size = x.1.N * x.1.N := by
  induction ws generalizing subs with
  | nil => cases h; simp
  | cons w ws ih =>
    rw [computePackages] at h
    rcases h with ⟨e, _, h2⟩ | ⟨sub, h1, h2⟩
    · cases h2
    · rcases h2 with ⟨e, _, h4⟩ | ⟨rest, h3, h4⟩
      · cases h4
      · cases h4
        obtain ⟨i1, i2⟩ := ih h3
        refine ⟨by simp [i1], fun x hx => ?_⟩
        rcases List.mem_cons.1 hx with rfl | hx
        · exact distribute_size (fun _ _ _ _ h => calculate_size h) _ _ _ _ h1
        · exact i2 x hx

/-- What the packages write. -/
def subsUpd (N : Nat) (subs : List (Work × Array α)) : List (Upd α) :=
  subs.flatMap fun x => insertUpd N (fun i j => x.2.getD (i * x.1.N + j) Arith.zero) x.1

theorem insert_tree {N : Nat} {subs : List (Work × Array α)}
    (hsz : ∀ x ∈ subs, x.2.size = x.1.N * x.1.N)
    (hin : ∀ w ∈ subs.map (·.1), w.x + w.N ≤ N ∧ w.y + w.N ≤ N)
    (hap : (subs.map (·.1)).Pairwise Apart) :
    Tree.Does false (.par (subs.map fun ws => .act (insert_submatrix N ws.2 ws.1)))
      (subsUpd N subs) := by
  let f : Work × Array α → Nat → Nat → α := fun x i j => x.2.getD (i * x.1.N + j) Arith.zero
  have hh : ∀ x ∈ subs, Holds x.2 x.1.N x.1.N (f x) := by
    intro x hx i hi j hj
    have hlt := idx_lt hi hj
    have := hsz x hx
    simp only [f]
    rw [Array.getElem?_eq_getElem (by omega), Array.getD_eq_getD_getElem?,
      Array.getElem?_eq_getElem (by omega), Option.getD_some]
  have hpw : subs.Pairwise fun x y =>
      ∀ u ∈ insertUpd N (f x) x.1, ∀ v ∈ insertUpd N (f y) y.1, u.1 ≠ v.1 := by
    rw [List.pairwise_map] at hap
    refine List.Pairwise.imp_of_mem ?_ hap
    intro x y hx hy h u hu v hv he
    obtain ⟨r, c, h1, h2⟩ := insertUpd_pos hu
    obtain ⟨r', c', h1', h2'⟩ := insertUpd_pos hv
    rw [h2, h2'] at he
    have a := hin x.1 (List.mem_map_of_mem hx)
    have a' := hin y.1 (List.mem_map_of_mem hy)
    obtain ⟨rfl, rfl⟩ := idx_inj (show c < N by unfold Covers at h1; omega)
      (show c' < N by unfold Covers at h1'; omega) he
    exact h r c h1 h1'
  exact Tree.Does.par (fun x hx => .act (insert_does (hh x hx)
      (hin x.1 (List.mem_map_of_mem hx)).1 (hin x.1 (List.mem_map_of_mem hx)).2)) hpw

/-- One repetition leaves the cells alone that no package covers. -/
theorem insert_uncovered {N : Nat} {subs : List (Work × Array α)} {C C' : Array α}
    (hC : C.size = N * N) (hsz : ∀ x ∈ subs, x.2.size = x.1.N * x.1.N)
    (hin : ∀ w ∈ subs.map (·.1), w.x + w.N ≤ N ∧ w.y + w.N ≤ N)
    (hap : (subs.map (·.1)).Pairwise Apart) {r c : Nat} (hc : c < N)
    (hun : ∀ w ∈ subs.map (·.1), ¬ Covers w r c)
    (h : ND.runOn C (.par (subs.map fun ws => .act (insert_submatrix N ws.2 ws.1))) (.ok C')) :
    C'.size = N * N ∧ C'[r * N + c]? = C[r * N + c]? := by
  rw [(insert_tree hsz hin hap).runOn] at h
  cases h
  refine ⟨by simpa using hC, ?_⟩
  have hid : ∀ v : α, cellFold (subsUpd N subs) (r * N + c) v = v := by
    intro v
    refine cellFold_none fun u hu he => ?_
    obtain ⟨x, hx, hu⟩ := List.mem_flatMap.1 hu
    obtain ⟨r', c', h1, h2⟩ := insertUpd_pos hu
    rw [h2] at he
    have a := hin x.1 (List.mem_map_of_mem hx)
    obtain ⟨rfl, rfl⟩ := idx_inj (show c' < N by unfold Covers at h1; omega) hc he
    exact hun x.1 (List.mem_map_of_mem hx) h1
  rw [applyA_get, funext hid]
  simp

/-! ### Exactly one outcome -/

theorem ofM_error_bind {R S : Type} (e : Err) (f : R → ND S) :
    (ND.ofM (.error e) >>= f : ND S) = ND.ofM (.error e) := by
  funext o
  refine propext ⟨?_, fun h => .inl ⟨e, rfl, h⟩⟩
  rintro (⟨e', h, rfl⟩ | ⟨r, h, _⟩)
  · cases h; rfl
  · cases h

theorem det_bind {R S : Type} {x : ND R} {o : M R} {f : R → ND S} {P : S → Prop} {ok : Prop}
    (hx : x = ND.ofM o) (hok : ok → ∃ r, o = .ok r)
    (hf : ∀ r, o = .ok r → ∃ o' : M S, f r = ND.ofM o' ∧ (∀ s, o' = .ok s → P s) ∧
      (ok → ∃ s, o' = .ok s)) :
    ∃ o' : M S, x >>= f = ND.ofM o' ∧ (∀ s, o' = .ok s → P s) ∧ (ok → ∃ s, o' = .ok s) := by
  subst hx
  cases o with
  | error e =>
    exact ⟨.error e, ofM_error_bind e f, nofun, fun h => by obtain ⟨r, h⟩ := hok h; cases h⟩
  | ok r =>
    rw [ND.ofM_ok, ND.pure_bind']
    exact hf r rfl

/-- The recursion has one outcome; it returns if all leaves do. -/
theorem distribute_det {mult : Nat → Nat → Nat → M (Array α)} {br : Nat}
    (hm : ∀ x y bs C, mult x y bs = .ok C → C.size = bs * bs) (bs : Nat) :
    ∀ x y, ∃ o, distribute_recursively mult br x y bs = ND.ofM o ∧
      (∀ C, o = .ok C → C.size = bs * bs) ∧
      ((∀ x y bs, ∃ C, mult x y bs = .ok C) → ∃ C, o = .ok C) := by
  induction bs using Nat.strongRecOn with
  | ind bs ih =>
    intro x y
    rcases Nat.lt_or_ge br bs with h | h
    · rw [distribute_step h]
      obtain ⟨o0, h0, z0, k0⟩ := ih (bs / 2) (by omega) x y
      obtain ⟨o1, h1, z1, k1⟩ := ih (bs / 2) (by omega) (x + bs / 2) y
      obtain ⟨o2, h2, z2, k2⟩ := ih (bs / 2) (by omega) x (y + bs / 2)
      obtain ⟨o3, h3, z3, k3⟩ := ih (bs / 2) (by omega) (x + bs / 2) (y + bs / 2)
      refine det_bind h0 k0 fun s0 e0 => det_bind h1 k1 fun s1 e1 => det_bind h2 k2 fun s2 e2 =>
        det_bind h3 k3 fun s3 e3 => ?_
      rw [(quad_does (by omega) (z0 s0 e0) (z1 s1 e1) (z2 s2 e2) (z3 s3 e3)).runOn]
      exact ⟨.ok _, rfl, fun _ h => by cases h; simp, fun _ => ⟨_, rfl⟩⟩
    · rw [distribute_leaf h]
      exact ⟨_, rfl, hm x y bs, fun h => h x y bs⟩

theorem computePackages_det {s : Multiplier α} (br : Nat) (ws : List Work) :
    ∃ o, computePackages (calculate_submatrix s) br ws = ND.ofM o ∧
      (∀ subs, o = .ok subs →
        subs.map (·.1) = ws ∧ ∀ x ∈ subs, x.2.size = x.1.N * x.1.N) ∧
      ((∀ x y bs, ∃ C, calculate_submatrix s x y bs = .ok C) → ∃ subs, o = .ok subs) := by
  have key : ∃ o, computePackages (calculate_submatrix s) br ws = ND.ofM o ∧
      (∀ subs : List (Work × Array α), o = .ok subs → True) ∧
      ((∀ x y bs, ∃ C, calculate_submatrix s x y bs = .ok C) → ∃ subs, o = .ok subs) := by
    induction ws with
    | nil => exact ⟨.ok [], rfl, fun _ _ => trivial, fun _ => ⟨_, rfl⟩⟩
    | cons w ws ih =>
      rw [computePackages]
      obtain ⟨o0, h0, _, k0⟩ := distribute_det (mult := calculate_submatrix s) (br := br)
        (fun _ _ _ _ h => calculate_size h) w.N w.x w.y
      obtain ⟨o1, h1, _, k1⟩ := ih
      exact det_bind h0 k0 fun s0 e0 => det_bind h1 k1 fun s1 e1 =>
        ⟨.ok _, rfl, fun _ _ => trivial, fun _ => ⟨_, rfl⟩⟩
  obtain ⟨o, h, _, k⟩ := key
  refine ⟨o, h, fun subs e => computePackages_ok (s := s) (br := br) ?_, k⟩
  rw [h, e]; rfl

theorem insert_det {N : Nat} {subs : List (Work × Array α)} {C : Array α}
    (hC : C.size = N * N) (hsz : ∀ x ∈ subs, x.2.size = x.1.N * x.1.N)
    (hin : ∀ w ∈ subs.map (·.1), w.x + w.N ≤ N ∧ w.y + w.N ≤ N)
    (hap : (subs.map (·.1)).Pairwise Apart) :
    ∃ C', ND.runOn C (.par (subs.map fun ws => .act (insert_submatrix N ws.2 ws.1))) =
      ND.ofM (.ok C') ∧ C'.size = N * N := by
  rw [(insert_tree hsz hin hap).runOn]
  exact ⟨_, rfl, by simpa using hC⟩

theorem nd_repeat_det {R : Type} {body : Nat → R → ND R} {I : R → Prop} {ok : Prop} {z : R} {n : Nat}
    (hz : I z) (h : ∀ i s, I s → ∃ o, body i s = ND.ofM o ∧ (∀ r, o = .ok r → I r) ∧
      (ok → ∃ r, o = .ok r)) :
    ∃ o, forStep (m := ND) 0 n 1 z body = ND.ofM o ∧ (ok → ∃ r, o = .ok r ∧ I r) := by
  rw [forStep_eq (by decide), steps_one]
  generalize List.range n = l
  have : ∃ o, (l.foldlM (fun s i => body i s) z : ND R) = ND.ofM o ∧ (∀ r, o = .ok r → I r) ∧
      (ok → ∃ r, o = .ok r) := by
    induction l generalizing z with
    | nil => exact ⟨.ok z, rfl, fun _ h => by cases h; exact hz, fun _ => ⟨_, rfl⟩⟩
    | cons a l ih =>
      rw [List.foldlM_cons]
      obtain ⟨o, h1, h2, h3⟩ := h a z hz
      exact det_bind h1 h3 fun r hr => ih (h2 r hr)
  obtain ⟨o, h1, h2, h3⟩ := this
  exact ⟨o, h1, fun hk => by obtain ⟨r, hr⟩ := h3 hk; exact ⟨r, hr, h2 r hr⟩⟩

end Verif.StaticImproved
