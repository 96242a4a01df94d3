import Verif.Proof.Iterate
import Mathlib.Data.List.Perm.Basic
import Mathlib.Data.List.Induction
import Mathlib.Data.List.Nodup
/-
Index iterators: properties C28–C31.
-/
namespace Verif.Props
open Verif Verif.IndexIterator

theorem zipDims {mn mx st : List Nat} (h1 : mx.length = mn.length) (h2 : st.length = mn.length) :
    (mn.zip (mx.zip st)).map (·.1) = mn ∧ (mn.zip (mx.zip st)).map (·.2.1) = mx ∧
    (mn.zip (mx.zip st)).map (·.2.2) = st := by
  refine ⟨List.map_fst_zip (by simp; omega), ?_, ?_⟩
  · rw [show (fun x : Nat × Nat × Nat => x.2.1) = Prod.fst ∘ Prod.snd from rfl, ← List.map_map,
      List.map_snd_zip (by simp; omega), List.map_fst_zip (by omega)]
  · rw [show (fun x : Nat × Nat × Nat => x.2.2) = Prod.snd ∘ Prod.snd from rfl, ← List.map_map,
      List.map_snd_zip (by simp; omega), List.map_snd_zip (by omega)]

/-- **C28.** The first `∏ ⌈(max - min) / step⌉` positions of the iterator are exactly the grid
points, each once and with dimension 0 fastest; afterwards it stays on the last one. -/
theorem C28_iterator_enumerates {mn mx st : List Nat}
    (h1 : mx.length = mn.length) (h2 : st.length = mn.length)
    (hlt : ∀ d, d < mn.length → mn.getD d 0 < mx.getD d 0)
    (hst : ∀ d, d < mn.length → 0 < st.getD d 0) :
    (∀ p, (∃ n, n < gridCount mn mx st ∧ iter mn mx st n = p) ↔ OnGrid mn mx st p) ∧
    (∀ n m, n < m → m < gridCount mn mx st →
      Dim0Fastest (iter mn mx st n) (iter mn mx st m)) ∧
    (∀ n m, n < gridCount mn mx st → m < gridCount mn mx st →
      iter mn mx st n = iter mn mx st m → n = m) ∧
    (∀ n, gridCount mn mx st ≤ n →
      iter mn mx st n = iter mn mx st (gridCount mn mx st - 1)) := by
  obtain ⟨e1, e2, e3⟩ := zipDims h1 h2
  have hl : (mn.zip (mx.zip st)).length = mn.length := by simp; omega
  have hd : ∀ d, d < mn.length → (mn.zip (mx.zip st)).getD d (0, 0, 0) =
      (mn.getD d 0, mx.getD d 0, st.getD d 0) := by
    intro d hd
    have : d < mx.length := by omega
    have : d < st.length := by omega
    simp [List.getD_eq_getElem?_getD, *]
  generalize mn.zip (mx.zip st) = ds at e1 e2 e3 hl hd
  have hs : ∀ d ∈ ds, 0 < d.2.2 := by
    intro d hdm
    obtain ⟨i, hi, rfl⟩ := List.getElem_of_mem hdm
    have := hd i (by omega)
    rw [List.getD_eq_getElem?_getD, List.getElem?_eq_getElem hi, Option.getD_some] at this
    rw [this]
    exact hst i (by omega)
  have hiter : ∀ n, iter mn mx st n = pos ds (min n (total ds - 1)) := by
    intro n
    conv => lhs; rw [← e1, ← e2, ← e3]
    exact iter_eq ds hs n
  have hcount : gridCount mn mx st = total ds := by
    rw [total_eq, gridCount]
    congr 1
    apply List.ext_getElem
    · simp [hl]
    · intro i hi hi'
      simp only [List.length_map, List.length_range] at hi hi'
      have := hd i hi
      rw [List.getD_eq_getElem?_getD, List.getElem?_eq_getElem hi', Option.getD_some] at this
      rw [List.getElem_map, List.getElem_map, this, List.getElem_range,
        cnt_eq_ext (hst i hi) (hlt i hi)]
      rfl
  have ht := total_pos ds
  have hit : ∀ n, n < total ds → iter mn mx st n = pos ds n := fun n hn => by
    rw [hiter, show min n (total ds - 1) = n by omega]
  rw [hcount]
  refine ⟨fun p => ?_, fun n m hn hm => ?_, fun n m hn hm h => ?_, fun n hn => ?_⟩
  · have : (∃ n, n < total ds ∧ iter mn mx st n = p) ↔ ∃ n, n < total ds ∧ pos ds n = p :=
      exists_congr fun n => and_congr_right fun hn => by rw [hit n hn]
    rw [this, mem_pos]
    refine inG_iff.trans ?_
    rw [hl, OnGrid]
    refine and_congr eq_comm (forall_congr' fun d => forall_congr' fun hdl => ?_)
    rw [hd d hdl, cnt_eq_ext (hst d hdl) (hlt d hdl)]
    have h0 := hlt d hdl
    constructor
    · rintro ⟨t, ht, e⟩
      have := (lt_ceilDiv (hst d hdl)).1 ht
      have e' : p.getD d 0 = mn.getD d 0 + t * st.getD d 0 := e
      have h' : t * st.getD d 0 < mx.getD d 0 - mn.getD d 0 := this
      exact ⟨t, e', by omega⟩
    · rintro ⟨t, e, hlt⟩
      refine ⟨t, (lt_ceilDiv (hst d hdl)).2 ?_, e⟩
      show t * st.getD d 0 < mx.getD d 0 - mn.getD d 0
      omega
  · rw [hit n (by omega), hit m hm]
    obtain ⟨d, h1, h2, h3⟩ := pos_gap ds n m hn hm
    refine ⟨d, by rw [pos_length]; exact h1, ?_, h3⟩
    have := hs (ds.getD d (0, 0, 0)) (by
      rw [List.getD_eq_getElem?_getD, List.getElem?_eq_getElem h1, Option.getD_some]
      exact List.getElem_mem h1)
    omega
  · rw [hit n hn, hit m hm] at h
    exact pos_inj ds hs hn hm h
  · rw [hiter, hiter, show min n (total ds - 1) = total ds - 1 by omega, Nat.min_self]

example : (∃ n, n < gridCount [0, 3] [5, 5] [2, 1] ∧ iter [0, 3] [5, 5] [2, 1] n = [4, 3]) ↔
    OnGrid [0, 3] [5, 5] [2, 1] [4, 3] :=
  (C28_iterator_enumerates (mn := [0, 3]) (mx := [5, 5]) (st := [2, 1]) rfl rfl (by decide)
    (by decide)).1 _
example : (List.range 7).map (iter [0, 3] [5, 5] [2, 1]) =
    [[0, 3], [2, 3], [4, 3], [0, 4], [2, 4], [4, 4], [4, 4]] := by decide

/-! ### Blocked iteration -/

theorem buildPolicy_eq {dim : Nat} {s : List Nat} {levels : List (List Nat × List Bool)}
    (h : ∀ lv ∈ levels, lv.1.length = dim ∧ lv.2.length = dim) :
    buildPolicy dim s levels = .ok ⟨dim, (s, List.replicate dim false) :: levels⟩ := by
  unfold buildPolicy Policy.new Policy.add_blocking
  simp only [List.length_replicate, ne_eq, not_true_eq_false, or_self, if_false, M_bind_ok,
    List.nil_append, Policy.set_final_steps]
  have : ∀ (cfg : List (List Nat × List Bool)),
      levels.foldlM (fun (p : Policy) lv =>
        if ¬ lv.1.length = p.dim ∨ ¬ lv.2.length = p.dim then (Except.error Err.terminate : M Policy)
        else .ok { p with cfg := p.cfg ++ [(lv.1, lv.2)] }) ⟨dim, cfg⟩ =
      Except.ok ⟨dim, cfg ++ levels⟩ := by
    induction levels with
    | nil => intro cfg; simp
    | cons lv levels ih =>
      intro cfg
      have := h lv (by simp)
      rw [List.foldlM_cons, if_neg (by simp [this.1, this.2]), M_bind_ok,
        ih fun lv hlv => h lv (by simp [hlv])]
      simp
  exact this _

theorem lvOk_of {dim : Nat} {s : List Nat} {levels : List (List Nat × List Bool)}
    (hlv : ∀ lv ∈ levels, lv.1.length = dim ∧ lv.2.length = dim ∧
      ∀ d, d < dim → 0 < lv.1.getD d 0)
    (hdiv : (s :: levels.map (·.1)).Pairwise (DividesAll dim)) : LvOk dim s levels.reverse := by
  induction levels using List.reverseRecOn with
  | nil => exact .nil
  | append_singleton levels lv ih =>
    rw [List.reverse_append, List.reverse_singleton]
    obtain ⟨b, f⟩ := lv
    rw [List.map_append, ← List.cons_append, List.pairwise_append] at hdiv
    obtain ⟨h1, -, h3⟩ := hdiv
    have hb := hlv (b, f) (by simp)
    refine .cons hb.1 hb.2.1 hb.2.2 (fun d hd => ?_) (fun lv hm d hd => ?_)
      (ih (fun lv hm => hlv lv (by simp [hm])) h1)
    · exact h3 s (by simp) b (by simp) d hd
    · exact h3 lv.1 (by
        simp only [List.mem_cons, List.mem_map]
        exact .inr ⟨lv, List.mem_reverse.1 hm, rfl⟩) b (by simp) d hd

/-- The general statement behind C29 and C30: the visited points are the grid points below the
bounds rounded up to whole blocks of the outermost level. -/
theorem iterate_visits {dim : Nat} {s mn mx : List Nat} {levels : List (List Nat × List Bool)}
    (hs : s.length = dim) (hs0 : ∀ d, d < dim → 0 < s.getD d 0)
    (hlv : ∀ lv ∈ levels, lv.1.length = dim ∧ lv.2.length = dim ∧
      ∀ d, d < dim → 0 < lv.1.getD d 0)
    (h1 : mn.length = dim) (h2 : mx.length = dim)
    (hle : ∀ d, d < dim → mn.getD d 0 ≤ mx.getD d 0)
    (hdiv : (s :: levels.map (·.1)).Pairwise (DividesAll dim)) :
    ∃ policy, buildPolicy dim s levels = .ok policy ∧
      (∃ l, Order (iterate_indices dim policy mn mx) l) ∧
      ∀ l, Order (iterate_indices dim policy mn mx) l →
        l.Nodup ∧ ∀ p, p ∈ l ↔ OnGrid mn (bound dim levels.reverse mn mx) s p := by
  refine ⟨_, buildPolicy_eq fun lv h => ⟨(hlv lv h).1, (hlv lv h).2.1⟩, ?_⟩
  rw [iterate_indices]
  simp only [List.reverse_cons]
  obtain ⟨g1, g2, g3⟩ := iterateRev_spec (f0 := List.replicate dim false) hs0 hs levels.reverse
    (lvOk_of hlv hdiv) mn mx h1 h2 hle
  refine ⟨⟨_, order_leaves g1⟩, fun l hl => ⟨?_, fun p => ?_⟩⟩
  · refine (order_perm hl).nodup_iff.2 (g2.imp ?_)
    rintro p q ⟨d, hd⟩ rfl
    exact Nat.lt_irrefl _ hd
  · rw [(order_perm hl).mem_iff, g3]

/-- **C29.** With final steps, blocking levels (innermost first) and extents that divide each
other, every complete execution calls the function exactly once for each point of the step
grid, whatever dimensions are parallel; and there are complete executions. -/
theorem C29_visits_once {dim : Nat} {s mn mx : List Nat} {levels : List (List Nat × List Bool)}
    (hs : s.length = dim) (hs0 : ∀ d, d < dim → 0 < s.getD d 0)
    (hlv : ∀ lv ∈ levels, lv.1.length = dim ∧ lv.2.length = dim ∧
      ∀ d, d < dim → 0 < lv.1.getD d 0)
    (h1 : mn.length = dim) (h2 : mx.length = dim)
    (hle : ∀ d, d < dim → mn.getD d 0 ≤ mx.getD d 0)
    (hdiv : (s :: levels.map (·.1) ++
      [(List.range dim).map fun d => mx.getD d 0 - mn.getD d 0]).Pairwise (DividesAll dim)) :
    ∃ policy, buildPolicy dim s levels = .ok policy ∧
      (∃ l, Order (iterate_indices dim policy mn mx) l) ∧
      ∀ l, Order (iterate_indices dim policy mn mx) l →
        l.Nodup ∧ ∀ p, p ∈ l ↔ OnGrid mn mx s p := by
  obtain ⟨hd1, -, hd3⟩ := List.pairwise_append.1 hdiv
  obtain ⟨policy, hp, hex, hall⟩ := iterate_visits hs hs0 hlv h1 h2 hle hd1
  refine ⟨policy, hp, hex, fun l hl => ⟨(hall l hl).1, fun p => ((hall l hl).2 p).trans ?_⟩⟩
  refine onGrid_congr fun d hd => ?_
  rw [h1] at hd
  cases hr : levels.reverse with
  | nil => rfl
  | cons lv r =>
    obtain ⟨b, f⟩ := lv
    have hm : (b, f) ∈ levels := by rw [← List.mem_reverse, hr]; simp
    rw [bound, getD_map_range _ _ _ hd]
    obtain ⟨q, hq⟩ := hd3 b (by
      simp only [List.mem_cons, List.mem_map]; exact .inr ⟨_, hm, rfl⟩) _
      (List.mem_singleton.2 rfl) d hd
    rw [getD_map_range _ _ _ hd] at hq
    rw [hq, Nat.mul_comm _ q, ceilDiv_mul _ _ ((hlv _ hm).2.2 d hd), Nat.mul_comm q, ← hq]
    have := hle d hd
    omega

instance (dim : Nat) (a b : List Nat) : Decidable (DividesAll dim a b) :=
  inferInstanceAs (Decidable (∀ d, d < dim → a.getD d 0 ∣ b.getD d 0))

/-- two levels, dimension 0 parallel on the outer one -/
example : ∃ policy, buildPolicy 2 [1, 2] [([2, 4], [false, false]), ([4, 8], [true, false])] =
      .ok policy ∧
    (∃ l, Order (iterate_indices 2 policy [0, 3] [8, 11]) l) ∧
    ∀ l, Order (iterate_indices 2 policy [0, 3] [8, 11]) l →
      l.Nodup ∧ ∀ p, p ∈ l ↔ OnGrid [0, 3] [8, 11] [1, 2] p := by
  refine C29_visits_once rfl (by decide) (by decide) rfl rfl (by decide) (by decide)

/-- **C30.** One blocking level, step 1: every complete execution visits exactly the indices
`0 … ⌈n / b⌉ * b - 1`, each once; so all requested indices, and indices outside `[0, n)` exactly
when `b` does not divide `n`. -/
theorem C30_overrun {n b : Nat} (hb : 0 < b) (par : Bool) :
    ∃ policy, buildPolicy 1 [1] [([b], [par])] = .ok policy ∧
      (∃ l, Order (iterate_indices 1 policy [0] [n]) l) ∧
      ∀ l, Order (iterate_indices 1 policy [0] [n]) l →
        l.Perm ((List.range (ceilDiv n b * b)).map fun i => [i]) ∧
        (∀ i, i < n → [i] ∈ l) ∧
        ((∃ i, n ≤ i ∧ [i] ∈ l) ↔ ¬ b ∣ n) := by
  obtain ⟨policy, hp, hex, hall⟩ := iterate_visits (dim := 1) (s := [1]) (mn := [0]) (mx := [n])
    (levels := [([b], [par])]) rfl (by decide) (by
      intro lv h
      rw [List.mem_singleton.1 h]
      refine ⟨rfl, rfl, fun d hd => ?_⟩
      have : d = 0 := by omega
      subst this; exact hb) rfl rfl (by
      intro d hd
      have : d = 0 := by omega
      subst this; exact Nat.zero_le _) (by
      refine List.pairwise_pair.2 fun d hd => ?_
      have : d = 0 := by omega
      subst this; exact Nat.one_dvd _)
  refine ⟨policy, hp, hex, fun l hl => ?_⟩
  obtain ⟨hnd, hmem⟩ := hall l hl
  have key : ∀ p, p ∈ l ↔ ∃ i, i < ceilDiv n b * b ∧ [i] = p := by
    intro p
    rw [hmem, OnGrid]
    have e : (bound 1 [([b], [par])].reverse [0] [n]).getD 0 0 = ceilDiv n b * b := by
      simp [bound]
    constructor
    · rintro ⟨h1, h2⟩
      obtain ⟨i, rfl⟩ := List.length_eq_one_iff.1 h1
      obtain ⟨t, _, ht⟩ := h2 0 (by simp)
      rw [e] at ht
      exact ⟨i, ht, rfl⟩
    · rintro ⟨i, hi, rfl⟩
      refine ⟨rfl, fun d hd => ?_⟩
      have : d = 0 := by simp at hd; exact hd
      subst this
      rw [e]
      exact ⟨i, by simp, hi⟩
  have hceil : n ≤ ceilDiv n b * b := by
    rcases Nat.lt_or_ge (ceilDiv n b * b) n with h | h
    · exact absurd ((lt_ceilDiv hb).2 h) (Nat.lt_irrefl _)
    · exact h
  refine ⟨?_, fun i hi => (key _).2 ⟨i, by omega, rfl⟩, ?_⟩
  · refine (List.perm_ext_iff_of_nodup hnd ?_).2 fun p => ?_
    · exact List.nodup_range.map fun a b h => by simpa using h
    · rw [key, List.mem_map]
      exact exists_congr fun i => and_congr_left fun _ => List.mem_range.symm
  · constructor
    · rintro ⟨i, hi, him⟩ ⟨q, rfl⟩
      obtain ⟨j, hj, hij⟩ := (key _).1 him
      rw [Nat.mul_comm b, ceilDiv_mul _ _ hb] at hj
      injection hij with hij
      rw [Nat.mul_comm] at hj
      omega
    · intro hnd
      have : n ≠ ceilDiv n b * b := fun h => hnd ⟨ceilDiv n b, by rw [Nat.mul_comm]; exact h⟩
      exact ⟨n, Nat.le_refl _, (key _).2 ⟨n, by omega, rfl⟩⟩

/-- extent 6, block 4: eight calls -/
example : ∃ policy, buildPolicy 1 [1] [([4], [false])] = .ok policy ∧
    ∀ l, Order (iterate_indices 1 policy [0] [6]) l → l.length = 8 := by
  obtain ⟨policy, hp, -, h⟩ := C30_overrun (n := 6) (b := 4) (by decide) false
  exact ⟨policy, hp, fun l hl => (h l hl).1.length_eq⟩

/-- **C30, any number of dimensions and levels.** When only the extents are not multiples of the
outermost blocks, the visited points are the grid points of the bounds rounded up to whole
blocks. -/
theorem C30_overrun_general {dim : Nat} {s mn mx b : List Nat} {f : List Bool}
    {levels : List (List Nat × List Bool)}
    (hs : s.length = dim) (hs0 : ∀ d, d < dim → 0 < s.getD d 0)
    (hlv : ∀ lv ∈ levels ++ [(b, f)], lv.1.length = dim ∧ lv.2.length = dim ∧
      ∀ d, d < dim → 0 < lv.1.getD d 0)
    (h1 : mn.length = dim) (h2 : mx.length = dim)
    (hle : ∀ d, d < dim → mn.getD d 0 ≤ mx.getD d 0)
    (hdiv : (s :: (levels ++ [(b, f)]).map (·.1)).Pairwise (DividesAll dim)) :
    ∃ policy, buildPolicy dim s (levels ++ [(b, f)]) = .ok policy ∧
      (∃ l, Order (iterate_indices dim policy mn mx) l) ∧
      ∀ l, Order (iterate_indices dim policy mn mx) l →
        l.Nodup ∧ ∀ p, p ∈ l ↔ OnGrid mn ((List.range dim).map fun d => mn.getD d 0 +
          ceilDiv (mx.getD d 0 - mn.getD d 0) (b.getD d 0) * b.getD d 0) s p := by
  obtain ⟨policy, hp, hex, hall⟩ := iterate_visits hs hs0 hlv h1 h2 hle hdiv
  refine ⟨policy, hp, hex, fun l hl => ?_⟩
  have := hall l hl
  rw [List.reverse_append] at this
  exact this

example : ∃ policy, buildPolicy 2 [1, 1] ([] ++ [([4, 3], [true, true])]) = .ok policy ∧
    (∃ l, Order (iterate_indices 2 policy [0, 0] [6, 6]) l) ∧
    ∀ l, Order (iterate_indices 2 policy [0, 0] [6, 6]) l →
      l.Nodup ∧ ∀ p, p ∈ l ↔ OnGrid [0, 0] [8, 6] [1, 1] p :=
  C30_overrun_general rfl (by decide) (by decide) rfl rfl (by decide)
    (by decide)

/-! ### Malformed requests -/

/-- **C31.** Bounds of the wrong length abort before any call, for every user function and every
policy. -/
theorem C31_bad_bounds {α : Type} (dim : Nat) (policy : Policy) (mn mx : List Nat)
    (h : mn.length ≠ mx.length ∨ mn.length ≠ dim) (f : List Nat → Act α Unit) :
    (iterate_indices dim policy mn mx).toTree f = .act (.fail .terminate) ∧
    ∀ l, ¬ Order (iterate_indices dim policy mn mx) l := by
  have : iterate_indices dim policy mn mx = .fail .terminate := by
    unfold iterate_indices
    match policy.cfg.reverse with
    | [] => rw [iterateRev, iterateRevBy, if_pos h]
    | [(b, p)] => rw [iterateRev, iterateRevBy, if_pos h]
    | (b, p) :: c :: rest => rw [iterateRev, iterateRevBy, if_pos h]
  rw [this]
  refine ⟨by rw [Calls.toTree], fun l hl => by cases hl⟩

example : ∀ l, ¬ Order (iterate_indices 2 ⟨2, [([1, 1], [false, false])]⟩ [0] [5]) l :=
  (C31_bad_bounds (α := Nat) 2 _ [0] [5] (.inr (by decide)) fun _ => .ret ()).2

/-- **C31.** A blocking level with a block or flag vector of the wrong length aborts the
construction of the policy, on every level. -/
theorem C31_bad_level {dim : Nat} {s : List Nat} {levels : List (List Nat × List Bool)}
    (h : ∃ lv ∈ levels, lv.1.length ≠ dim ∨ lv.2.length ≠ dim) :
    buildPolicy dim s levels = .error .terminate := by
  unfold buildPolicy Policy.new Policy.add_blocking
  simp only [List.length_replicate, ne_eq, not_true_eq_false, or_self, if_false, M_bind_ok,
    List.nil_append, Policy.set_final_steps]
  have : ∀ (cfg : List (List Nat × List Bool)),
      levels.foldlM (fun (p : Policy) lv =>
        if ¬ lv.1.length = p.dim ∨ ¬ lv.2.length = p.dim then (Except.error Err.terminate : M Policy)
        else .ok { p with cfg := p.cfg ++ [(lv.1, lv.2)] }) ⟨dim, cfg⟩ =
      Except.error .terminate := by
    induction levels with
    | nil => obtain ⟨_, h, _⟩ := h; cases h
    | cons lv levels ih =>
      intro cfg
      rw [List.foldlM_cons]
      by_cases hlv : lv.1.length ≠ dim ∨ lv.2.length ≠ dim
      · rw [if_pos hlv]; rfl
      · rw [if_neg hlv, M_bind_ok]
        obtain ⟨lv', hm, hb⟩ := h
        rcases List.mem_cons.1 hm with rfl | hm
        · exact absurd hb hlv
        · exact ih ⟨lv', hm, hb⟩ _
  exact this _

example : buildPolicy 2 [1, 1] [([4, 4], [true, true]), ([8], [true, true])] = .error .terminate :=
  C31_bad_level ⟨([8], [true, true]), by simp, .inl (by decide)⟩

/-- **C31.** `map_dims` aborts when the partial index does not have one entry per mapped
dimension. -/
theorem C31_bad_map (sub map index : List Nat) (h : sub.length ≠ map.length) :
    map_dims sub map index = .error .terminate := by
  rw [map_dims, if_pos h]

example : map_dims [1, 2] [0] [5, 5] = .error .terminate := C31_bad_map _ _ _ (by decide)

end Verif.Props
