import Verif.Proof.Threads2
import Verif.Proof.Combined
import Verif.Proof.Semi
import Verif.Proof.AsyncErrs
/-
Helper lemmas: how many threads the variants can use.
-/
namespace Verif
variable {α : Type}

theorem Tree.width_acts {ι : Type} (l : List ι) (f : ι → Act α Unit) :
    (Tree.par (l.map fun i => .act (f i))).width = l.length := by
  simp only [Tree.width, List.map_map]
  induction l with
  | nil => rfl
  | cons i l ih =>
    simp only [List.map_cons, List.sum_cons, ih, Function.comp_apply, Tree.width, List.length_cons]
    omega

theorem Occupies.acts {ι : Type} (l : List ι) (f : ι → Act α Unit) :
    Occupies (Tree.par (l.map fun i => .act (f i))) l.length := by
  have h := Occupies.par (ts := l.map fun i => .act (f i)) fun t ht => by
    obtain ⟨i, _, rfl⟩ := List.mem_map.1 ht
    simp only [Tree.width]
    exact .act _
  rwa [Tree.width_acts] at h

theorem Tree.Serial.width {t : Tree α} (h : t.Serial) : t.width ≤ 1 := by
  induction h with
  | act => simp [Tree.width]
  | seq _ ih =>
    simp only [Tree.width]
    refine foldr_max_le fun x hx => ?_
    obtain ⟨t, ht, rfl⟩ := List.mem_map.1 hx
    exact ih t ht
  | @par ts hl _ ih =>
    simp only [Tree.width]
    match ts, hl with
    | [], _ => simp
    | [t], _ => simpa using ih t (by simp)

/-- A pool of threads works on one of several parallel tasks. -/
theorem Pool.Steps.inPar {k threads : Nat} {m m' : Mem α} {w w' : Pool α}
    (h : Pool.Steps k m w m' w') : ∀ {ws : List (Pool α)} {n : Nat}, ws[n]? = some w →
      k + (ws.map Pool.busy).sum ≤ threads + w.busy →
      Pool.Steps threads m (.par ws) m' (.par (ws.set n w')) := by
  induction h with
  | @refl m w =>
    intro ws n hn _
    rw [show ws.set n w = ws by
      obtain ⟨hl, he⟩ := List.getElem?_eq_some_iff.1 hn
      rw [← he]; exact List.set_getElem_self hl]
    exact .refl
  | @step m w m' w' m'' w'' h _ ih =>
    intro ws n hn hk
    have hs := Pool.sum_set (y := w') hn
    obtain ⟨hl, he⟩ := List.getElem?_eq_some_iff.1 hn
    have := ih (ws := ws.set n w') (n := n) (by simp [hl]) (by omega)
    rw [List.set_set] at this
    refine .step (.parStep n hn (h.mono fun hb => ?_)) this
    simp only [Pool.busy]
    omega

/-- A task that can be brought to an access occupies a thread. -/
theorem Occupies.next {t : Tree α} (hw : t.width ≤ 1)
    (h : ∀ m, ∃ m' t' l b, PSteps m t m' t' ∧ Next t' l b) : Occupies t 1 := by
  intro k hk m
  rcases Nat.eq_zero_or_pos k with rfl | h0
  · exact ⟨m, _, .refl, Pool.busy_fresh _⟩
  obtain rfl : k = 1 := by omega
  obtain ⟨m', t', l, b, hs, hn⟩ := h m
  obtain ⟨w, h1, h2⟩ := Pool.simulates hs (.fresh t) (Pool.legal_fresh t) (Pool.tree_fresh t)
  have hi := h1.legal (Pool.legal_fresh t)
  obtain ⟨w', h3, h4, h5⟩ := Pool.startNext m' w hi (by rw [h2]; exact hn)
  have h6 := (h1.trans h3).steps (threads := 1) (Pool.legal_fresh t) (by rwa [Pool.tree_fresh])
  refine ⟨m', w', h6, ?_⟩
  have := h6.busy (by rw [Pool.busy_fresh]; omega)
  have := h5.busy
  omega

/-- Never more threads are busy than tasks can run at the same time. -/
theorem Occupies.width_ge {t : Tree α} {n : Nat} (h : Occupies t n) (m : Mem α) : n ≤ t.width := by
  obtain ⟨m', w, h1, h2⟩ := h n (Nat.le_refl _) m
  have h3 := h1.sound (Pool.legal_fresh t)
  rw [Pool.tree_fresh] at h3
  have := h3.2.busy_le
  have := width_steps h3.1
  omega

/-- Two of several parallel tasks, each of which needs one thread only, race on two threads. -/
theorem Pool.race_two {ts : List (Tree α)} {n n' : Nat} (hne : n ≠ n') {t u t' u' : Tree α}
    {m m1 m2 : Mem α} {l b} (ht : ts[n]? = some t) (hu : ts[n']? = some u) (hwt : t.width ≤ 1)
    (hwu : u.width ≤ 1) (hs : PSteps m t m1 t') (hn : Verif.Next t' l true) (hs' : PSteps m1 u m2 u')
    (hn' : Verif.Next u' l b) :
    ∃ m' w, Pool.Steps 2 m (.fresh (.par ts)) m' w ∧ w.Race := by
  have key : ∀ {t t' : Tree α} {m m' : Mem α} {b}, t.width ≤ 1 → PSteps m t m' t' →
      Verif.Next t' l b → ∃ w, Pool.Steps 1 m (.fresh t) m' w ∧ w.Next l b := by
    intro t t' m m' b hw hs hn
    obtain ⟨w, h1, h2⟩ := Pool.simulates hs (.fresh t) (Pool.legal_fresh t) (Pool.tree_fresh t)
    obtain ⟨w', h3, h4, h5⟩ := Pool.startNext m' w (h1.legal (Pool.legal_fresh t))
      (by rw [h2]; exact hn)
    exact ⟨w', (h1.trans h3).steps (threads := 1) (Pool.legal_fresh t) (by rwa [Pool.tree_fresh]), h5⟩
  obtain ⟨w, h1, h2⟩ := key hwt hs hn
  obtain ⟨w', h3, h4⟩ := key hwu hs' hn'
  have e : (ts.map Pool.fresh)[n]? = some (Pool.fresh t) := by simp [ht]
  have hl := (List.getElem?_eq_some_iff.1 ht).1
  have hl' := (List.getElem?_eq_some_iff.1 hu).1
  have e' : ((ts.map Pool.fresh).set n w)[n']? = some (Pool.fresh u) := by
    rw [List.getElem?_set_ne hne]; simp [hu]
  have h0 : ((ts.map Pool.fresh).map Pool.busy).sum = 0 := by
    rw [List.map_map]; exact Pool.sum_zero fun t _ => Pool.busy_fresh t
  have hsum := Pool.sum_set (y := w) e
  have hb := h1.busy (by rw [Pool.busy_fresh]; omega)
  rw [h0, Pool.busy_fresh] at hsum
  have a1 := h1.inPar (threads := 2) e (by rw [h0, Pool.busy_fresh]; omega)
  have a2 := h3.inPar (threads := 2) e' (by rw [Pool.busy_fresh]; omega)
  refine ⟨m2, _, by simp only [Pool.fresh]; exact a1.trans a2, ?_⟩
  refine .here n n' hne ?_ ?_ h2 h4
  · rw [List.getElem?_set_ne (Ne.symm hne)]; simp [hl]
  · simp [hl']

end Verif

namespace Verif.Combined
open IndexIterator Tiled
variable {α : Type} [Arith α]

/-- The parallel parts of the iteration: each of them uses one thread only. -/
theorem calls_parts {b : Blocking} (h : b.Valid) {X Y K : Nat} (hK : 0 < K) :
    ∃ ts, calls b X Y K = .par ts ∧ ts.length = ceilDiv X b.L3_X * ceilDiv Y b.L3_Y ∧
      ∀ t ∈ ts, t.leaves ≠ [] ∧ t.Serial := by
  obtain ⟨ts, he, hl, hne⟩ := calls_par (X := X) (Y := Y) h hK
  refine ⟨ts, he, hl, fun t ht => ⟨hne t ht, ?_⟩⟩
  have e := iterateRev_level (dim := 3) (b := [b.L3_X, b.L3_Y, b.L3_K_STEP])
    (f := [true, true, false]) (c := ([b.L2_X, b.L2_Y, b.L2_K_STEP], [false, false, false]))
    (rest := [(final b, [false, false, false])]) (mn := [0, 0, 0]) (mx := [X, Y, K]) rfl rfl rfl rfl
    (forall_three h.x3 h.y3 h.k3)
    (forall_three (P := fun d => [0, 0, 0].getD d 0 ≤ [X, Y, K].getD d 0) (Nat.zero_le _)
      (Nat.zero_le _) (Nat.zero_le _))
  unfold calls levels at he
  rw [List.cons_append, List.singleton_append, e] at he
  injection he with he
  subst he
  obtain ⟨n1, _, rfl⟩ := List.mem_map.1 ht
  refine .seq fun t ht => ?_
  obtain ⟨n2, _, rfl⟩ := List.mem_map.1 ht
  have hp := l2_pos h
  generalize hfs : lvDims 3 [0, 0, 0] [X, Y, K] [b.L3_X, b.L3_Y, b.L3_K_STEP]
      [true, true, false] = fs
  have hlen : (blockPos fs n1 n2).length = 3 := by
    unfold blockPos
    rw [pos_length]
    have := congrArg List.length (serDs_steps fs (pos (redDs fs) (min n1 (total (redDs fs) - 1))))
    rw [List.length_map, List.length_map] at this
    rw [this, ← hfs]; simp [lvDims]
  rw [iterateRev_level (b := [b.L2_X, b.L2_Y, b.L2_K_STEP]) hlen (by simp) rfl rfl
    (forall_three hp.1 hp.2.1 hp.2.2)
    (fun d hd => by rw [getD_map_range _ _ _ hd]; omega)]
  refine .par ?_ fun t ht => ?_
  · simp [redDs, lvDims, List.range_succ]
  obtain ⟨n3, _, rfl⟩ := List.mem_map.1 ht
  refine .seq fun t ht => ?_
  obtain ⟨n4, _, rfl⟩ := List.mem_map.1 ht
  rw [iterateRev, iterateRevBy]
  split
  · exact .fail
  · exact execute_looped_serial _ _ _ _ _ _

theorem width {b : Blocking} (h : b.Valid) {X Y K : Nat} (hK : 0 < K) (At Bp : Array α) :
    (tree b (pol b) X Y K At Bp).width ≤ ceilDiv X b.L3_X * ceilDiv Y b.L3_Y := by
  obtain ⟨ts, e, hl, hp⟩ := calls_parts (X := X) (Y := Y) h hK
  rw [tree_eq, e, toTree_par, ← hl]
  simp only [Tree.width, List.map_map]
  clear e hl
  induction ts with
  | nil => simp
  | cons t ts ih =>
    have h1 := ((hp t (by simp)).2.toTree (body b X Y At Bp)).width
    have := ih fun t ht => hp t (by simp [ht])
    simp only [List.map_cons, List.sum_cons, Function.comp_apply, List.length_cons]
    omega

/-- Each part can be brought to the access to `first`. -/
theorem part_next {b : Blocking} (h : b.Valid) {QX QY QK : Nat} {At Bp : Array α}
    {f g : Nat → Nat → α} {R : List Nat → List Nat → Prop} {t : Calls (List Nat)} (hg : t.Good R)
    (hmem : ∀ p ∈ t.leaves,
      OnGrid [0, 0, 0] [QX * b.L1_X, QY * b.L1_Y, QK * b.L1_K_STEP] (final b) p)
    (hne : t.leaves ≠ [])
    (hA : HoldsTiled At QK QX b.L1_K_STEP b.L1_X (fun k i => f i k))
    (hB : HoldsTiled Bp QK QY b.L1_K_STEP b.L1_Y g) (m : Mem α) :
    ∃ m' t', PSteps m (t.toTree (body b (QX * b.L1_X) (QY * b.L1_Y) At Bp)) m' t' ∧
      Next t' (.flag 0) false ∧ m'.flag = m.flag := by
  obtain ⟨i, hi, hr⟩ := hg.reach (body b (QX * b.L1_X) (QY * b.L1_Y) At Bp) hne
  obtain ⟨m1, hs1, hf1⟩ := (call_does (A := false) h hA hB (hmem i hi)).reach
    (fun _ => clearFirst) m
  obtain ⟨t', hs, hn⟩ := hr m m1 _ hs1
  exact ⟨m1, t', hs, hn _ _ .rdFlag, hf1⟩

theorem part_write {b : Blocking} (h : b.Valid) {QX QY QK : Nat} {At Bp : Array α}
    {f g : Nat → Nat → α} {R : List Nat → List Nat → Prop} {t : Calls (List Nat)} (hg : t.Good R)
    (hmem : ∀ p ∈ t.leaves,
      OnGrid [0, 0, 0] [QX * b.L1_X, QY * b.L1_Y, QK * b.L1_K_STEP] (final b) p)
    (hne : t.leaves ≠ [])
    (hA : HoldsTiled At QK QX b.L1_K_STEP b.L1_X (fun k i => f i k))
    (hB : HoldsTiled Bp QK QY b.L1_K_STEP b.L1_Y g) (m : Mem α) (hm : m.flag 0 = true) :
    ∃ m' t', PSteps m (t.toTree (body b (QX * b.L1_X) (QY * b.L1_Y) At Bp)) m' t' ∧
      Next t' (.flag 0) true := by
  obtain ⟨i, hi, hr⟩ := hg.reach (body b (QX * b.L1_X) (QY * b.L1_Y) At Bp) hne
  obtain ⟨m1, hs1, hf1⟩ := (call_does (A := false) h hA hB (hmem i hi)).reach
    (fun _ => clearFirst) m
  have hs1' : PSteps m (.act (body b (QX * b.L1_X) (QY * b.L1_Y) At Bp i)) m1
      (.act (.wrFlag 0 false (.ret ()))) := by
    refine hs1.trans (.step .rdFlag ?_)
    rw [hf1, hm, if_pos rfl]
    exact .refl
  obtain ⟨t', hs, hn⟩ := hr m m1 _ hs1'
  exact ⟨m1, t', hs, hn _ _ .wrFlag⟩

theorem occupies {b : Blocking} (h : b.Valid) {QX QY QK : Nat} {At Bp : Array α}
    {f g : Nat → Nat → α} (hX : b.L3_X ∣ QX * b.L1_X) (hY : b.L3_Y ∣ QY * b.L1_Y)
    (hK : b.L3_K_STEP ∣ QK * b.L1_K_STEP) (hK0 : 0 < QK * b.L1_K_STEP)
    (hA : HoldsTiled At QK QX b.L1_K_STEP b.L1_X (fun k i => f i k))
    (hB : HoldsTiled Bp QK QY b.L1_K_STEP b.L1_Y g) :
    Occupies (tree b (pol b) (QX * b.L1_X) (QY * b.L1_Y) (QK * b.L1_K_STEP) At Bp)
      (ceilDiv (QX * b.L1_X) b.L3_X * ceilDiv (QY * b.L1_Y) b.L3_Y) := by
  obtain ⟨hg, _, hmem⟩ := calls_spec h hX hY hK
  obtain ⟨ts, e, hl, hp⟩ := calls_parts (X := QX * b.L1_X) (Y := QY * b.L1_Y) h hK0
  rw [tree_eq, e, toTree_par]
  rw [e] at hg hmem
  cases hg with
  | par hg hpw =>
    clear hpw
    have hocc : ∀ t ∈ ts, Occupies (t.toTree (body b (QX * b.L1_X) (QY * b.L1_Y) At Bp)) 1 := by
      intro t ht
      refine .next ((hp t ht).2.toTree _).width fun m => ?_
      obtain ⟨m', t', h1, h2, _⟩ := part_next h (hg t ht)
        (fun p hp' => (hmem p).1 (by rw [leaves_par]; exact List.mem_flatMap.2 ⟨t, ht, hp'⟩))
        (hp t ht).1 hA hB m
      exact ⟨m', t', _, _, h1, h2⟩
    have hw : ∀ t ∈ ts, (t.toTree (body b (QX * b.L1_X) (QY * b.L1_Y) At Bp)).width = 1 := by
      intro t ht
      have h1 := ((hp t ht).2.toTree (body b (QX * b.L1_X) (QY * b.L1_Y) At Bp)).width
      have h2 := (hocc t ht).width_ge ⟨fun _ => Arith.zero, fun _ => true⟩
      omega
    have := Occupies.par (ts := ts.map (Calls.toTree (body b (QX * b.L1_X) (QY * b.L1_Y) At Bp)))
      fun u hu => by
        obtain ⟨t, ht, rfl⟩ := List.mem_map.1 hu
        rw [hw t ht]; exact hocc t ht
    have e2 : (Tree.par (ts.map (Calls.toTree (body b (QX * b.L1_X) (QY * b.L1_Y) At Bp)))).width =
        ts.length := by
      simp only [Tree.width, List.map_map]
      clear e hl hp hg hmem hocc this
      induction ts with
      | nil => rfl
      | cons t ts ih =>
        have h1 := hw t (by simp)
        have := ih fun t ht => hw t (by simp [ht])
        simp only [List.map_cons, List.sum_cons, Function.comp_apply, List.length_cons]
        omega
    rwa [e2, hl] at this

/-- Two threads suffice for the data race on `first`. -/
theorem race_pool {b : Blocking} (h : b.Valid) {QX QY QK : Nat} {At Bp : Array α}
    {f g : Nat → Nat → α} (hX : b.L3_X ∣ QX * b.L1_X) (hY : b.L3_Y ∣ QY * b.L1_Y)
    (hK : b.L3_K_STEP ∣ QK * b.L1_K_STEP) (hK0 : 0 < QK * b.L1_K_STEP)
    (h2 : 2 ≤ ceilDiv (QX * b.L1_X) b.L3_X * ceilDiv (QY * b.L1_Y) b.L3_Y)
    (hA : HoldsTiled At QK QX b.L1_K_STEP b.L1_X (fun k i => f i k))
    (hB : HoldsTiled Bp QK QY b.L1_K_STEP b.L1_Y g) (m : Mem α) (hm : m.flag 0 = true) :
    ∃ m' w, Pool.Steps 2 m
      (.fresh (tree b (pol b) (QX * b.L1_X) (QY * b.L1_Y) (QK * b.L1_K_STEP) At Bp)) m' w ∧
        w.Race := by
  obtain ⟨hg, _, hmem⟩ := calls_spec h hX hY hK
  obtain ⟨ts, e, hl, hp⟩ := calls_parts (X := QX * b.L1_X) (Y := QY * b.L1_Y) h hK0
  rw [tree_eq, e, toTree_par]
  rw [e] at hg hmem
  rw [← hl] at h2
  cases hg with
  | par hg _ =>
    have hgrid : ∀ t ∈ ts, ∀ p ∈ t.leaves,
        OnGrid [0, 0, 0] [QX * b.L1_X, QY * b.L1_Y, QK * b.L1_K_STEP] (final b) p :=
      fun t ht p hp' => (hmem p).1 (by rw [leaves_par]; exact List.mem_flatMap.2 ⟨t, ht, hp'⟩)
    have m0 : ts[0] ∈ ts := List.getElem_mem (show 0 < ts.length by omega)
    have m1 : ts[1] ∈ ts := List.getElem_mem (show 1 < ts.length by omega)
    obtain ⟨ma, ta, a1, a2⟩ := part_write h (hg _ m0) (hgrid _ m0) (hp _ m0).1 hA hB m hm
    obtain ⟨mb, tb, b1, b2, _⟩ := part_next h (hg _ m1) (hgrid _ m1) (hp _ m1).1 hA hB ma
    exact Pool.race_two (show (0 : Nat) ≠ 1 by decide) (by simp [show 0 < ts.length by omega])
      (by simp [show 1 < ts.length by omega]) ((hp _ m0).2.toTree _).width
      ((hp _ m1).2.toTree _).width a1 a2 b1 b2

end Verif.Combined

namespace Verif.Semi
open IndexIterator
variable {α : Type} [Arith α]

theorem width (N : Nat) (A B : Array α) (bi : Nat) :
    (tree N A B bi ⟨3, [([4, 2, bi], [false, false, false])]⟩).width ≤ 1 := by
  rw [tree_eq]
  exact ((execute_looped_serial _ _ _ _ _ _).toTree _).width

theorem raceFree (N : Nat) (A B : Array α) (bi : Nat) (m : Mem α) :
    RaceFree m (tree N A B bi ⟨3, [([4, 2, bi], [false, false, false])]⟩) := by
  rw [tree_eq]
  exact ((execute_looped_serial _ _ _ _ _ _).toTree _).raceFree m

end Verif.Semi

namespace Verif.Async
open Verif.Kernel
variable {α : Type} [Arith α]

omit [Arith α] in
theorem four_sum (f : Nat → Tree α) {k : Nat} (hk : 1 ≤ k) (h : ∀ i, (f i).width = k)
    (g : Nat → Act α Unit) :
    (Tree.par ((List.range 4).map fun i => .seq [f i, .act (g i)])).width = 4 * k := by
  simp only [Tree.width, List.map_map, List.range_succ, List.range_zero, List.nil_append,
    List.cons_append, List.map_cons, List.map_nil, List.sum_cons, List.sum_nil,
    Function.comp_apply, List.foldr_cons, List.foldr_nil, h]
  omega

theorem distribute_width (s : Multiplier α) (br : Nat) : ∀ (h n off x y : Nat), n / 2 ^ h ≤ br →
    (∀ d, d < h → br < n / 2 ^ d) →
    (distribute_recursively s br off x y n).width = 4 ^ h ∧
      Occupies (distribute_recursively s br off x y n) (4 ^ h)
  | 0, n, off, x, y, h1, _ => by
    rw [distribute_recursively, dif_pos (by simpa using h1)]
    exact ⟨by simp [Tree.width], .act _⟩
  | h + 1, n, off, x, y, h1, h2 => by
    have h0 : br < n := by simpa using h2 0 (by omega)
    rw [distribute_recursively, dif_neg (by omega)]
    have ih : ∀ off x y, _ := fun off x y => distribute_width s br h (n / 2) off x y
      (by rw [Nat.div_div_eq_div_mul]; rwa [Nat.pow_succ, Nat.mul_comm] at h1)
      (fun d hd => by
        rw [Nat.div_div_eq_div_mul]
        have := h2 (d + 1) (by omega)
        rwa [Nat.pow_succ, Nat.mul_comm] at this)
    have h4 : 1 ≤ 4 ^ h := Nat.one_le_pow _ _ (by decide)
    have hw := four_sum (fun i => distribute_recursively s br (off + n * n + i * cells br (n / 2))
      (x + (offset (n / 2) i).1) (y + (offset (n / 2) i).2) (n / 2)) h4 (fun i => (ih _ _ _).1)
      (fun i => extract_submatrix (off + n * n + i * cells br (n / 2)) (n / 2 * (n / 2)) off (n * n)
        (offset (n / 2) i).1 (offset (n / 2) i).2 (n / 2))
    have e4 : (4 : Nat) ^ (h + 1) = 4 * 4 ^ h := by rw [Nat.pow_succ, Nat.mul_comm]
    refine ⟨?_, ?_⟩
    · rw [show ∀ (p : Act α Unit) (t : Tree α), (Tree.seq [.act p, t]).width = max 1 t.width from
        fun p t => by simp [Tree.width], hw]
      omega
    · refine .skip (allocate_errs _ _ _) (.head ?_ _)
      rw [e4, ← hw]
      refine .par fun t ht => ?_
      obtain ⟨i, _, rfl⟩ := List.mem_map.1 ht
      have hi := ih (off + n * n + i * cells br (n / 2)) (x + (offset (n / 2) i).1)
        (y + (offset (n / 2) i).2)
      refine .head (hi.2.le ?_) _
      rw [show ∀ (p : Act α Unit) (t : Tree α), (Tree.seq [t, .act p]).width = max t.width 1 from
        fun p t => by simp [Tree.width], hi.1]
      omega

end Verif.Async
