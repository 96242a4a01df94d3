import Verif.Proof.Combined
/-
Helper lemmas about iterations with one blocking level whose steps need not divide the block, and
about semi.cpp with blocking.
-/
set_option linter.unusedSectionVars false
namespace Verif.IndexIterator
variable {α : Type}

private theorem blockPos_len {dim : Nat} {b mn mx : List Nat} {f : List Bool} (n1 n2 : Nat) :
    (blockPos (lvDims dim mn mx b f) n1 n2).length = dim := by
  unfold blockPos
  rw [pos_length]
  have := congrArg List.length (serDs_steps (lvDims dim mn mx b f)
    (pos (redDs (lvDims dim mn mx b f)) (min n1 (total (redDs (lvDims dim mn mx b f)) - 1))))
  rw [List.length_map, List.length_map] at this
  rw [this]; simp [lvDims]

/-- One blocking level: the steps within a block are made from the beginning of the block. -/
theorem two_level_leaf {dim : Nat} {b s mn mx q p : List Nat} {f f0 : List Bool}
    (h1 : mn.length = dim) (h2 : mx.length = dim) (hb : b.length = dim) (hf : f.length = dim)
    (hpos : ∀ d, d < dim → 0 < b.getD d 0) (hle : ∀ d, d < dim → mn.getD d 0 ≤ mx.getD d 0)
    (hsl : s.length = dim) (hs : ∀ d, d < dim → 0 < s.getD d 0)
    (hq : OnGrid mn (bound dim [(b, f)] mn mx) b q)
    (hp : OnGrid q ((List.range dim).map fun d => q.getD d 0 + b.getD d 0) s p) :
    p ∈ (iterateRev dim [(b, f), (s, f0)] mn mx).leaves := by
  have hlv : LvOk dim b [(b, f)] := .cons hb hf hpos (fun _ _ => Nat.dvd_refl _)
    (fun _ h => by cases h) .nil
  have hmem := ((iterateRev_spec (f0 := f0) hpos hb [(b, f)] hlv mn mx h1 h2 hle).2.2 q).2 hq
  rw [List.singleton_append, iterateRev_level h1 h2 hb hf hpos hle, leaves_par] at hmem
  rw [iterateRev_level h1 h2 hb hf hpos hle, leaves_par]
  obtain ⟨_, ht, hmem⟩ := List.mem_flatMap.1 hmem
  obtain ⟨n1, hn1, rfl⟩ := List.mem_map.1 ht
  rw [leaves_seq] at hmem
  obtain ⟨_, ht, hmem⟩ := List.mem_flatMap.1 hmem
  obtain ⟨n2, hn2, rfl⟩ := List.mem_map.1 ht
  have hl := blockPos_len (dim := dim) (b := b) (mn := mn) (mx := mx) (f := f) n1 n2
  rw [iterateRev, iterateRevBy, if_neg (by simp [hl])] at hmem
  have hql := ((loop_nest_spec (R := fun _ _ => False) (by rw [hb]; exact hpos) hl hb).2.2 q).1 hmem
  have e : blockPos (lvDims dim mn mx b f) n1 n2 = q := by
    obtain ⟨e1, e2⟩ := hql
    refine List.ext_getElem e1.symm fun d hd hd' => ?_
    obtain ⟨t, ht, hlt⟩ := e2 d hd
    rw [hl] at hd
    rw [getD_map_range _ _ _ hd] at hlt
    rw [ht] at hlt
    have ht0 : t = 0 := by
      rcases Nat.eq_zero_or_pos t with h | h
      · exact h
      · have := Nat.mul_le_mul_right (b.getD d 0) h
        omega
    rw [ht0, Nat.zero_mul, Nat.add_zero] at ht
    rw [List.getD_eq_getElem _ _ hd', List.getD_eq_getElem _ _ (by omega)] at ht
    exact ht.symm
  refine List.mem_flatMap.2 ⟨_, List.mem_map.2 ⟨n1, hn1, rfl⟩, ?_⟩
  rw [leaves_seq]
  refine List.mem_flatMap.2 ⟨_, List.mem_map.2 ⟨n2, hn2, rfl⟩, ?_⟩
  rw [e] at hl ⊢
  rw [iterateRev, iterateRevBy, if_neg (by simp [hl])]
  exact ((loop_nest_spec (R := fun _ _ => False) (by rw [hsl]; exact hs) hl hsl).2.2 p).2 hp

/-- One blocking level: the only errors are those of the calls. -/
theorem two_level_errs {dim : Nat} {b s mn mx : List Nat} {f f0 : List Bool}
    (h1 : mn.length = dim) (h2 : mx.length = dim) (hb : b.length = dim) (hf : f.length = dim)
    (hpos : ∀ d, d < dim → 0 < b.getD d 0) (hle : ∀ d, d < dim → mn.getD d 0 ≤ mx.getD d 0)
    (hsl : s.length = dim) (hs : ∀ d, d < dim → 0 < s.getD d 0) {E : Err → Prop}
    {g : List Nat → Act α Unit} (hg : ∀ p, (g p).All (fun _ => True) E) :
    ((iterateRev dim [(b, f), (s, f0)] mn mx).toTree g).Errs E := by
  rw [iterateRev_level h1 h2 hb hf hpos hle, toTree_par]
  refine .par fun u hu => ?_
  obtain ⟨_, ht, rfl⟩ := List.mem_map.1 hu
  obtain ⟨n1, _, rfl⟩ := List.mem_map.1 ht
  rw [toTree_seq]
  refine .seq fun u hu => ?_
  obtain ⟨_, ht, rfl⟩ := List.mem_map.1 hu
  obtain ⟨n2, _, rfl⟩ := List.mem_map.1 ht
  have hl := blockPos_len (dim := dim) (b := b) (mn := mn) (mx := mx) (f := f) n1 n2
  rw [iterateRev, iterateRevBy, if_neg (by simp [hl])]
  exact (loop_nest_spec (R := fun _ _ => False) (by rw [hsl]; exact hs) hl hsl).1.errs
    fun p _ => hg p

end Verif.IndexIterator

namespace Verif.Semi
open IndexIterator Kernel
variable {α : Type} [Arith α]

/-- The calls with the blocking level. -/
def calls4 (f : List Bool) (bi N : Nat) : Calls (List Nat) :=
  iterateRev 3 [([4, 4, 4], f), ([4, 2, bi], [false, false, false])] [0, 0, 0] [N, N, N]

/-- The policy built by the code. -/
def pol4 (f : List Bool) (bi : Nat) : Policy :=
  ⟨3, [([4, 2, bi], [false, false, false]), ([4, 4, 4], f)]⟩

theorem blocked_policy_ok {f : List Bool} (hf : f.length = 3) (bi : Nat) :
    blocked_policy f bi = .ok (pol4 f bi) := by
  match f, hf with
  | [_, _, _], _ => rfl

theorem tree4_eq (N : Nat) (A B : Array α) (f : List Bool) (bi : Nat) :
    tree N A B bi (pol4 f bi) = (calls4 f bi N).toTree (body N A B bi) := rfl

theorem pos4 : ∀ d, d < 3 → 0 < [4, 4, 4].getD d 0 :=
  Combined.forall_three (by decide) (by decide) (by decide)

theorem zero_le3 (N : Nat) : ∀ d, d < 3 → [0, 0, 0].getD d 0 ≤ [N, N, N].getD d 0 :=
  Combined.forall_three (P := fun d => [0, 0, 0].getD d 0 ≤ [N, N, N].getD d 0) (Nat.zero_le _)
    (Nat.zero_le _) (Nat.zero_le _)

theorem calls4_spec {f : List Bool} (hf : f.length = 3) {bi N : Nat} (h4 : 4 ∣ N) (hbi : bi ∣ 4) :
    (calls4 f bi N).Good (SepBy [([4, 4, 4], f)]) ∧ (calls4 f bi N).leaves.Pairwise SomeLt ∧
      ∀ p, p ∈ (calls4 f bi N).leaves ↔ OnGrid [0, 0, 0] [N, N, N] [4, 2, bi] p := by
  have hb0 : 0 < bi := Nat.pos_of_dvd_of_pos hbi (by decide)
  have hlv : LvOk 3 [4, 2, bi] [([4, 4, 4], f)] := .cons rfl hf pos4
    (Combined.forall_three (show 4 ∣ 4 by decide) (show 2 ∣ 4 by decide) hbi) (fun _ h => by cases h) .nil
  obtain ⟨h1, h2, h3⟩ := iterateRev_spec (dim := 3) (f0 := [false, false, false]) (steps_pos bi hb0) rfl
    [([4, 4, 4], f)] hlv [0, 0, 0] [N, N, N] rfl rfl (zero_le3 N)
  have hb : bound 3 [([4, 4, 4], f)] [0, 0, 0] [N, N, N] = [N, N, N] := by
    obtain ⟨n, rfl⟩ := h4
    simp [bound, List.range_succ, Nat.mul_comm 4 n, ceilDiv_mul _ _ (show 0 < 4 by decide)]
  rw [hb] at h3
  exact ⟨h1, h2, h3⟩

theorem tree4_result {N : Nat} {A B : Array α} {fx fy : Bool} {bi : Nat} {a b : Nat → Nat → α}
    (hA : Holds A N N a) (hB : Holds B N N b) (h4 : 4 ∣ N) (hd4 : bi ∣ 4) :
    ND.runOn (zeros (N * N)) (tree N A B bi (pol4 [fx, fy, false] bi)) =
      ND.pure (rowMajor N fun i j => bdot bi (N / bi) (a i) (b j)) := by
  obtain ⟨hg, hp, hm⟩ := calls4_spec (f := [fx, fy, false]) rfl h4 hd4
  have hbi : 0 < bi := Nat.pos_of_dvd_of_pos hd4 (by decide)
  have hd : bi ∣ N := hd4.trans h4
  have hin : ∀ p, p ∈ (calls4 [fx, fy, false] bi N).leaves →
      p.getD 0 0 + 3 < N ∧ p.getD 1 0 + 1 < N ∧ p.getD 2 0 + bi ≤ N := by
    intro p hp
    obtain ⟨_, ⟨t, e0, h0⟩, ⟨u, e1, h1⟩, ⟨v, e2, h2⟩⟩ := onGrid_three.1 ((hm p).1 hp)
    obtain ⟨q, hq⟩ := h4
    obtain ⟨w, hw⟩ := hd
    refine ⟨by omega, by omega, ?_⟩
    rw [e2, hw] at h2
    rw [e2, hw, Nat.mul_comm bi w]
    rw [Nat.mul_comm bi w] at h2
    have := Nat.mul_le_mul_right bi (show v + 1 ≤ w from Nat.lt_of_mul_lt_mul_right h2)
    rw [Nat.add_mul] at this
    omega
  have hcell : ∀ p, p ∈ (calls4 [fx, fy, false] bi N).leaves → ∀ i j, j < N →
      ∀ u ∈ upd N bi a b p, u.1 = i * N + j → p.getD 0 0 = i / 4 * 4 ∧ p.getD 1 0 = j / 2 * 2 := by
    intro p hp' i j hj u hu he
    obtain ⟨r, c, h1, h2, h3, h4, h5⟩ := upd8_pos hu
    obtain ⟨_, ⟨t, e0, _⟩, ⟨v, e1, _⟩, _⟩ := onGrid_three.1 ((hm p).1 hp')
    have := hin p hp'
    rw [h5] at he
    obtain ⟨rfl, rfl⟩ := idx_inj (show c < N by omega) hj he
    exact ⟨by omega, by omega⟩
  have hdoes := hg.mono_mem.does (A := false) (f := body N A B bi) (us := upd N bi a b)
    (fun p q hpq u hu v hv he => by
      obtain ⟨hp, hq, d, ⟨lv, hlv, ht⟩, hne⟩ := hpq
      rw [List.mem_singleton] at hlv
      subst hlv
      obtain ⟨r, c, h1, h2, h3, h4, h5⟩ := upd8_pos hv
      have hq' := hin q hq
      have e1 := hcell p hp r c (by omega) u hu (he.trans h5)
      have e2 := hcell q hq r c (by omega) v hv h5
      match d with
      | 0 => exact hne (e1.1.trans e2.1.symm)
      | 1 => exact hne (e1.2.trans e2.2.symm)
      | 2 => simp at ht
      | d + 3 => simp at ht)
    (fun p hp => body_does hA hB (hin p hp).1 (hin p hp).2.1 (hin p hp).2.2)
  rw [tree4_eq, hdoes.runOn]
  refine congrArg ND.pure (applyA_rect (by simp) (zeros_holds N N) fun i hi j hj => ?_)
  obtain ⟨q, hq⟩ := h4
  rw [cellFold_filter (fun p => decide (p.getD 0 0 = i / 4 * 4 ∧ p.getD 1 0 = j / 2 * 2))]
  · rw [filter_k hp hm hbi ⟨i / 4, rfl, by omega⟩ ⟨j / 2, rfl, by omega⟩, List.flatMap_map,
      cellFold_flatMap]
    have e : steps 0 N bi = steps 0 (N / bi * bi) bi := by rw [Nat.div_mul_cancel hd]
    rw [e, steps_mul _ _ hbi, List.foldl_map]
    unfold bdot bdotFrom
    refine foldl_congr' (fun t _ s => ?_) _
    exact upd8_cell (by simp; omega) (by simp; omega) (by simp; omega) (by simp; omega)
      (by simp; omega) s
  · intro p hp' hq' u hu he
    exact of_decide_eq_false hq' (hcell p hp' i j hj u hu he)

/-- Outside of the domain some call reads out of bounds. -/
theorem tree4_stuck {N : Nat} {A B : Array α} {f : List Bool} (hf : f.length = 3) {bi : Nat}
    (hA : A.size = N * N) (hN : 0 < N) (hbi : 0 < bi) (h : ¬ (4 ∣ N ∧ bi ∣ 4)) :
    (tree N A B bi (pol4 f bi)).Stuck := by
  rw [tree4_eq]
  have hbound : bound 3 [([4, 4, 4], f)] [0, 0, 0] [N, N, N] =
      [ceilDiv N 4 * 4, ceilDiv N 4 * 4, ceilDiv N 4 * 4] := by
    simp [bound, List.range_succ]
  have hlt : ∀ x, x ≤ N - 1 → x < ceilDiv N 4 * 4 := by intro x hx; unfold ceilDiv; omega
  have hleaf : ∀ k, (∃ t, k = (N - 1) / 4 * 4 + t * bi) → k < (N - 1) / 4 * 4 + 4 →
      [(N - 1) / 4 * 4, 0, k] ∈ (calls4 f bi N).leaves := by
    rintro k ⟨t, ht⟩ hk
    refine two_level_leaf (q := [(N - 1) / 4 * 4, 0, (N - 1) / 4 * 4]) rfl rfl rfl hf pos4
      (zero_le3 N) rfl (steps_pos bi hbi) ?_ ⟨rfl, fun d hd => ?_⟩
    · rw [hbound]
      exact onGrid_three.2 ⟨rfl, ⟨_, rfl, hlt _ (by simp; omega)⟩, ⟨0, rfl, hlt _ (by simp)⟩,
        ⟨_, rfl, hlt _ (by simp; omega)⟩⟩
    · match d, hd with
      | 0, _ => exact ⟨0, by simp, by simp [List.range_succ]⟩
      | 1, _ => exact ⟨0, by simp, by simp [List.range_succ]⟩
      | 2, _ => exact ⟨t, by simpa using ht, by simpa [List.range_succ] using hk⟩
  by_cases h4 : 4 ∣ N
  · have hnd : ¬ bi ∣ 4 := fun hd => h ⟨h4, hd⟩
    obtain ⟨n, hn⟩ := h4
    have hle : 3 / bi * bi ≤ 3 := Nat.div_mul_le_self _ _
    have hgt : 3 < 3 / bi * bi + bi := Nat.lt_div_mul_add hbi
    have hne : 4 ≠ 3 / bi * bi + bi := fun he =>
      hnd ⟨3 / bi + 1, by rw [Nat.mul_comm, Nat.add_mul, Nat.one_mul]; exact he⟩
    refine stuck_of_leaf (hleaf ((N - 1) / 4 * 4 + 3 / bi * bi) ⟨_, rfl⟩ (by omega)) ?_
    refine body_noRet (l := 4 - 3 / bi * bi) (by omega) ?_
    rw [hA]
    simp only [List.getD_cons_zero, List.getD_cons_succ]
    have e : (N - 1) / 4 * 4 + 3 + 1 = N := by omega
    have e' : (N - 1) / 4 * 4 + 3 / bi * bi + (4 - 3 / bi * bi) = N := by omega
    rw [Nat.add_assoc, e']
    calc N * N = ((N - 1) / 4 * 4 + 3 + 1) * N := by rw [e]
      _ = ((N - 1) / 4 * 4 + 3) * N + N := by rw [Nat.add_mul, Nat.one_mul]
      _ ≤ _ := Nat.le_refl _
  · refine stuck_of_leaf (hleaf ((N - 1) / 4 * 4) ⟨0, by simp⟩ (by omega)) ?_
    refine body_noRet (l := 0) hbi ?_
    rw [hA]
    simp only [List.getD_cons_zero, List.getD_cons_succ, Nat.add_zero]
    refine Nat.le_trans (Nat.mul_le_mul_right N (?_ : N ≤ (N - 1) / 4 * 4 + 3)) (Nat.le_add_right _ _)
    omega

theorem tree4_errs (N : Nat) (A B : Array α) {f : List Bool} (hf : f.length = 3) {bi : Nat}
    (hbi : 0 < bi) : (tree N A B bi (pol4 f bi)).Errs (fun e => e = .oob) := by
  rw [tree4_eq]
  exact two_level_errs (dim := 3) rfl rfl rfl hf pos4 (zero_le3 N) rfl (steps_pos bi hbi)
    fun p => body_errs N A B bi p

end Verif.Semi
