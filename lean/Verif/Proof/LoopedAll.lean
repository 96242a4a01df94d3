import Verif.Proof.Looped
/-
Helper lemmas about looped.hpp for block sizes that do not divide the matrix size.
-/
set_option linter.unusedSectionVars false
namespace Verif.Looped
open IndexIterator
variable {ι α σ : Type} [Arith α]

theorem cnt_mul {Q b : Nat} (hQ : 0 < Q) (hb : 0 < b) : cnt (0, Q * b, b) = Q := by
  rw [cnt_div (Nat.mul_pos hQ hb) hb ⟨Q, Nat.mul_comm _ _⟩, Nat.mul_div_cancel _ hb]

/-- `Q × Q × P` blocks visited in the order of the iterator fill a box. -/
theorem blocks_spec {Q P br bi : Nat} (hQ : 0 < Q) (hP : 0 < P) (hbr : 0 < br) (hbi : 0 < bi) :
    ((List.range (Q * Q * P)).flatMap fun n =>
      inBlock br bi (pos [(0, Q * br, br), (0, Q * br, br), (0, P * bi, bi)] n)).Pairwise SomeLt ∧
    ∀ p, p ∈ ((List.range (Q * Q * P)).flatMap fun n =>
      inBlock br bi (pos [(0, Q * br, br), (0, Q * br, br), (0, P * bi, bi)] n)) ↔
      OnGrid [0, 0, 0] [Q * br, Q * br, P * bi] [1, 1, 1] p := by
  have ht : total [(0, Q * br, br), (0, Q * br, br), (0, P * bi, bi)] = Q * Q * P := by
    rw [total_three, cnt_mul hQ hbr, cnt_mul hP hbi]
  have hlen : ∀ n, (pos [(0, Q * br, br), (0, Q * br, br), (0, P * bi, bi)] n).length = 3 :=
    fun n => pos_length _ n
  constructor
  · rw [List.pairwise_flatMap]
    constructor
    · intro n _
      have := hlen n
      generalize pos [(0, Q * br, br), (0, Q * br, br), (0, P * bi, bi)] n = c at this
      match c, this with
      | [x, y, k], _ => exact (inBlock_spec hbr hbi).1
    · refine (List.Pairwise.and_mem.1 List.pairwise_lt_range).imp ?_
      rintro n m ⟨hn, hm, hnm⟩ p hp q hq
      rw [List.mem_range] at hn hm
      obtain ⟨d, hd, hg, _⟩ := pos_gap [(0, Q * br, br), (0, Q * br, br), (0, P * bi, bi)] n m hnm
        (by rw [ht]; exact hm)
      have h1 := hlen n
      have h2 := hlen m
      generalize pos [(0, Q * br, br), (0, Q * br, br), (0, P * bi, bi)] n = c at h1 hp hg
      generalize pos [(0, Q * br, br), (0, Q * br, br), (0, P * bi, bi)] m = c' at h2 hq hg
      match c, h1, c', h2 with
      | [x, y, k], _, [x', y', k'], _ =>
        obtain ⟨i, j, l, hi, hj, hl, rfl⟩ := ((inBlock_spec hbr hbi).2 p).1 hp
        obtain ⟨i', j', l', hi', hj', hl', rfl⟩ := ((inBlock_spec hbr hbi).2 q).1 hq
        refine ⟨d, ?_⟩
        match d, hd with
        | 0, _ => simp at hg ⊢; omega
        | 1, _ => simp at hg ⊢; omega
        | 2, _ => simp at hg ⊢; omega
  · intro p
    have h3 := pos_three 0 0 0 (Q * br) (Q * br) (P * bi) br br bi
    rw [cnt_mul hQ hbr, cnt_mul hP hbi] at h3
    rw [ht] at h3
    rw [List.mem_flatMap, onGrid_three]
    constructor
    · rintro ⟨n, hn, hp⟩
      obtain ⟨X, Y, Z, hX, hY, hZ, he⟩ := (h3 _).1 ⟨n, List.mem_range.1 hn, rfl⟩
      rw [he] at hp
      obtain ⟨i, j, l, hi, hj, hl, rfl⟩ := ((inBlock_spec hbr hbi).2 p).1 hp
      have a1 := idx_lt hX hi
      have a2 := idx_lt hY hj
      have a3 := idx_lt hZ hl
      simp only [Nat.zero_add, Nat.mul_one, List.getD_cons_zero, List.getD_cons_succ,
        exists_eq_left', List.length_cons, List.length_nil, true_and]
      exact ⟨a1, a2, a3⟩
    · rintro ⟨hl, ⟨_, _, h0⟩, ⟨_, _, h1⟩, ⟨_, _, h2⟩⟩
      have d0 : p.getD 0 0 / br < Q := (Nat.div_lt_iff_lt_mul hbr).2 h0
      have d1 : p.getD 1 0 / br < Q := (Nat.div_lt_iff_lt_mul hbr).2 h1
      have d2 : p.getD 2 0 / bi < P := (Nat.div_lt_iff_lt_mul hbi).2 h2
      obtain ⟨n, hn, he⟩ := (h3 _).2 ⟨_, _, _, d0, d1, d2, rfl⟩
      refine ⟨n, List.mem_range.2 hn, ?_⟩
      rw [he]
      refine ((inBlock_spec hbr hbi).2 p).2 ⟨p.getD 0 0 % br, p.getD 1 0 % br, p.getD 2 0 % bi,
        Nat.mod_lt _ hbr, Nat.mod_lt _ hbr, Nat.mod_lt _ hbi, ?_⟩
      rw [Nat.zero_add, Nat.zero_add, Nat.zero_add, Nat.div_add_mod', Nat.div_add_mod',
        Nat.div_add_mod']
      exact getD_three hl

/-- The result if the visited indices fill a box inside the matrices. -/
theorem box_result {N X K : Nat} {A B : Array α} {a b : Nat → Nat → α} (hA : Holds A N N a)
    (hB : Holds B N N b) (hX : X ≤ N) (hK : K ≤ N) {l : List (List Nat)} (hp : l.Pairwise SomeLt)
    (hm : ∀ p, p ∈ l ↔ OnGrid [0, 0, 0] [X, X, K] [1, 1, 1] p) :
    l.foldlM (fun C p => body N A B p C) (zeros (N * N)) =
      .ok (rect N N fun i j => if i < X ∧ j < X then dot K (a i) (b j) else Arith.zero) := by
  have hpt : ∀ p ∈ l, p = [p.getD 0 0, p.getD 1 0, p.getD 2 0] ∧ p.getD 0 0 < X ∧
      p.getD 1 0 < X ∧ p.getD 2 0 < K := by
    intro p hp
    obtain ⟨h3, ⟨_, _, h0⟩, ⟨_, _, h1⟩, ⟨_, _, h2⟩⟩ := onGrid_three.1 ((hm p).1 hp)
    exact ⟨getD_three h3, h0, h1, h2⟩
  have hdoes := MDoes.foldlM (l := l) (f := fun C p => body N A B p C)
    (us := fun p => [(p.getD 0 0 * N + p.getD 1 0,
      fun c => Arith.mac c (a (p.getD 0 0) (p.getD 2 0)) (b (p.getD 1 0) (p.getD 2 0)))])
    (fun p hp => by
      obtain ⟨h3, h0, h1, h2⟩ := hpt p hp
      have := body_does hA hB (Nat.lt_of_lt_of_le h0 hX) (Nat.lt_of_lt_of_le h1 hX)
        (Nat.lt_of_lt_of_le h2 hK)
      rw [← h3] at this
      exact this)
  refine (hdoes (zeros (N * N)) ?_).trans ?_
  · intro u hu
    obtain ⟨p, hp, hu⟩ := List.mem_flatMap.1 hu
    obtain ⟨h3, h0, h1, h2⟩ := hpt p hp
    rw [List.mem_singleton.1 hu, zeros_size]
    exact idx_lt (Nat.lt_of_lt_of_le h0 hX) (Nat.lt_of_lt_of_le h1 hX)
  · congr 1
    refine applyA_rect (zeros_size _) (zeros_holds N N) fun i hi j hj => ?_
    have hne : ∀ p ∈ l, ¬ (p.getD 0 0 = i ∧ p.getD 1 0 = j) →
        p.getD 0 0 * N + p.getD 1 0 ≠ i * N + j := by
      intro p hp hq he
      obtain ⟨h3, h0, h1, h2⟩ := hpt p hp
      exact hq (idx_inj (Nat.lt_of_lt_of_le h1 hX) hj he)
    by_cases hin : i < X ∧ j < X
    · rw [if_pos hin, cellFold_filter (fun p => decide (p.getD 0 0 = i ∧ p.getD 1 0 = j))
        fun p hp hq u hu => ?_]
      · rw [filter_k hp hm (by decide) ⟨i, by omega, hin.1⟩ ⟨j, by omega, hin.2⟩, steps_one,
          cellFold_flatMap, List.foldl_map]
        simp only [List.getD_cons_zero, List.getD_cons_succ, cellFold_cons, cellFold_nil, if_true]
        rfl
      · rw [List.mem_singleton.1 hu]
        exact hne p hp (of_decide_eq_false hq)
    · rw [if_neg hin]
      refine cellFold_none fun u hu => ?_
      obtain ⟨p, hp, hu⟩ := List.mem_flatMap.1 hu
      obtain ⟨h3, h0, h1, h2⟩ := hpt p hp
      rw [List.mem_singleton.1 hu]
      exact hne p hp fun h => hin ⟨h.1 ▸ h0, h.2 ▸ h1⟩

/-- The corners visited are the first ones of the whole grid. -/
theorem corner_eq {N br bi n : Nat} (hbr : 0 < br) (hbi : 0 < bi)
    (hn : n < N / br * (N / br) * (N / bi)) :
    corner N br bi n = pos [(0, N, br), (0, N, br), (0, N, bi)] n := by
  refine (iter_eq [(0, N, br), (0, N, br), (0, N, bi)] (by simp; omega) n).trans ?_
  have hle : ∀ b, 0 < b → N / b ≤ cnt (0, N, b) := by
    intro b hb
    simp only [cnt, Nat.sub_zero]
    refine Nat.le_trans ?_ (Nat.le_max_right _ _)
    unfold ceilDiv
    exact Nat.div_le_div_right (by omega)
  have := Nat.mul_le_mul (Nat.mul_le_mul (hle br hbr) (hle br hbr)) (hle bi hbi)
  rw [total_three]
  rw [show min n (cnt (0, N, br) * cnt (0, N, br) * cnt (0, N, bi) - 1) = n by omega]

/-- `block_result` divides `N`: only whole input blocks contribute. -/
theorem mm_dvd {N : Nat} {A B : Array α} {a b : Nat → Nat → α} (hA : Holds A N N a)
    (hB : Holds B N N b) {br bi : Nat} (hbr : 0 < br) (hbi : 0 < bi) (hd : br ∣ N) :
    matrix_multiply N A B br bi = .ok (rect N N fun i j => dot (N / bi * bi) (a i) (b j)) := by
  rw [mm_eq hbr hbi]
  rcases Nat.eq_zero_or_pos (N / bi) with h0 | hP
  · rw [pts, h0]
    show Except.ok (zeros (N * N)) = _
    rw [Nat.zero_mul]
    rw [eq_rect (zeros_size _) (zeros_holds N N)]
    rfl
  have hN : 0 < N := Nat.pos_of_ne_zero fun h => by rw [h, Nat.zero_div] at hP; omega
  have hQ : 0 < N / br := Nat.div_pos (Nat.le_of_dvd hN hd) hbr
  have eN : N / br * br = N := Nat.div_mul_cancel hd
  obtain ⟨hp, hm⟩ := blocks_spec hQ hP hbr hbi
  have hpts : pts N br bi = (List.range (N / br * (N / br) * (N / bi))).flatMap fun n =>
      inBlock br bi (pos [(0, N / br * br, br), (0, N / br * br, br), (0, N / bi * bi, bi)] n) := by
    unfold pts
    refine List.flatMap_congr fun n hn => ?_
    rw [List.mem_range] at hn
    rw [corner_eq hbr hbi hn]
    simp only [pos]
    rw [eN, cnt_mul hP hbi, cnt_div hN hbr hd]
    have hlt : n / (N / br) / (N / br) < N / bi := by
      rw [Nat.div_div_eq_div_mul]
      exact (Nat.div_lt_iff_lt_mul (Nat.mul_pos hQ hQ)).2 (by rw [Nat.mul_comm]; exact hn)
    have hle : N / bi ≤ cnt (0, N, bi) := by
      simp only [cnt, Nat.sub_zero]
      refine Nat.le_trans ?_ (Nat.le_max_right _ _)
      unfold ceilDiv
      exact Nat.div_le_div_right (by omega)
    rw [Nat.mod_eq_of_lt hlt, Nat.mod_eq_of_lt (Nat.lt_of_lt_of_le hlt hle)]
  rw [hpts, box_result hA hB (by rw [eN]) (Nat.div_mul_le_self N bi) hp hm]
  refine congrArg _ (rect_congr fun i hi j hj => ?_)
  rw [if_pos (by rw [eN]; exact ⟨hi, hj⟩)]

/-- One block. -/
theorem mm_one {N : Nat} {A B : Array α} {a b : Nat → Nat → α} (hA : Holds A N N a)
    (hB : Holds B N N b) {br bi : Nat} (hbr : 0 < br) (hbi : 0 < bi) (h1 : N / br = 1)
    (h2 : N / bi = 1) :
    matrix_multiply N A B br bi =
      .ok (rect N N fun i j => if i < br ∧ j < br then dot bi (a i) (b j) else Arith.zero) := by
  rw [mm_eq hbr hbi]
  obtain ⟨hp, hm⟩ := blocks_spec (Q := 1) (P := 1) (by decide) (by decide) hbr hbi
  have l1 : br ≤ N := by
    have := Nat.div_mul_le_self N br
    rw [h1] at this; omega
  have l2 : bi ≤ N := by
    have := Nat.div_mul_le_self N bi
    rw [h2] at this; omega
  rw [Nat.one_mul, Nat.one_mul] at hm
  rw [Nat.one_mul, Nat.one_mul] at hp
  have hpts : pts N br bi = (List.range (1 * 1 * 1)).flatMap fun n =>
      inBlock br bi (pos [(0, br, br), (0, br, br), (0, bi, bi)] n) := by
    unfold pts
    rw [h1, h2]
    refine List.flatMap_congr fun n hn => ?_
    have : n = 0 := by simpa using hn
    subst this
    rw [pos_zero]
    rfl
  rw [hpts]
  exact box_result hA hB l1 l2 hp hm

theorem body_err {N : Nat} {A B C : Array α} {p : List Nat} {e : Err}
    (h : body N A B p C = .error e) : e = .oob := by
  have herr : ∀ {v : Array α} {i e}, rd v i = .error e → e = .oob := by
    intro v i e he
    unfold rd at he
    split at he
    · cases he
    · injection he with he; exact he.symm
  unfold body at h
  dsimp only at h
  cases h1 : rd A (p.getD 0 0 * N + p.getD 2 0) with
  | error e' =>
    rw [h1] at h
    cases h; exact herr h1
  | ok x =>
    cases h2 : rd B (p.getD 1 0 * N + p.getD 2 0) with
    | error e' =>
      rw [h1, M_bind_ok, h2] at h
      cases h; exact herr h2
    | ok y =>
      cases h3 : rd C (p.getD 0 0 * N + p.getD 1 0) with
      | error e' =>
        rw [h1, M_bind_ok, h2, M_bind_ok, h3] at h
        cases h; exact herr h3
      | ok z =>
        rw [h1, M_bind_ok, h2, M_bind_ok, h3, M_bind_ok] at h
        unfold wr at h
        split at h
        · cases h
        · cases h; rfl

theorem foldlM_oob {N : Nat} {A B : Array α} {l : List (List Nat)}
    (h : ∃ p ∈ l, ∀ C, ∃ e, body N A B p C = .error e) : ∀ C,
    l.foldlM (fun C p => body N A B p C) C = .error .oob := by
  induction l with
  | nil => obtain ⟨_, h, _⟩ := h; cases h
  | cons q l ih =>
    intro C
    rw [List.foldlM_cons]
    cases hq : body N A B q C with
    | error e => rw [body_err hq]; rfl
    | ok C' =>
      rw [M_bind_ok]
      refine ih ?_ C'
      obtain ⟨p, hp, h⟩ := h
      rcases List.mem_cons.1 hp with rfl | hp
      · obtain ⟨e, he⟩ := h C
        rw [he] at hq; cases hq
      · exact ⟨p, hp, h⟩

/-- `block_result` does not divide `N` and there is more than one block: an index below the last
row is visited. -/
theorem mm_oob {N : Nat} {A B : Array α} (hA : A.size = N * N) {br bi : Nat} (hbr : 0 < br)
    (hbi : 0 < bi) (hd : ¬ br ∣ N) (h : 2 ≤ N / br * (N / bi)) :
    matrix_multiply N A B br bi = .error .oob := by
  rw [mm_eq hbr hbi]
  refine foldlM_oob ?_ _
  generalize hq : N / br = q at h
  generalize hp : N / bi = p at h
  have q0 : 0 < q := Nat.pos_of_ne_zero fun h0 => by rw [h0, Nat.zero_mul] at h; omega
  have hm : q < q * q * p := by
    have : q * 2 ≤ q * (q * p) := Nat.mul_le_mul_left q h
    rw [Nat.mul_assoc]; omega
  have hmod : 0 < N % br := Nat.pos_of_ne_zero fun h0 => hd (Nat.dvd_of_mod_eq_zero h0)
  have hdm := Nat.div_add_mod N br
  have hlt := Nat.mod_lt N hbr
  rw [hq, Nat.mul_comm] at hdm
  have hcnt : cnt (0, N, br) = q + 1 := by
    have : ceilDiv N br = q + 1 := by
      unfold ceilDiv
      rw [show N + br - 1 = (N % br - 1) + (q + 1) * br by rw [Nat.add_mul]; omega,
        Nat.add_mul_div_right _ _ hbr, Nat.div_eq_of_lt (by omega)]
      omega
    simp only [cnt, Nat.sub_zero, this]
    omega
  have hc : corner N br bi q = [q * br, 0, 0] := by
    rw [corner_eq hbr hbi (by rw [hq, hp]; exact hm)]
    simp only [pos]
    rw [hcnt, Nat.mod_eq_of_lt (Nat.lt_succ_self q), Nat.div_eq_of_lt (Nat.lt_succ_self q)]
    simp
  refine ⟨[q * br + N % br, 0, 0], ?_, fun C => ?_⟩
  · rw [pts, List.mem_flatMap]
    refine ⟨q, List.mem_range.2 (by rw [hq, hp]; exact hm), ?_⟩
    rw [hc]
    exact ((inBlock_spec hbr hbi).2 _).2 ⟨N % br, 0, 0, hlt, hbr, hbi, rfl⟩
  · rw [hdm]
    refine ⟨.oob, ?_⟩
    unfold body
    simp only [List.getD_cons_zero, List.getD_cons_succ]
    rw [rd_oob (by omega)]
    rfl

end Verif.Looped
