import Verif.Model.Looped
import Verif.Proof.Points
/-
Helper lemmas about looped.hpp.
-/
set_option linter.unusedSectionVars false
namespace Verif.Looped
open IndexIterator
variable {ι α σ : Type} [Arith α]

theorem foldlM_flatMap {κ : Type} (l : List ι) (g : ι → List κ) (f : σ → κ → M σ) (s : σ) :
    (l.flatMap g).foldlM f s = l.foldlM (fun s i => (g i).foldlM f s) s := by
  induction l generalizing s with
  | nil => rfl
  | cons i l ih =>
    rw [List.flatMap_cons, List.foldlM_append, List.foldlM_cons]
    congr 1; funext s; exact ih s

/-- First corner of the `n`-th block. -/
def corner (N br bi n : Nat) : List Nat := iter [0, 0, 0] [N, N, N] [br, br, bi] n

/-- The indices visited inside the block at `cur`. -/
def inBlock (br bi : Nat) (cur : List Nat) : List (List Nat) :=
  (List.range (br * br * bi)).map fun m =>
    iter cur [cur.getD 0 0 + br, cur.getD 1 0 + br, cur.getD 2 0 + bi] [1, 1, 1] m

/-- All indices visited, in order. -/
def pts (N br bi : Nat) : List (List Nat) :=
  (List.range (N / br * (N / br) * (N / bi))).flatMap fun n => inBlock br bi (corner N br bi n)

theorem iter_length (mn mx st : List Nat) (n : Nat) : (iter mn mx st n).length = mn.length := by
  induction n with
  | zero => rfl
  | succ n ih =>
    rw [iter, increment]
    split
    · exact ih
    · rename_i d _
      have : ∀ (l : List Nat) (cur : List Nat), (l.foldl (fun cur i => cur.set i (mn.getD i 0)) cur).length
          = cur.length := by
        intro l
        induction l with
        | nil => intro cur; rfl
        | cons a l ih => intro cur; rw [List.foldl_cons, ih, List.length_set]
      rw [this, List.length_set, ih]

theorem count_three (a b c x y z p q r : Nat) :
    inner_index_count [a, b, c] [x, y, z] [p, q, r] =
      if p = 0 then .error .divZero else if q = 0 then .error .divZero
      else if r = 0 then .error .divZero
      else .ok (usub x a / p * (usub y b / q) * (usub z c / r)) := by
  unfold inner_index_count
  simp only [List.length_cons, List.length_nil, Nat.zero_add, Nat.reduceAdd]
  rw [show List.range 3 = [0, 1, 2] from rfl]
  by_cases hp : p = 0
  · simp [hp]
  · by_cases hq : q = 0
    · simp [hp, hq]
    · by_cases hr : r = 0
      · simp [hp, hq, hr]
      · simp [hp, hq, hr]

theorem mm_divZero {N : Nat} {A B : Array α} {br bi : Nat} (h : br = 0 ∨ bi = 0) :
    matrix_multiply N A B br bi = .error .divZero := by
  have : matrix_multiply N A B br bi =
      iterateRev (body N A B) [[br, br, bi], [1, 1, 1]] [0, 0, 0] [N, N, N] (zeros (N * N)) := rfl
  rw [this, iterateRev, if_neg (by simp), count_three]
  rcases h with rfl | rfl
  · simp
  · by_cases hb : br = 0
    · simp [hb]
    · simp [hb]

theorem mm_eq {N : Nat} {A B : Array α} {br bi : Nat} (hbr : 0 < br) (hbi : 0 < bi) :
    matrix_multiply N A B br bi =
      (pts N br bi).foldlM (fun C p => body N A B p C) (zeros (N * N)) := by
  have : matrix_multiply N A B br bi =
      iterateRev (body N A B) [[br, br, bi], [1, 1, 1]] [0, 0, 0] [N, N, N] (zeros (N * N)) := rfl
  rw [this, iterateRev, if_neg (by simp), count_three, if_neg (by omega), if_neg (by omega),
    if_neg (by omega), M_bind_ok, if_neg (by simp), pts, foldlM_flatMap]
  simp only [usub, Nat.zero_le, if_true, Nat.sub_zero]
  congr 1
  funext s n
  have h3 := iter_length [0, 0, 0] [N, N, N] [br, br, bi] n
  change (corner N br bi n).length = 3 at h3
  change iterateRev _ _ (corner N br bi n) ((List.range _).map fun d =>
    (corner N br bi n).getD d 0 + _) s = _
  generalize corner N br bi n = cur at h3
  match cur, h3 with
  | [x, y, k], _ =>
    rw [iterateRev]
    rw [show (List.range [0, 0, 0].length).map
      (fun d => [x, y, k].getD d 0 + [br, br, bi].getD d 0) = [x + br, y + br, k + bi] from rfl]
    rw [if_neg (by simp), count_three, if_neg (by decide), if_neg (by decide), if_neg (by decide),
      M_bind_ok, if_neg (by simp), inBlock, List.foldlM_map]
    simp only [usub, Nat.le_add_right, if_true, Nat.add_sub_cancel_left, Nat.div_one]
    rfl

theorem pos_three (x y k X Y K a b c : Nat) (p : List Nat) :
    (∃ n, n < total [(x, X, a), (y, Y, b), (k, K, c)] ∧
      pos [(x, X, a), (y, Y, b), (k, K, c)] n = p) ↔
    ∃ i j l, i < cnt (x, X, a) ∧ j < cnt (y, Y, b) ∧ l < cnt (k, K, c) ∧
      p = [x + i * a, y + j * b, k + l * c] := by
  rw [mem_pos]
  constructor
  · intro h
    cases h with
    | cons h1 h =>
      cases h with
      | cons h2 h =>
        cases h with
        | cons h3 h =>
          cases h
          obtain ⟨i, hi, rfl⟩ := h1
          obtain ⟨j, hj, rfl⟩ := h2
          obtain ⟨l, hl, rfl⟩ := h3
          exact ⟨i, j, l, hi, hj, hl, rfl⟩
  · rintro ⟨i, j, l, hi, hj, hl, rfl⟩
    exact .cons ⟨i, hi, rfl⟩ (.cons ⟨j, hj, rfl⟩ (.cons ⟨l, hl, rfl⟩ .nil))

theorem cnt_one (x b : Nat) (hb : 0 < b) : cnt (x, x + b, 1) = b := by
  simp only [cnt, ceilDiv, Nat.add_sub_cancel_left, Nat.div_one]
  omega

theorem cnt_div {N b : Nat} (hN : 0 < N) (hb : 0 < b) (hd : b ∣ N) : cnt (0, N, b) = N / b := by
  obtain ⟨q, rfl⟩ := hd
  rw [cnt_eq_ext hb hN, ext]
  simp only [Nat.sub_zero]
  rw [Nat.mul_comm b q, ceilDiv_mul _ _ hb, Nat.mul_div_cancel _ hb]

theorem total_three (d e f : Dim) : total [d, e, f] = cnt d * cnt e * cnt f := by
  simp [total, Nat.mul_assoc]

/-- The indices visited inside one block. -/
theorem inBlock_spec {br bi x y k : Nat} (hbr : 0 < br) (hbi : 0 < bi) :
    (inBlock br bi [x, y, k]).Pairwise SomeLt ∧ ∀ p, p ∈ inBlock br bi [x, y, k] ↔
      ∃ i j l, i < br ∧ j < br ∧ l < bi ∧ p = [x + i, y + j, k + l] := by
  have hin : inBlock br bi [x, y, k] = (List.range (total
      [(x, x + br, 1), (y, y + br, 1), (k, k + bi, 1)])).map
      (pos [(x, x + br, 1), (y, y + br, 1), (k, k + bi, 1)]) := by
    rw [total_three, cnt_one _ _ hbr, cnt_one _ _ hbr, cnt_one _ _ hbi]
    unfold inBlock
    refine List.map_congr_left fun m hm => ?_
    rw [List.mem_range] at hm
    refine (iter_eq [(x, x + br, 1), (y, y + br, 1), (k, k + bi, 1)] (by simp) m).trans ?_
    rw [total_three, cnt_one _ _ hbr, cnt_one _ _ hbr, cnt_one _ _ hbi,
      show min m (br * br * bi - 1) = m by omega]
  rw [hin]
  constructor
  · rw [List.pairwise_map]
    refine (List.Pairwise.and_mem.1 List.pairwise_lt_range).imp ?_
    rintro n m ⟨_, hm, hnm⟩
    obtain ⟨d, hd, hg, _⟩ := pos_gap _ n m hnm (List.mem_range.1 hm)
    refine ⟨d, Nat.lt_of_lt_of_le ?_ hg⟩
    match d, hd with
    | 0, _ => simp
    | 1, _ => simp
    | 2, _ => simp
  · intro p
    simp only [List.mem_map, List.mem_range]
    rw [pos_three, cnt_one _ _ hbr, cnt_one _ _ hbr, cnt_one _ _ hbi]
    simp only [Nat.mul_one]

/-- With dividing block sizes every index is visited once and in an order that never goes back
in all dimensions. -/
theorem pts_spec {N br bi : Nat} (hbr : 0 < br) (hbi : 0 < bi) (hdr : br ∣ N) (hdi : bi ∣ N) :
    (pts N br bi).Pairwise SomeLt ∧
      ∀ p, p ∈ pts N br bi ↔ OnGrid [0, 0, 0] [N, N, N] [1, 1, 1] p := by
  rcases Nat.eq_zero_or_pos N with rfl | hN
  · have : pts 0 br bi = [] := by simp [pts]
    rw [this]
    refine ⟨.nil, fun p => ?_⟩
    rw [onGrid_three]
    simp
  have hc : ∀ n, n < N / br * (N / br) * (N / bi) →
      corner N br bi n = pos [(0, N, br), (0, N, br), (0, N, bi)] n := by
    intro n hn
    refine (iter_eq [(0, N, br), (0, N, br), (0, N, bi)] (by simp; omega) n).trans ?_
    rw [total_three, cnt_div hN hbr hdr, cnt_div hN hbi hdi,
      show min n (N / br * (N / br) * (N / bi) - 1) = n by omega]
  have hlen : ∀ n, (corner N br bi n).length = 3 := fun n => iter_length _ _ _ n
  have hmem : ∀ p, p ∈ pts N br bi ↔ ∃ X Y Z, X < N / br ∧ Y < N / br ∧ Z < N / bi ∧
      ∃ i j l, i < br ∧ j < br ∧ l < bi ∧ p = [X * br + i, Y * br + j, Z * bi + l] := by
    intro p
    rw [pts, List.mem_flatMap]
    constructor
    · rintro ⟨n, hn, hp⟩
      rw [List.mem_range] at hn
      obtain ⟨X, Y, Z, hX, hY, hZ, he⟩ := (pos_three 0 0 0 N N N br br bi _).1 ⟨n, by
        rw [total_three, cnt_div hN hbr hdr, cnt_div hN hbi hdi]; exact hn, rfl⟩
      rw [cnt_div hN hbr hdr] at hX hY
      rw [cnt_div hN hbi hdi] at hZ
      rw [hc n hn, he] at hp
      simp only [Nat.zero_add] at hp
      exact ⟨X, Y, Z, hX, hY, hZ, ((inBlock_spec hbr hbi).2 p).1 hp⟩
    · rintro ⟨X, Y, Z, hX, hY, hZ, h⟩
      obtain ⟨n, hn, he⟩ := (pos_three 0 0 0 N N N br br bi [0 + X * br, 0 + Y * br, 0 + Z * bi]).2
        ⟨X, Y, Z, by rw [cnt_div hN hbr hdr]; exact hX, by rw [cnt_div hN hbr hdr]; exact hY,
          by rw [cnt_div hN hbi hdi]; exact hZ, rfl⟩
      rw [total_three, cnt_div hN hbr hdr, cnt_div hN hbi hdi] at hn
      refine ⟨n, List.mem_range.2 hn, ?_⟩
      rw [hc n hn, he]
      simp only [Nat.zero_add]
      exact ((inBlock_spec hbr hbi).2 p).2 h
  constructor
  · rw [pts, List.pairwise_flatMap]
    constructor
    · intro n _
      have := hlen n
      generalize corner N br bi n = c at this
      match c, this with
      | [x, y, k], _ => exact (inBlock_spec hbr hbi).1
    · refine (List.Pairwise.and_mem.1 List.pairwise_lt_range).imp ?_
      rintro n m ⟨hn, hm, hnm⟩ p hp q hq
      rw [List.mem_range] at hn hm
      obtain ⟨d, hd, hg, _⟩ := pos_gap [(0, N, br), (0, N, br), (0, N, bi)] n m hnm (by
        rw [total_three, cnt_div hN hbr hdr, cnt_div hN hbi hdi]; exact hm)
      rw [← hc n hn, ← hc m hm] at hg
      have h1 := hlen n
      have h2 := hlen m
      generalize corner N br bi n = c at h1 hp hg
      generalize corner N br bi m = c' at h2 hq hg
      match c, h1, c', h2 with
      | [x, y, k], _, [x', y', k'], _ =>
        obtain ⟨i, j, l, hi, hj, hl, rfl⟩ := ((inBlock_spec hbr hbi).2 p).1 hp
        obtain ⟨i', j', l', hi', hj', hl', rfl⟩ := ((inBlock_spec hbr hbi).2 q).1 hq
        refine ⟨d, ?_⟩
        match d, hd with
        | 0, _ => simp at hg ⊢; omega
        | 1, _ => simp at hg ⊢; omega
        | 2, _ => simp at hg ⊢; omega
  · intro p
    rw [hmem, onGrid_three]
    constructor
    · rintro ⟨X, Y, Z, hX, hY, hZ, i, j, l, hi, hj, hl, rfl⟩
      have e1 : N / br * br = N := Nat.div_mul_cancel hdr
      have e2 : N / bi * bi = N := Nat.div_mul_cancel hdi
      have a1 := idx_lt hX hi
      have a2 := idx_lt hY hj
      have a3 := idx_lt hZ hl
      rw [e1] at a1 a2
      rw [e2] at a3
      simp only [Nat.mul_one, List.getD_cons_zero, List.getD_cons_succ, exists_eq_left', List.length_cons,
        List.length_nil, true_and]
      exact ⟨a1, a2, a3⟩
    · rintro ⟨h3, ⟨_, _, h0⟩, ⟨_, _, h1⟩, ⟨_, _, h2⟩⟩
      refine ⟨p.getD 0 0 / br, p.getD 1 0 / br, p.getD 2 0 / bi, Nat.div_lt_div_of_lt_of_dvd hdr h0,
        Nat.div_lt_div_of_lt_of_dvd hdr h1, Nat.div_lt_div_of_lt_of_dvd hdi h2, p.getD 0 0 % br,
        p.getD 1 0 % br, p.getD 2 0 % bi, Nat.mod_lt _ hbr, Nat.mod_lt _ hbr, Nat.mod_lt _ hbi, ?_⟩
      rw [Nat.div_add_mod', Nat.div_add_mod', Nat.div_add_mod']
      exact getD_three h3

theorem body_does {N : Nat} {A B : Array α} {a b : Nat → Nat → α} (hA : Holds A N N a)
    (hB : Holds B N N b) {x y k : Nat} (hx : x < N) (hy : y < N) (hk : k < N) :
    MDoes (fun C => body N A B [x, y, k] C) [(x * N + y, fun c => Arith.mac c (a x k) (b y k))] := by
  intro C hC
  have hp : x * N + y < C.size := hC _ (List.mem_singleton.2 rfl)
  show body N A B [x, y, k] C = _
  simp only [body, List.getD_cons_zero, List.getD_cons_succ]
  rw [hA.rd hx hk, M_bind_ok, hB.rd hy hk, M_bind_ok, rd_ok (Array.getElem?_eq_getElem hp),
    M_bind_ok, wr, if_pos hp]
  simp only [applyA, List.foldl_cons, List.foldl_nil]
  refine congrArg Except.ok ?_
  apply Array.ext_getElem?
  intro i
  rw [Array.getElem?_modify]
  by_cases hi : x * N + y = i
  · subst hi; simp [hp]
  · simp [hi]

theorem mm_result {N : Nat} {A B : Array α} {a b : Nat → Nat → α} (hA : Holds A N N a)
    (hB : Holds B N N b) {br bi : Nat} (hbr : 0 < br) (hbi : 0 < bi) (hdr : br ∣ N) (hdi : bi ∣ N) :
    matrix_multiply N A B br bi = .ok (rect N N fun i j => dot N (a i) (fun k => b j k)) := by
  obtain ⟨hp, hm⟩ := pts_spec hbr hbi hdr hdi
  have hpt : ∀ p ∈ pts N br bi, p = [p.getD 0 0, p.getD 1 0, p.getD 2 0] ∧ p.getD 0 0 < N ∧
      p.getD 1 0 < N ∧ p.getD 2 0 < N := by
    intro p hp
    obtain ⟨h3, ⟨_, _, h0⟩, ⟨_, _, h1⟩, ⟨_, _, h2⟩⟩ := onGrid_three.1 ((hm p).1 hp)
    exact ⟨getD_three h3, h0, h1, h2⟩
  have hdoes := MDoes.foldlM (l := pts N br bi) (f := fun C p => body N A B p C)
    (us := fun p => [(p.getD 0 0 * N + p.getD 1 0,
      fun c => Arith.mac c (a (p.getD 0 0) (p.getD 2 0)) (b (p.getD 1 0) (p.getD 2 0)))])
    (fun p hp => by
      obtain ⟨h3, h0, h1, h2⟩ := hpt p hp
      have := body_does hA hB h0 h1 h2
      rw [← h3] at this
      exact this)
  rw [mm_eq hbr hbi]
  refine (hdoes (zeros (N * N)) ?_).trans ?_
  · intro u hu
    obtain ⟨p, hp, hu⟩ := List.mem_flatMap.1 hu
    obtain ⟨h3, h0, h1, h2⟩ := hpt p hp
    rw [List.mem_singleton.1 hu, zeros_size]
    exact idx_lt h0 h1
  · congr 1
    refine applyA_rect (zeros_size _) (zeros_holds N N) fun i hi j hj => ?_
    rw [cellFold_filter (fun p => decide (p.getD 0 0 = i ∧ p.getD 1 0 = j)) fun p hp hq u hu => ?_]
    · rw [filter_k hp hm (by decide) ⟨i, by omega, hi⟩ ⟨j, by omega, hj⟩, steps_one,
        cellFold_flatMap, List.foldl_map]
      simp only [List.getD_cons_zero, List.getD_cons_succ, cellFold_cons, cellFold_nil, if_true]
      rfl
    · obtain ⟨h3, h0, h1, h2⟩ := hpt p hp
      rw [List.mem_singleton.1 hu]
      intro he
      obtain ⟨e1, e2⟩ := idx_inj h1 hj he
      exact of_decide_eq_false hq ⟨e1, e2⟩

/-! ### Non-dividing block sizes -/

theorem sum_set_succ (l : List Nat) (i : Nat) (h : i < l.length) :
    (l.set i (l[i] + 1)).sum = l.sum + 1 := by
  induction l generalizing i with
  | nil => simp at h
  | cons a l ih =>
    cases i with
    | zero => simp; omega
    | succ i =>
      simp only [List.set_cons_succ, List.sum_cons, List.getElem_cons_succ]
      rw [ih i (by simpa using h)]; omega

theorem pts_length (N br bi : Nat) :
    (pts N br bi).length = N / br * (N / br) * (N / bi) * (br * br * bi) := by
  unfold pts
  rw [List.length_flatMap]
  simp only [inBlock, List.length_map, List.length_range]
  rw [List.map_const', List.length_range, List.sum_replicate_nat]

end Verif.Looped
