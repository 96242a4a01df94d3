import Verif.SpecLifetime
import Verif.Proof.Components
import Verif.Proof.Async
import Verif.Props.Schedule
import Mathlib.Tactic.Ring
/-
C136: how many elements the vectors of the recursion hold at the same time.
-/
namespace Verif.Props
open Verif.Lifetime Verif.StaticImproved
open scoped BigOperators

variable {br n m : Nat} {o : Bool} {s t : Call}

/-! ### The amounts -/

private theorem div_succ (n k : Nat) : n / 2 ^ (k + 1) = n / 2 / 2 ^ k := by
  rw [Nat.pow_succ, Nat.mul_comm, Nat.div_div_eq_div_mul]

private theorem together_le (h : n ≤ br) : together br n = n ^ 2 := by
  unfold together
  rw [Components.halvings_le h]
  simp

private theorem together_gt (h : br < n) : together br n = n ^ 2 + 4 * together br (n / 2) := by
  unfold together
  rw [Components.halvings_gt h, Finset.sum_range_succ']
  have h4 : ∀ m k : Nat, 4 ^ k * 4 * m = 4 * (4 ^ k * m) := fun m k => by ring
  simp only [div_succ, Nat.pow_zero, Nat.div_one, Nat.one_mul, Nat.pow_succ 4, Finset.mul_sum, h4]
  omega

private theorem nested_le (h : n ≤ br) : nested br n = n ^ 2 := by
  unfold nested
  rw [Components.halvings_le h]
  simp

private theorem nested_gt (h : br < n) : nested br n = n ^ 2 + nested br (n / 2) := by
  unfold nested
  rw [Components.halvings_gt h, Finset.sum_range_succ']
  simp only [div_succ, Nat.pow_zero, Nat.div_one]
  omega

private theorem halvings_mono (br : Nat) : ∀ n m : Nat, n ≤ m → halvings br n ≤ halvings br m := by
  intro n
  induction n using Nat.strongRecOn with
  | ind n ih =>
    intro m hm
    rcases Nat.lt_or_ge br n with h | h
    · rw [Components.halvings_gt h, Components.halvings_gt (Nat.lt_of_lt_of_le h hm)]
      exact Nat.succ_le_succ (ih _ (by omega) _ (Nat.div_le_div_right hm))
    · rw [Components.halvings_le h]; exact Nat.zero_le _

private theorem level_le (n k : Nat) : 4 ^ k * (n / 2 ^ k) ^ 2 ≤ n ^ 2 := by
  rw [show 4 = 2 ^ 2 from rfl, ← Nat.pow_mul, Nat.mul_comm 2 k, Nat.pow_mul, ← Nat.mul_pow]
  exact Nat.pow_le_pow_left (Nat.mul_div_le n _) 2

private theorem together_bound (br n : Nat) : together br n ≤ (halvings br n + 1) * n ^ 2 := by
  have := Finset.sum_le_sum fun k (_ : k ∈ Finset.range (halvings br n + 1)) => level_le n k
  rwa [Finset.sum_const, Finset.card_range, smul_eq_mul] at this

private theorem halvings_eq {d q : Nat} (hq : q ≤ br) (hd : ∀ c, c < d → br < 2 ^ (c + 1) * q) :
    halvings br (2 ^ d * q) = d := by
  induction d with
  | zero => rw [Nat.pow_zero, Nat.one_mul, Components.halvings_le hq]
  | succ d ih =>
    rw [Components.halvings_gt (hd d (by omega)), Nat.pow_succ, Nat.mul_assoc, Nat.mul_comm 2 q, ← Nat.mul_assoc,
      Nat.mul_div_cancel _ (by decide), ih fun c hc => hd c (by omega)]

/-- **C136.** The two amounts: all levels together take at most the size of the result per level, and exactly that
if the size is halved without remainder; one block per level takes less than a third more than the result. -/
theorem C136_amounts (br n : Nat) :
    together br n ≤ (halvings br n + 1) * n ^ 2 ∧
    (∀ d q, n = 2 ^ d * q → q ≤ br → (∀ c, c < d → br < 2 ^ (c + 1) * q) → together br n = (d + 1) * n ^ 2) ∧
    n ^ 2 ≤ nested br n ∧ 3 * nested br n ≤ 4 * n ^ 2 := by
  refine ⟨together_bound br n, fun d q hn hq hd => ?_, ?_⟩
  · have hh : halvings br n = d := hn ▸ halvings_eq hq hd
    have h1 : ∀ k ∈ Finset.range (d + 1), 4 ^ k * (n / 2 ^ k) ^ 2 = n ^ 2 := fun k hk => by
      have hk' : 2 ^ k ∣ n := hn ▸ Dvd.dvd.mul_right (Nat.pow_dvd_pow 2 (by have := Finset.mem_range.1 hk; omega)) q
      rw [show 4 = 2 ^ 2 from rfl, ← Nat.pow_mul, Nat.mul_comm 2 k, Nat.pow_mul, ← Nat.mul_pow,
        Nat.mul_div_cancel' hk']
    unfold together
    rw [hh, Finset.sum_congr rfl h1, Finset.sum_const, Finset.card_range, smul_eq_mul]
  · induction n using Nat.strongRecOn with
    | ind n ih =>
      rcases Nat.lt_or_ge br n with h | h
      · rw [nested_gt h]
        have h1 := (ih (n / 2) (by omega)).2
        have h2 := level_le n 1
        rw [Nat.pow_one, Nat.pow_one] at h2
        omega
      · rw [nested_le h]; omega

/-- **C136.** The memory that Model/Async.lean sets aside for a call is exactly the largest amount. -/
theorem C136_cells (br n : Nat) : Async.cells br n = together br n := by
  induction n using Nat.strongRecOn with
  | ind n ih =>
    rcases Nat.lt_or_ge br n with h | h
    · rw [Async.cells_step h, together_gt h, ih _ (by omega), Nat.pow_two]
    · rw [Async.cells_leaf h, together_le h, Nat.pow_two]

/-! ### States that occur -/

private inductive Ok (br : Nat) : Nat → Call → Prop
  | waiting (n : Nat) : Ok br n (.waiting n)
  | leaf {n : Nat} : n ≤ br → Ok br n (.leaf n)
  | node {n : Nat} {c : Fin 4 → Call} : br < n → (∀ i, c i ≠ .gone → Ok br (n / 2) (c i)) → Ok br n (.node n c)
  | done (n : Nat) : Ok br n (.done n)

private theorem not_gone (h : Step br o s t) : s ≠ .gone ∧ t ≠ .gone := by
  cases h <;> exact ⟨nofun, nofun⟩

private theorem Ok.step (h : Step br o s t) : ∀ {n}, Ok br n s → Ok br n t := by
  induction h with
  | leaf h => intro n hs; cases hs; exact .leaf h
  | compute => intro n hs; cases hs; exact .done _
  | node h => intro n hs; cases hs; exact .node h fun _ _ => .waiting _
  | inside i _ hst ih =>
    intro n hs
    cases hs with
    | node hb hc =>
      refine .node hb fun j hj => ?_
      rcases eq_or_ne j i with rfl | hji
      · rw [Function.update_self]; exact ih (hc _ (not_gone hst).1)
      · rw [Function.update_of_ne hji] at hj ⊢; exact hc _ hj
  | merge i hi =>
    intro n hs
    cases hs with
    | node hb hc =>
      refine .node hb fun j hj => ?_
      rcases eq_or_ne j i with rfl | hji
      · rw [Function.update_self] at hj; exact absurd rfl hj
      · rw [Function.update_of_ne hji] at hj ⊢; exact hc _ hj
  | ret _ => intro n hs; cases hs; exact .done _

private theorem Ok.reach (h : Reach br o s t) (hs : Ok br n s) : Ok br n t := by
  induction h with
  | refl => exact hs
  | tail _ h ih => exact ih.step h

private theorem Ok.held_le (h : Ok br n s) : held s ≤ together br n := by
  induction h with
  | waiting n => exact Nat.zero_le _
  | leaf h => rw [together_le h]; exact Nat.le_refl _
  | @node n c hb hc ih =>
    rw [together_gt hb]
    have : ∑ i, held (c i) ≤ ∑ _i : Fin 4, together br (n / 2) := Finset.sum_le_sum fun i _ => by
      by_cases hg : c i = .gone
      · rw [hg]; exact Nat.zero_le _
      · exact ih i hg
    rw [Finset.sum_const, Finset.card_univ, Fintype.card_fin, smul_eq_mul] at this
    show n ^ 2 + ∑ i, held (c i) ≤ _
    omega
  | done n =>
    rcases Nat.lt_or_ge br n with h | h
    · rw [together_gt h]; exact Nat.le_add_right _ _
    · rw [together_le h]; exact Nat.le_refl _

/-- **C136.** Whatever the schedule: never more than all blocks of all levels. -/
theorem C136_most (br n : Nat) (s : Call) (h : Reach br false (.waiting n) s) : held s ≤ together br n :=
  (Ok.reach h (.waiting n)).held_le

/-! ### All blocks of all levels -/

private def full (br n : Nat) : Call := if n ≤ br then .done n else .node n fun _ => full br (n / 2)
termination_by n

private theorem full_le (h : n ≤ br) : full br n = .done n := by rw [full, if_pos h]

private theorem full_gt (h : br < n) : full br n = .node n fun _ => full br (n / 2) := by
  rw [full, if_neg (by omega)]

private theorem reach_inside {c : Fin 4 → Call} {d : Call} (i : Fin 4) (h : Reach br false (c i) d) :
    Reach br false (.node n c) (.node n (Function.update c i d)) := by
  induction h with
  | refl => rw [Function.update_eq_self]; exact .refl
  | @tail d e _ hst ih =>
    refine ih.tail ?_
    have := Step.inside (br := br) (ordered := false) (n := n) (c := Function.update c i d) (c' := e) i
      (fun h => nomatch h) (by rw [Function.update_self]; exact hst)
    rwa [Function.update_idem] at this

private theorem reach_all {c : Fin 4 → Call} {d : Call} (h : ∀ i, Reach br false (c i) d) :
    Reach br false (.node n c) (.node n fun _ => d) := by
  have h0 := reach_inside (n := n) 0 (h 0)
  have h1 := reach_inside (n := n) (c := Function.update c 0 d) (d := d) 1 (h 1)
  have h2 := reach_inside (n := n) (c := Function.update (Function.update c 0 d) 1 d) (d := d) 2 (h 2)
  have h3 := reach_inside (n := n) (c := Function.update (Function.update (Function.update c 0 d) 1 d) 2 d)
    (d := d) 3 (h 3)
  have e : Function.update (Function.update (Function.update (Function.update c 0 d) 1 d) 2 d) 3 d =
      fun _ => d := by
    funext i
    match i with
    | 0 => rfl
    | 1 => rfl
    | 2 => rfl
    | 3 => rfl
  rw [e] at h3
  exact ((h0.trans h1).trans h2).trans h3

private theorem reach_full (br n : Nat) : Reach br false (.waiting n) (full br n) := by
  induction n using Nat.strongRecOn with
  | ind n ih =>
    rcases Nat.lt_or_ge br n with h | h
    · rw [full_gt h]
      exact .head (.node h) (reach_all fun _ => ih (n / 2) (by omega))
    · rw [full_le h]
      exact .head (.leaf h) (.single .compute)

private theorem held_full (br n : Nat) : held (full br n) = together br n := by
  induction n using Nat.strongRecOn with
  | ind n ih =>
    rcases Nat.lt_or_ge br n with h | h
    · rw [full_gt h, together_gt h, held, Finset.sum_const, Finset.card_univ, Fintype.card_fin, smul_eq_mul,
        ih _ (by omega)]
    · rw [full_le h, together_le h, held]

/-- **C136.** There are schedules with which all blocks of all levels exist at the same time. -/
theorem C136_most_reached (br n : Nat) : ∃ s, Reach br false (.waiting n) s ∧ held s = together br n :=
  ⟨_, reach_full br n, held_full br n⟩

/-! ### The least that is needed -/

private inductive NoLeaf : Call → Prop
  | waiting (n : Nat) : NoLeaf (.waiting n)
  | node {n : Nat} {c : Fin 4 → Call} : (∀ i, NoLeaf (c i)) → NoLeaf (.node n c)

private theorem NoLeaf.step (h : Step br o s t) :
    ∀ {n}, Ok br n s → NoLeaf s → NoLeaf t ∨ nested br n ≤ held t := by
  induction h with
  | leaf h => intro n hs _; cases hs; rw [nested_le h]; exact .inr (Nat.le_refl _)
  | compute => intro n _ hn; cases hn
  | node h => intro n _ _; exact .inl (.node fun _ => .waiting _)
  | @inside m c c' i _ hst ih =>
    intro n hs hn
    cases hs with
    | node hb hc =>
      cases hn with
      | node hl =>
        rcases ih (hc _ (not_gone hst).1) (hl i) with h | h
        · refine .inl (.node fun j => ?_)
          rcases eq_or_ne j i with rfl | hji
          · rw [Function.update_self]; exact h
          · rw [Function.update_of_ne hji]; exact hl j
        · right
          rw [nested_gt hb]
          have := Finset.single_le_sum (f := fun j => held (Function.update c i c' j))
            (fun _ _ => Nat.zero_le _) (Finset.mem_univ i)
          simp only [Function.update_self] at this
          show _ ≤ m ^ 2 + ∑ j, held (Function.update c i c' j)
          omega
  | merge i hi =>
    intro n _ hn
    cases hn with
    | node hl => have := hl i; rw [hi] at this; cases this
  | ret hg =>
    intro n _ hn
    cases hn with
    | node hl => have := hl 0; rw [hg] at this; cases this

/-- **C136.** Every complete execution needs at some moment one block of each level. -/
theorem C136_least (br n : Nat) (o : Bool) (m : Nat) (f : Nat → Call) (h : Execution br o m f)
    (h0 : f 0 = .waiting n) (h1 : f m = .done n) : ∃ k, k ≤ m ∧ nested br n ≤ held (f k) := by
  by_contra hc
  have : ∀ k, k ≤ m → Ok br n (f k) ∧ NoLeaf (f k) := by
    intro k
    induction k with
    | zero => intro _; rw [h0]; exact ⟨.waiting n, .waiting n⟩
    | succ k ih =>
      intro hk
      obtain ⟨i1, i2⟩ := ih (by omega)
      have hst := h k (by omega)
      exact ⟨i1.step hst, (i2.step hst i1).resolve_right fun hx => hc ⟨k + 1, hk, hx⟩⟩
  have := (this m (Nat.le_refl _)).2
  rw [h1] at this
  cases this

private inductive OneByOne (br : Nat) : Nat → Call → Prop
  | waiting (n : Nat) : OneByOne br n (.waiting n)
  | leaf {n : Nat} : n ≤ br → OneByOne br n (.leaf n)
  | node {n : Nat} {c : Fin 4 → Call} (i : Fin 4) : br < n → (∀ j, j < i → c j = .gone) → (∀ j, i < j → c j = .waiting (n / 2)) →
      (c i ≠ .gone → OneByOne br (n / 2) (c i)) → OneByOne br n (.node n c)
  | done (n : Nat) : OneByOne br n (.done n)

private theorem OneByOne.step (h : Step br o s t) (ho : o = true) : ∀ {n}, OneByOne br n s → OneByOne br n t := by
  induction h with
  | leaf h => intro n hs; cases hs; exact .leaf h
  | compute => intro n hs; cases hs; exact .done _
  | node h =>
    intro n hs
    cases hs
    exact .node 0 h (fun j hj => absurd hj (Fin.not_lt_zero j)) (fun _ _ => rfl) fun _ => .waiting _
  | inside k hk hst ih =>
    intro n hs
    cases hs with
    | node i hb h1 h2 h3 =>
      rcases lt_trichotomy k i with hki | rfl | hki
      · exact absurd (h1 k hki) (not_gone hst).1
      · refine .node k hb (fun j hj => ?_) (fun j hj => ?_) fun _ => ?_
        · rw [Function.update_of_ne (ne_of_lt hj)]; exact h1 j hj
        · rw [Function.update_of_ne (ne_of_gt hj)]; exact h2 j hj
        · rw [Function.update_self]; exact ih (h3 (not_gone hst).1)
      · refine .node k hb (fun j hj => ?_) (fun j hj => ?_) fun _ => ?_
        · rw [Function.update_of_ne (ne_of_lt hj)]; exact hk ho j hj
        · rw [Function.update_of_ne (ne_of_gt hj)]; exact h2 j (lt_trans hki hj)
        · rw [Function.update_self]; exact ih (h2 k hki ▸ .waiting _)
  | merge k hk =>
    intro n hs
    cases hs with
    | node i hb h1 h2 h3 =>
      rcases lt_trichotomy k i with hki | rfl | hki
      · rw [h1 k hki] at hk; cases hk
      · refine .node k hb (fun j hj => ?_) (fun j hj => ?_) fun h => ?_
        · rw [Function.update_of_ne (ne_of_lt hj)]; exact h1 j hj
        · rw [Function.update_of_ne (ne_of_gt hj)]; exact h2 j hj
        · rw [Function.update_self] at h; exact absurd rfl h
      · rw [h2 k hki] at hk; cases hk
  | ret _ => intro n hs; cases hs; exact .done _

private theorem OneByOne.held_le (h : OneByOne br n s) : held s ≤ nested br n := by
  induction h with
  | waiting n => exact Nat.zero_le _
  | leaf h => rw [nested_le h]; exact Nat.le_refl _
  | @node n c i hb h1 h2 h3 ih =>
    rw [nested_gt hb, held, Finset.sum_eq_single i]
    · by_cases hg : c i = .gone
      · rw [hg]; exact Nat.add_le_add_left (Nat.zero_le _) _
      · exact Nat.add_le_add_left (ih hg) _
    · intro j _ hj
      rcases lt_or_gt_of_ne hj with h | h
      · rw [h1 j h]; rfl
      · rw [h2 j h]; rfl
    · intro h; exact absurd (Finset.mem_univ i) h
  | done n => exact (C136_amounts br n).2.2.1

/-- **C136.** If the calls are executed one after the other, one block of each level is enough. -/
theorem C136_least_enough (br n : Nat) (s : Call) (h : Reach br true (.waiting n) s) : held s ≤ nested br n := by
  have : OneByOne br n s := by
    induction h with
    | refl => exact .waiting n
    | tail _ h ih => exact ih.step h rfl
  exact this.held_le

/-- **C136.** Executions of the calls one after the other are among the executions of the program. -/
theorem C136_ordered (h : Step br o s t) : Step br false s t := by
  induction h with
  | leaf h => exact .leaf h
  | compute => exact .compute
  | node h => exact .node h
  | inside i _ _ ih => exact .inside i (fun h => nomatch h) ih
  | merge i h => exact .merge i h
  | ret h => exact .ret h

/-! ### Every execution ends -/

private def left (br : Nat) : Call → Nat
  | .waiting n => 4 ^ (halvings br n + 1) - 1
  | .leaf _ => 2
  | .node _ c => 2 + ∑ i, left br (c i)
  | .done _ => 1
  | .gone => 0

private theorem sum_update (g : Call → Nat) (c : Fin 4 → Call) (i : Fin 4) (x : Call) :
    ∑ j, g (Function.update c i x j) + g (c i) = ∑ j, g (c j) + g x := by
  rw [← Finset.add_sum_erase _ _ (Finset.mem_univ i), ← Finset.add_sum_erase _ (fun j => g (c j)) (Finset.mem_univ i),
    Function.update_self, Finset.sum_congr rfl fun j hj => by
      rw [Function.update_of_ne (Finset.ne_of_mem_erase hj)]]
  omega

private theorem left_step (h : Step br o s t) : left br s = left br t + 1 := by
  induction h with
  | leaf h => rw [left, left, Components.halvings_le h]; rfl
  | compute => rfl
  | @node n h =>
    rw [left, left, Components.halvings_gt h, Finset.sum_const, Finset.card_univ, Fintype.card_fin, smul_eq_mul, left,
      Nat.pow_succ 4 (halvings br (n / 2) + 1)]
    have := Nat.one_le_pow (halvings br (n / 2) + 1) 4 (by decide)
    omega
  | @inside n c c' i _ _ ih =>
    have := sum_update (left br) c i c'
    rw [left, left]
    omega
  | @merge n m c i hi =>
    have := sum_update (left br) c i .gone
    rw [hi] at this
    rw [left, left]
    simp only [left] at this ⊢
    omega
  | @ret n c h =>
    rw [left, left, Finset.sum_congr rfl fun i _ => by rw [h i]]
    rfl

private theorem progress (o : Bool) (h : Ok br n s) : s = .done n ∨ ∃ t, Step br o s t := by
  induction h with
  | waiting n =>
    rcases Nat.lt_or_ge br n with h | h
    · exact .inr ⟨_, .node h⟩
    · exact .inr ⟨_, .leaf h⟩
  | leaf h => exact .inr ⟨_, .compute⟩
  | @node n c hb hc ih =>
    right
    by_cases hg : ∀ i, c i = .gone
    · exact ⟨_, .ret hg⟩
    · obtain ⟨k, hk⟩ := not_forall.1 hg
      obtain ⟨i, hi, hmin⟩ := (wellFounded_lt (α := Fin 4)).has_min {i | c i ≠ .gone} ⟨k, hk⟩
      rcases ih i hi with h | ⟨t, ht⟩
      · exact ⟨_, .merge i h⟩
      · exact ⟨_, .inside i (fun _ j hj => not_not.1 fun hx => hmin j hx hj) ht⟩
  | done n => exact .inl rfl

/-- **C136.** Every execution that cannot be continued has returned the result and released everything else, after
exactly `4 ^ (h + 1) - 2` steps for `h` halvings; longer executions do not exist. -/
theorem C136_ends (br n : Nat) (o : Bool) (m : Nat) (f : Nat → Call) (h : Execution br o m f)
    (h0 : f 0 = .waiting n) :
    m + 2 ≤ 4 ^ (halvings br n + 1) ∧
    ((¬ ∃ t, Step br o (f m) t) → f m = .done n ∧ m + 2 = 4 ^ (halvings br n + 1)) := by
  have : ∀ k, k ≤ m → Ok br n (f k) ∧ k + left br (f k) = 4 ^ (halvings br n + 1) - 1 := by
    intro k
    induction k with
    | zero => intro _; rw [h0, Nat.zero_add]; exact ⟨.waiting n, rfl⟩
    | succ k ih =>
      intro hk
      obtain ⟨i1, i2⟩ := ih (by omega)
      have hst := h k (by omega)
      have := left_step hst
      exact ⟨i1.step hst, by omega⟩
  obtain ⟨h1, h2⟩ := this m (Nat.le_refl _)
  have h3 : 1 ≤ left br (f m) := by
    clear h2
    revert h1
    generalize f m = s
    intro h1
    cases h1 with
    | waiting n =>
      have := Nat.one_le_pow (halvings br n) 4 (by decide)
      rw [left, Nat.pow_succ]
      omega
    | leaf _ => exact Nat.le_succ 1
    | node _ _ => rw [left]; omega
    | done _ => exact Nat.le_refl 1
  refine ⟨by omega, fun hn => ?_⟩
  have h4 := (progress o h1).resolve_right hn
  rw [h4] at h2
  have : left br (.done n) = 1 := rfl
  exact ⟨h4, by omega⟩

/-! ### The algorithms -/

private theorem single_reach (br N r : Nat) {s : Call} (h : Reach br false (.waiting N) s) :
    Relation.ReflTransGen (SingleStep br N) (r, .waiting N) (r, s) := by
  induction h with
  | refl => exact .refl
  | tail _ h ih => exact ih.tail (.inside h)

/-- **C136.** `single` in any repetition, with the vectors `A` and `B` of the computing object and `C`
(single.cpp:16, 26): three more than the levels of the recursion times the size of a matrix are always enough, and
needed if the size is halved without remainder. -/
theorem C136_single (br N r : Nat) :
    (∀ x, Relation.ReflTransGen (SingleStep br N) (r, .waiting N) x → heldSingle N x ≤ (halvings br N + 4) * N ^ 2) ∧
    ∀ d q, N = 2 ^ d * q → q ≤ br → (∀ c, c < d → br < 2 ^ (c + 1) * q) →
      ∃ x, Relation.ReflTransGen (SingleStep br N) (r, .waiting N) x ∧ heldSingle N x = (d + 4) * N ^ 2 := by
  refine ⟨fun x h => ?_, fun d q h1 h2 h3 => ⟨(r, full br N), single_reach br N r (reach_full br N), ?_⟩⟩
  · have : x.2 = .gone ∨ Ok br N x.2 := by
      induction h with
      | refl => exact .inr (.waiting N)
      | tail _ h ih =>
        cases h with
        | inside h => exact .inr ((ih.resolve_left (not_gone h).1).step h)
        | next => exact .inr (.waiting N)
        | last => exact .inl rfl
    have h2 : held x.2 ≤ (halvings br N + 1) * N ^ 2 := by
      rcases this with h | h
      · rw [h]; exact Nat.zero_le _
      · exact Nat.le_trans h.held_le (together_bound br N)
    unfold heldSingle
    have : (halvings br N + 4) * N ^ 2 = N ^ 2 + N ^ 2 + N ^ 2 + (halvings br N + 1) * N ^ 2 := by ring
    omega
  · rw [heldSingle, held_full, (C136_amounts br N).2.1 d q h1 h2 h3]
    ring

/-- **C136.** All repetitions of `single` can be executed; at the end only the inputs and the result exist. -/
theorem C136_single_ends (br N r : Nat) :
    ∃ x, Relation.ReflTransGen (SingleStep br N) (r, .waiting N) x ∧ heldSingle N x = 3 * N ^ 2 := by
  have hd : ∀ (k : Nat) (s : Call), left br s = k → Ok br N s → Reach br false s (.done N) := by
    intro k
    induction k with
    | zero =>
      intro s hk hs
      rcases progress false hs with h | ⟨t, ht⟩
      · rw [h]; exact .refl
      · have := left_step ht; omega
    | succ k ih =>
      intro s hk hs
      rcases progress false hs with h | ⟨t, ht⟩
      · rw [h]; exact .refl
      · have := left_step ht
        exact .head ht (ih t (by omega) (hs.step ht))
  refine ⟨(0, .gone), ?_, by unfold heldSingle held; ring⟩
  induction r with
  | zero => exact (single_reach br N 0 (hd _ _ rfl (.waiting N))).tail .last
  | succ r ih => exact ((single_reach br N (r + 1) (hd _ _ rfl (.waiting N))).tail .next).trans ih

private theorem forall_set {R : Nat → Call → Prop} {ns : List Nat} {cs : List Call} (h : List.Forall₂ R ns cs) :
    ∀ {i : Nat} {c c' : Call}, cs[i]? = some c → (∀ n, R n c → R n c') → List.Forall₂ R ns (cs.set i c') := by
  induction h with
  | nil => intro i c c' hi; cases hi
  | @cons n d ns cs h1 h2 ih =>
    intro i c c' hi hc
    cases i with
    | zero =>
      cases hi
      exact .cons (hc _ h1) h2
    | succ i => exact .cons h1 (ih hi hc)

private theorem reach_package {cs ds : List Call} {c d : Call} (h : Reach br false c d) :
    Relation.ReflTransGen (PackageStep br) (cs ++ c :: ds) (cs ++ d :: ds) := by
  induction h with
  | refl => exact .refl
  | @tail d e _ hst ih =>
    have := PackageStep.inside (cs := cs ++ d :: ds) cs.length (by simp) hst
    rw [List.set_append_right _ _ (Nat.le_refl _), Nat.sub_self, List.set_cons_zero] at this
    exact ih.tail this

private theorem reach_packages (ns : List Nat) : ∀ cs : List Call,
    Relation.ReflTransGen (PackageStep br) (cs ++ ns.map .waiting) (cs ++ ns.map (full br)) := by
  induction ns with
  | nil => intro cs; exact .refl
  | cons n ns ih =>
    intro cs
    refine (reach_package (reach_full br n)).trans ?_
    have := ih (cs ++ [full br n])
    rwa [List.append_assoc, List.append_assoc] at this

/-- **C136.** The calls for work packages of the sizes `ns` (all packages, or those of one locality): together at
most the sum of their amounts, and there are schedules that need it. -/
theorem C136_packages (br : Nat) (ns : List Nat) :
    (∀ cs, Relation.ReflTransGen (PackageStep br) (ns.map .waiting) cs →
      (cs.map held).sum ≤ (ns.map (together br)).sum) ∧
    ∃ cs, Relation.ReflTransGen (PackageStep br) (ns.map .waiting) cs ∧
      (cs.map held).sum = (ns.map (together br)).sum := by
  refine ⟨fun cs h => ?_, ns.map (full br), reach_packages ns [], ?_⟩
  · have : List.Forall₂ (fun n c => c ≠ .gone → Ok br n c) ns cs := by
      induction h with
      | refl =>
        rw [List.forall₂_map_right_iff, List.forall₂_same]
        exact fun n _ _ => .waiting n
      | tail _ h ih =>
        cases h with
        | inside i hi hst => exact forall_set ih hi fun n hn _ => (hn (not_gone hst).1).step hst
        | insert i hi => exact forall_set ih hi fun n _ hx => absurd rfl hx
    clear h
    induction this with
    | nil => exact Nat.le_refl _
    | @cons n c ns cs h1 _ ih =>
      rw [List.map_cons, List.sum_cons, List.map_cons, List.sum_cons]
      refine Nat.add_le_add ?_ ih
      by_cases hg : c = .gone
      · rw [hg]; exact Nat.zero_le _
      · exact (h1 hg).held_le
  · rw [List.map_map]
    exact congrArg List.sum (List.map_congr_left fun n _ => held_full br n)

/-- **C136.** `pseudodynamic`: the calls for all packages of a schedule hold at most the size of the result for each
level of the recursion of the whole matrix. -/
theorem C136_schedule (p : Params) (N L br : Nat) (aw : List (List Work)) (h : create_schedule p N L = .ok aw)
    (cs : List Call)
    (hcs : Relation.ReflTransGen (PackageStep br) (aw.flatten.map fun w => .waiting w.N) cs) :
    (cs.map held).sum ≤ (halvings br N + 1) * N ^ 2 := by
  have h1 := (C136_packages br (aw.flatten.map Work.N)).1 cs (by rw [List.map_map]; exact hcs)
  rw [List.map_map] at h1
  have hin := (C16_schedule_disjoint p N L aw h).1
  obtain ⟨hL, k, s, hi, -, -, rfl⟩ := schedule_ok h
  have hI := (iter_inv hL hi).1
  obtain ⟨h2, h3⟩ := C18_accounting p N L k s hL hi
  have h4 : ∀ (l : List (List Work)) (t : List Nat), l.length = t.length →
      (∀ (i : Nat) ws, l[i]? = some ws → ∃ u, t[i]? = some u ∧ (ws.map fun w => w.N * w.N).sum ≤ u) →
      (∀ ws ∈ l, ∀ w ∈ ws, w.N ≤ N) →
      (l.flatten.map (together br ∘ Work.N)).sum ≤ (halvings br N + 1) * t.sum := by
    intro l
    induction l with
    | nil => intro t _ _ _; exact Nat.zero_le _
    | cons ws l ih =>
      intro t hl hu hw
      cases t with
      | nil => cases hl
      | cons u t =>
        rw [List.flatten_cons, List.map_append, List.sum_append, List.sum_cons, Nat.mul_add]
        refine Nat.add_le_add ?_ (ih t (Nat.succ.inj hl) (fun i ws' h' => hu (i + 1) ws' h')
          fun ws' h' => hw ws' (List.mem_cons_of_mem _ h'))
        obtain ⟨u', hu', hle⟩ := hu 0 ws rfl
        cases hu'
        refine Nat.le_trans ?_ (Nat.mul_le_mul_left _ hle)
        have hw' := hw ws List.mem_cons_self
        clear hle hu hw hl
        induction ws with
        | nil => exact Nat.zero_le _
        | cons w ws ihw =>
          rw [List.map_cons, List.sum_cons, List.map_cons, List.sum_cons, Nat.mul_add]
          refine Nat.add_le_add ?_ (ihw fun w' h' => hw' w' (List.mem_cons_of_mem _ h'))
          refine Nat.le_trans (together_bound br w.N) ?_
          rw [Nat.pow_two]
          exact Nat.mul_le_mul_right _ (Nat.succ_le_succ (halvings_mono br _ _ (hw' w List.mem_cons_self)))
  refine Nat.le_trans h1 ?_
  have := h4 s.all_work s.total_work (by rw [hI.len1, hI.len2]) (fun i ws hws => by
    obtain ⟨t, ht, h5, -⟩ := h3 i ws hws
    exact ⟨t, ht, h5⟩) fun ws hws w hw => by
      have := (hin ws hws w hw).1
      omega
  rwa [h2, ← Nat.pow_two] at this

section Examples

/-- `N = 2048` with blocks of size 128: four halvings, up to five times the size of the result, although less than
4/3 of it would do. -/
example : together 128 2048 = 5 * 2048 ^ 2 ∧ 3 * nested 128 2048 ≤ 4 * 2048 ^ 2 :=
  ⟨(C136_amounts 128 2048).2.1 4 128 rfl (Nat.le_refl _) (by decide), (C136_amounts 128 2048).2.2.2⟩

/-- A state of a call for a 2 × 2 matrix with blocks of size 1: the four results exist beside `C`. -/
example : ∃ s, Reach 1 false (.waiting 2) s ∧ held s = 2 ^ 2 + 4 * 1 ^ 2 := by
  obtain ⟨s, h1, h2⟩ := C136_most_reached 1 2
  exact ⟨s, h1, by rw [h2, together_gt (by decide), together_le (by decide)]⟩

/-- One after the other: `C` and one of them. -/
example (s : Call) (h : Reach 1 true (.waiting 2) s) : held s ≤ 2 ^ 2 + 1 ^ 2 := by
  have := C136_least_enough 1 2 s h
  rwa [nested_gt (by decide), nested_le (by decide)] at this

/-- The two steps of a call for a small block. -/
example : Execution 4 true 2 (fun k => if k = 0 then .waiting 3 else if k = 1 then .leaf 3 else .done 3) := by
  intro k hk
  match k, hk with
  | 0, _ => exact .leaf (by decide)
  | 1, _ => exact .compute

/-- A step of the calls one after the other: the first of the four begins. -/
example : Step 1 true (.node 2 fun _ => .waiting 1) (.node 2 (Function.update (fun _ => .waiting 1) 0 (.leaf 1))) :=
  .inside 0 (fun _ j hj => absurd hj (Fin.not_lt_zero j)) (.leaf (Nat.le_refl 1))

/-- `single` with `N = 2048` and blocks of size 128 holds up to eight matrices. -/
example : ∃ x, Relation.ReflTransGen (SingleStep 128 2048) (0, .waiting 2048) x ∧
    heldSingle 2048 x = 8 * 2048 ^ 2 :=
  (C136_single 128 2048 0).2 4 128 rfl (Nat.le_refl _) (by decide)

/-- A schedule for one locality. -/
example (p : Params) (cs : List Call) (aw : List (List Work)) (h : create_schedule p 4 1 = .ok aw)
    (hcs : Relation.ReflTransGen (PackageStep 2) (aw.flatten.map fun w => .waiting w.N) cs) :
    (cs.map held).sum ≤ 2 * 4 ^ 2 := by
  have := C136_schedule p 4 1 2 aw h cs hcs
  rwa [Components.halvings_gt (by decide), Components.halvings_le (by decide)] at this

end Examples
end Verif.Props
