import Verif.Model.Variants64
import Verif.Proof.Kernels64
import Verif.Proof.Iterate
import Verif.Proof.Looped
import Verif.Proof.Algorithms
import Verif.Proof.Semi
import Verif.Proof.DoubleUse
set_option linter.unusedSectionVars false
/-
The iteration over indices and the variants "looped", "algorithms" and "semi" modulo 2^64.
-/
namespace Verif.Size64
variable {α : Type} [Arith α]

/-! ### calls -/

mutual
theorem toTree_congr {ι : Type} {f g : ι → Act α Unit} : ∀ (t : Verif.IndexIterator.Calls ι),
    (∀ i ∈ t.leaves, f i = g i) → t.toTree f = t.toTree g
  | .call i, h => by
    rw [Verif.IndexIterator.Calls.toTree, Verif.IndexIterator.Calls.toTree,
      h i (by rw [Verif.IndexIterator.Calls.leaves]; exact List.mem_singleton.2 rfl)]
  | .fail e, _ => by rw [Verif.IndexIterator.Calls.toTree, Verif.IndexIterator.Calls.toTree]
  | .seq ts, h => by
    rw [Verif.IndexIterator.Calls.toTree, Verif.IndexIterator.Calls.toTree,
      toTree_congr_list ts (fun i hi => h i (by rw [Verif.IndexIterator.Calls.leaves]; exact hi))]
  | .par ts, h => by
    rw [Verif.IndexIterator.Calls.toTree, Verif.IndexIterator.Calls.toTree,
      toTree_congr_list ts (fun i hi => h i (by rw [Verif.IndexIterator.Calls.leaves]; exact hi))]

theorem toTree_congr_list {ι : Type} {f g : ι → Act α Unit} :
    ∀ (ts : List (Verif.IndexIterator.Calls ι)),
    (∀ i ∈ ts.flatMap Verif.IndexIterator.Calls.leaves, f i = g i) →
    ts.map (Verif.IndexIterator.Calls.toTree f) = ts.map (Verif.IndexIterator.Calls.toTree g)
  | [], _ => rfl
  | t :: ts, h => by
    rw [List.map_cons, List.map_cons, toTree_congr t (fun i hi => h i (by simp [hi])),
      toTree_congr_list ts (fun i hi => h i (by
        rw [List.flatMap_cons]
        exact List.mem_append_right _ hi))]
end

/-! ### index_iterator.hpp -/

namespace IndexIterator
open Verif.IndexIterator (Calls Policy map_dims)

theorem loopCalls_eq {hi st : Nat} (hst : 0 < st) (h : hi + st ≤ 2 ^ 64)
    (body : Nat → Calls (List Nat)) : ∀ fuel cur, hi - cur ≤ fuel →
    loopCalls hi st body fuel cur = (steps cur hi st).map body := by
  intro fuel
  induction fuel with
  | zero =>
    intro cur hc
    rw [loopCalls, if_neg (by omega), steps_of_ge (by omega)]
    rfl
  | succ fuel ih =>
    intro cur hc
    rw [loopCalls]
    by_cases hlt : cur < hi
    · rw [if_pos hlt, steps_cons hlt hst, List.map_cons, u64_eq (by omega), ih _ (by omega)]
    · rw [if_neg hlt, steps_of_ge (by omega)]
      rfl

theorem execute_looped_eq {mn mx st : List Nat}
    (h : ∀ d, mx.getD d 0 + st.getD d 0 ≤ 2 ^ 64) : ∀ dim cur args,
    execute_looped mn mx st dim cur args = Verif.IndexIterator.execute_looped mn mx st dim cur args := by
  intro dim
  induction dim with
  | zero => intro cur args; rfl
  | succ dim ih =>
    intro cur args
    rw [execute_looped, Verif.IndexIterator.execute_looped]
    simp only [ih]
    split
    · rfl
    split
    · rfl
    rename_i _ hz
    rcases Nat.eq_zero_or_pos (st.getD cur 0) with h0 | h0
    · have hle : mx.getD cur 0 ≤ mn.getD cur 0 := by omega
      rw [show (2 : Nat) ^ 64 = (2 ^ 64 - 1) + 1 from rfl, loopCalls, if_neg (by omega),
        steps_of_ge hle]
      rfl
    · rw [loopCalls_eq h0 (h cur) _ _ _ (by have := h cur; omega)]

theorem loop_nest_eq {dim : Nat} {mn mx st : List Nat}
    (h : ∀ d, mx.getD d 0 + st.getD d 0 ≤ 2 ^ 64) :
    loop_nest dim mn mx st = Verif.IndexIterator.loop_nest dim mn mx st :=
  execute_looped_eq h dim 0 []

/-- The indices of a loop nest are below the maximum, for all steps. -/
theorem execute_looped_lt (mn mx st : List Nat) : ∀ dim cur args,
    ∀ p ∈ (Verif.IndexIterator.execute_looped mn mx st dim cur args).leaves,
      ∃ q : List Nat, p = args ++ q ∧ ∀ d, d < dim → q.getD d 0 < mx.getD (cur + d) 0 := by
  intro dim
  induction dim with
  | zero =>
    intro cur args p hp
    rw [Verif.IndexIterator.execute_looped, Calls.leaves] at hp
    exact ⟨[], by simpa using hp, fun d hd => absurd hd (by omega)⟩
  | succ dim ih =>
    intro cur args p hp
    have key : ∀ c, c < mx.getD cur 0 →
        p ∈ (Verif.IndexIterator.execute_looped mn mx st dim (cur + 1) (args ++ [c])).leaves →
        ∃ q : List Nat, p = args ++ q ∧ ∀ d, d < dim + 1 → q.getD d 0 < mx.getD (cur + d) 0 := by
      intro c hc hp
      obtain ⟨q, rfl, hq⟩ := ih _ _ p hp
      refine ⟨c :: q, by simp, fun d hd => ?_⟩
      cases d with
      | zero => simpa using hc
      | succ d =>
        have := hq d (by omega)
        rw [show cur + 1 + d = cur + (d + 1) by omega] at this
        simpa using this
    rw [Verif.IndexIterator.execute_looped] at hp
    split at hp
    · rename_i hc
      rw [Calls.leaves] at hp
      simp only [List.flatMap_cons, List.flatMap_nil, Calls.leaves, List.append_nil] at hp
      exact key _ hc.2 hp
    split at hp
    · rename_i hc
      rw [Calls.leaves] at hp
      simp only [List.flatMap_cons, List.flatMap_nil, Calls.leaves, List.append_nil] at hp
      exact key _ hc.2 hp
    · rename_i hz
      rw [Calls.leaves, List.flatMap_map, List.mem_flatMap] at hp
      obtain ⟨c, hc, hp⟩ := hp
      refine key c ?_ hp
      rcases Nat.eq_zero_or_pos (st.getD cur 0) with h0 | h0
      · rw [steps_of_ge (by omega)] at hc
        cases hc
      · obtain ⟨_, -, h⟩ := (mem_steps h0).1 hc
        exact h

theorem increment_eq {mn mx st cur : List Nat}
    (h : ∀ d, d < cur.length → cur.getD d 0 + st.getD d 0 < 2 ^ 64) :
    increment mn mx st cur = Verif.IndexIterator.increment mn mx st cur := by
  have e : ((List.range cur.length).find?
        fun d => decide (u64 (cur.getD d 0 + st.getD d 0) < mx.getD d 0)) =
      ((List.range cur.length).find? fun d => decide (cur.getD d 0 + st.getD d 0 < mx.getD d 0)) := by
    have : ∀ l : List Nat, (∀ d ∈ l, d < cur.length) →
        (l.find? fun d => decide (u64 (cur.getD d 0 + st.getD d 0) < mx.getD d 0)) =
        (l.find? fun d => decide (cur.getD d 0 + st.getD d 0 < mx.getD d 0)) := by
      intro l
      induction l with
      | nil => intro _; rfl
      | cons d l ih =>
        intro hl
        rw [List.find?_cons, List.find?_cons, u64_eq (h d (hl d (by simp))),
          ih (fun x hx => hl x (by simp [hx]))]
    exact this _ (fun d hd => List.mem_range.1 hd)
  unfold increment Verif.IndexIterator.increment
  rw [e]
  cases hd : (List.range cur.length).find? fun d =>
      decide (cur.getD d 0 + st.getD d 0 < mx.getD d 0) with
  | none => rfl
  | some d =>
    have := List.mem_range.1 (List.mem_of_find?_eq_some hd)
    dsimp only
    rw [u64_eq (h d this)]

theorem getD_set_le {l : List Nat} {i v M : Nat} (hl : ∀ d, l.getD d 0 ≤ M) (hv : v ≤ M) (d : Nat) :
    (l.set i v).getD d 0 ≤ M := by
  have := hl d
  rw [List.getD_eq_getElem?_getD] at this ⊢
  rw [List.getElem?_set]
  split
  · split
    · exact hv
    · exact Nat.zero_le _
  · exact this

theorem increment_le {mn mx st cur : List Nat} {M : Nat} (h1 : ∀ d, mn.getD d 0 ≤ M)
    (h2 : ∀ d, mx.getD d 0 ≤ M) (h : ∀ d, cur.getD d 0 ≤ M) (d : Nat) :
    (Verif.IndexIterator.increment mn mx st cur).getD d 0 ≤ M := by
  unfold Verif.IndexIterator.increment
  split
  · exact h d
  · rename_i i hi
    have hi := List.find?_some hi
    simp only [decide_eq_true_eq] at hi
    have : ∀ (l : List Nat) (c : List Nat), (∀ d, c.getD d 0 ≤ M) → ∀ d,
        (l.foldl (fun cur i => cur.set i (mn.getD i 0)) c).getD d 0 ≤ M := by
      intro l
      induction l with
      | nil => intro c hc; exact hc
      | cons a l ih => intro c hc; exact ih _ (fun d => getD_set_le hc (h1 a) d)
    exact this _ _ (fun d => getD_set_le h (by have := h2 i; omega) d) d

theorem iter_le {mn mx st : List Nat} {M : Nat} (h1 : ∀ d, mn.getD d 0 ≤ M)
    (h2 : ∀ d, mx.getD d 0 ≤ M) (n : Nat) : ∀ d, (Verif.IndexIterator.iter mn mx st n).getD d 0 ≤ M := by
  induction n with
  | zero => exact h1
  | succ n ih => exact increment_le h1 h2 ih

theorem iter_eq {mn mx st : List Nat} {M : Nat} (h1 : ∀ d, mn.getD d 0 ≤ M)
    (h2 : ∀ d, mx.getD d 0 ≤ M) (h : ∀ d, d < mn.length → M + st.getD d 0 < 2 ^ 64) (n : Nat) :
    iter mn mx st n = Verif.IndexIterator.iter mn mx st n := by
  induction n with
  | zero => rfl
  | succ n ih =>
    rw [iter, Verif.IndexIterator.iter, ih]
    refine increment_eq fun d hd => ?_
    rw [Verif.Looped.iter_length] at hd
    have := iter_le (st := st) h1 h2 n d
    have := h d hd
    omega

/-- The largest number of blocks in dimension `d`. -/
def width (e : Nat → Nat) (b : List Nat) (d : Nat) : Nat := max 1 (ceilDiv (e d) (b.getD d 0))

theorem blockCounts_eq {mn mx b : List Nat} {e : Nat → Nat} : ∀ (ds : List Nat) (c : Nat),
    (∀ d ∈ ds, mn.getD d 0 ≤ mx.getD d 0 ∧ mx.getD d 0 - mn.getD d 0 ≤ e d ∧
      mx.getD d 0 < 2 ^ 53 ∧ 0 < b.getD d 0 ∧ b.getD d 0 < 2 ^ 64) →
    c * (ds.map (width e b)).prod < 2 ^ 64 →
    ds.foldlM (fun c d => (fun n => u64 (c * n)) <$> IEEE.blockCount mn mx b d) c =
      ds.foldlM (fun c d => (c * ·) <$> Verif.IndexIterator.blockCount mn mx b d) c := by
  intro ds
  induction ds with
  | nil => intro c _ _; rfl
  | cons d ds ih =>
    intro c h hc
    obtain ⟨g1, g2, g3, g4, g5⟩ := h d (by simp)
    have hu : usub (mx.getD d 0) (mn.getD d 0) = mx.getD d 0 - mn.getD d 0 := by
      unfold usub; rw [if_pos g1]
    rw [List.foldlM_cons, List.foldlM_cons, IEEE.blockCount_eq (by rw [hu]; omega) g5]
    unfold Verif.IndexIterator.blockCount
    rw [if_neg (by omega), hu]
    have hw : ceilDiv (mx.getD d 0 - mn.getD d 0) (b.getD d 0) ≤ width e b d := by
      unfold width ceilDiv
      refine Nat.le_trans (Nat.div_le_div_right (c := b.getD d 0)
        (b := e d + b.getD d 0 - 1) (by omega)) (Nat.le_max_right _ _)
    rw [List.map_cons, List.prod_cons, ← Nat.mul_assoc] at hc
    have hp : 1 ≤ (ds.map (width e b)).prod := by
      clear ih hc h
      induction ds with
      | nil => exact Nat.le_refl _
      | cons a ds ih =>
        rw [List.map_cons, List.prod_cons]
        exact Nat.mul_pos (Nat.lt_of_lt_of_le Nat.one_pos (Nat.le_max_left _ _)) ih
    have h1 : c * ceilDiv (mx.getD d 0 - mn.getD d 0) (b.getD d 0) ≤ c * width e b d :=
      Nat.mul_le_mul_left _ hw
    have h2 := Nat.mul_le_mul_left (c * width e b d) hp
    have hu : u64 (c * ceilDiv (mx.getD d 0 - mn.getD d 0) (b.getD d 0)) =
        c * ceilDiv (mx.getD d 0 - mn.getD d 0) (b.getD d 0) := u64_eq (by omega)
    have := ih (c * ceilDiv (mx.getD d 0 - mn.getD d 0) (b.getD d 0))
      (fun x hx => h x (by simp [hx]))
      (Nat.lt_of_le_of_lt (Nat.mul_le_mul_right _ h1) hc)
    show (Except.bind _ _ : M Nat) = Except.bind _ _
    simp only [Functor.map, Except.map, Except.bind, hu]
    exact this

theorem map_dims_le {sub map index r : List Nat} {M : Nat} (h1 : ∀ d, sub.getD d 0 ≤ M)
    (h2 : ∀ d, index.getD d 0 ≤ M) (h : map_dims sub map index = .ok r) :
    (∀ d, r.getD d 0 ≤ M) ∧ r.length = index.length := by
  unfold map_dims at h
  split at h
  · cases h
  · generalize List.range sub.length = l at h
    induction l generalizing index with
    | nil =>
      obtain rfl : index = r := Except.ok.inj h
      exact ⟨h2, rfl⟩
    | cons i l ih =>
      rw [List.foldlM_cons] at h
      split at h
      · have := ih (index := index.set (map.getD i 0) (sub.getD i 0))
          (fun d => getD_set_le h2 (h1 i) d) h
        rw [List.length_set] at this
        exact this
      · cases h

theorem getD_map_le {l : List Nat} {f : Nat → Nat} {M : Nat} (h : ∀ d, f d ≤ M) (d : Nat) :
    (l.map f).getD d 0 ≤ M := by
  rw [List.getD_eq_getElem?_getD, List.getElem?_map]
  cases l[d]? with
  | none => exact Nat.zero_le _
  | some x => exact h x

/-- The numbers of blocks of a policy do not wrap around for extents up to `e`. -/
def Fits (dim : Nat) : List (List Nat × List Bool) → (Nat → Nat) → Prop
  | [], _ => True
  | [(s, _)], _ => ∀ d, s.getD d 0 < 2 ^ 31
  | (b, f) :: c :: rest, e => (∀ d, b.getD d 0 < 2 ^ 31) ∧ (∀ d, d < dim → 0 < b.getD d 0) ∧
    (((List.range dim).filter fun d => f.getD d false).map (width e b)).prod < 2 ^ 64 ∧
    (((List.range dim).filter fun d => !f.getD d false).map (width e b)).prod < 2 ^ 64 ∧
    Fits dim (c :: rest) (b.getD · 0)

theorem iterateRev_eq {dim : Nat} : ∀ (cfg : List (List Nat × List Bool)) (mn mx : List Nat)
    (e : Nat → Nat) (M : Nat), Fits dim cfg e → M + cfg.length * 2 ^ 31 < 2 ^ 53 →
    (∀ d, mn.getD d 0 ≤ M) → (∀ d, mx.getD d 0 ≤ M) →
    (∀ d, d < dim → mn.getD d 0 ≤ mx.getD d 0 ∧ mx.getD d 0 - mn.getD d 0 ≤ e d) →
    iterateRev dim cfg mn mx = Verif.IndexIterator.iterateRev dim cfg mn mx
  | [], _, _, _, _, _, _, _, _, _ => rfl
  | [(s, f)], mn, mx, e, M, h, hM, h1, h2, h3 => by
    rw [iterateRev, Verif.IndexIterator.iterateRev, Verif.IndexIterator.iterateRevBy]
    rw [loop_nest_eq (fun d => by
      have := h d
      have := h2 d
      rw [List.length_singleton] at hM
      omega)]
  | (b, f) :: c :: rest, mn, mx, e, M, h, hM, h1, h2, h3 => by
    obtain ⟨hb1, hb2, hp, hp', hr⟩ := h
    rw [List.length_cons] at hM
    have hl : 2 ^ 31 ≤ (c :: rest).length * 2 ^ 31 := by rw [List.length_cons]; omega
    have ec : ∀ p : Nat → Bool, (((List.range dim).filter p).map (width e b)).prod < 2 ^ 64 →
        blockCounts mn mx b ((List.range dim).filter p) =
        Verif.IndexIterator.blockCounts mn mx b ((List.range dim).filter p) := fun p hp =>
      blockCounts_eq (e := e) _ _ (fun d hd => by
        have hd := List.mem_range.1 (List.mem_filter.1 hd).1
        have q3 := h3 d hd
        have q2 := h2 d
        have q1 := hb1 d
        exact ⟨q3.1, q3.2, by omega, hb2 d hd, by omega⟩) (by
          rw [Nat.one_mul]
          exact hp)
    have ei : ∀ n, ∀ ds : List Nat, iter (ds.map fun d => mn.getD d 0) (ds.map fun d => mx.getD d 0)
        (ds.map fun d => b.getD d 0) n = Verif.IndexIterator.iter (ds.map fun d => mn.getD d 0)
        (ds.map fun d => mx.getD d 0) (ds.map fun d => b.getD d 0) n := fun n ds =>
      iter_eq (M := M) (getD_map_le h1) (getD_map_le h2) (fun d _ => by
        have := getD_map_le (l := ds) (f := fun d => b.getD d 0) (M := 2 ^ 31)
          (fun d => Nat.le_of_lt (hb1 d)) d
        omega) n
    rw [iterateRev, Verif.IndexIterator.iterateRev, Verif.IndexIterator.iterateRevBy]
    split
    · rfl
    split
    · rfl
    split
    · rfl
    dsimp only
    rw [ec _ hp, ec _ hp']
    generalize Verif.IndexIterator.blockCounts mn mx b
      ((List.range dim).filter fun d => f.getD d false) = c1
    generalize Verif.IndexIterator.blockCounts mn mx b
      ((List.range dim).filter fun d => !f.getD d false) = c2
    rcases c1 with e1 | c1
    · rfl
    rcases c2 with e2 | c2
    · rfl
    refine congrArg Calls.par (List.map_congr_left fun n _ => ?_)
    rw [ei]
    have hit : ∀ d, (Verif.IndexIterator.iter
        (((List.range dim).filter fun d => f.getD d false).map fun d => mn.getD d 0)
        (((List.range dim).filter fun d => f.getD d false).map fun d => mx.getD d 0)
        (((List.range dim).filter fun d => f.getD d false).map fun d => b.getD d 0) n).getD d 0 ≤ M :=
      iter_le (getD_map_le h1) (getD_map_le h2) n
    generalize Verif.IndexIterator.iter
        (((List.range dim).filter fun d => f.getD d false).map fun d => mn.getD d 0)
        (((List.range dim).filter fun d => f.getD d false).map fun d => mx.getD d 0)
        (((List.range dim).filter fun d => f.getD d false).map fun d => b.getD d 0) n = pidx at hit ⊢
    cases e1 : map_dims pidx ((List.range dim).filter fun d => f.getD d false) mn with
    | error e => rfl
    | ok r1 =>
    cases e2 : map_dims pidx ((List.range dim).filter fun d => f.getD d false) mx with
    | error e => rfl
    | ok r2 =>
    have q1 := map_dims_le hit h1 e1
    have q2 := map_dims_le hit h2 e2
    dsimp only
    split
    · rfl
    · refine congrArg Calls.seq (List.map_congr_left fun n' _ => ?_)
      rw [iter_eq (M := M) q1.1 q2.1 (fun d _ => by have := hb1 d; omega)]
      have q3 := iter_le (st := b) q1.1 q2.1 n'
      have e3 : (fun d => u64 ((Verif.IndexIterator.iter r1 r2 b n').getD d 0 + b.getD d 0)) =
          fun d => (Verif.IndexIterator.iter r1 r2 b n').getD d 0 + b.getD d 0 := by
        funext d
        have := q3 d
        have := hb1 d
        exact u64_eq (by omega)
      rw [e3]
      refine iterateRev_eq (c :: rest) _ _ (b.getD · 0) (M + 2 ^ 31) hr (by omega)
        (fun d => by have := q3 d; omega) (getD_map_le fun d => ?_) (fun d hd => ?_)
      · have := q3 d
        have := hb1 d
        omega
      · rw [Verif.IndexIterator.getD_map_range _ _ _ hd]
        omega

end IndexIterator

/-! ### looped.hpp -/

namespace Looped
open _root_.Verif.Size64.IndexIterator
open Verif.Looped (corner inBlock pts)

theorem u64_mul_left (a b : Nat) : u64 (u64 a * b) = u64 (a * b) := by
  unfold u64
  rw [Nat.mod_mul_mod]

theorem count_three (a b c x y z p q r : Nat) :
    inner_index_count [a, b, c] [x, y, z] [p, q, r] =
      if p = 0 then .error .divZero else if q = 0 then .error .divZero
      else if r = 0 then .error .divZero
      else .ok (u64 (usub x a / p * (usub y b / q) * (usub z c / r))) := by
  unfold inner_index_count
  simp only [List.length_cons, List.length_nil, Nat.zero_add, Nat.reduceAdd]
  rw [show List.range 3 = [0, 1, 2] from rfl]
  by_cases hp : p = 0
  · simp [hp]
  · by_cases hq : q = 0
    · simp [hp, hq]
    · by_cases hr : r = 0
      · simp [hp, hq, hr]
      · simp only [List.foldlM_cons, List.foldlM_nil, List.getD_cons_zero, List.getD_cons_succ,
          hp, hq, hr, if_false, Nat.one_mul]
        simp
        rw [u64_mul_left, Nat.mul_assoc, u64_mul_left, Nat.mul_assoc]

/-- The indices visited, with numbers of blocks and of indices modulo 2^64. -/
def pts64 (N br bi : Nat) : List (List Nat) :=
  (List.range (u64 (N / br * (N / br) * (N / bi)))).flatMap fun n =>
    (List.range (u64 (br * br * bi))).map fun m =>
      Verif.IndexIterator.iter (corner N br bi n) [(corner N br bi n).getD 0 0 + br,
        (corner N br bi n).getD 1 0 + br, (corner N br bi n).getD 2 0 + bi] [1, 1, 1] m

theorem getD3_le {a b c M : Nat} (ha : a ≤ M) (hb : b ≤ M) (hc : c ≤ M) (d : Nat) :
    [a, b, c].getD d 0 ≤ M := by
  rcases d with _ | _ | _ | d
  · exact ha
  · exact hb
  · exact hc
  · exact Nat.zero_le _

theorem body_eq {N : Nat} (hN : N < 2 ^ 31) (A B : Array α) {p : List Nat}
    (hp : ∀ d, p.getD d 0 ≤ 2 ^ 32) (C : Array α) : body N A B p C = Verif.Looped.body N A B p C := by
  unfold body Verif.Looped.body
  dsimp only
  have h0 := hp 0
  have h1 := hp 1
  have h2 := hp 2
  rw [u64_idx (by omega) hN (by omega), u64_idx (by omega) hN (by omega),
    u64_idx (by omega) hN (by omega)]

theorem mm_eq {N : Nat} {A B : Array α} {br bi : Nat} (hN : N < 2 ^ 31) (hbr : 0 < br) (hbi : 0 < bi)
    (hr : br < 2 ^ 31) (hi : bi < 2 ^ 31) :
    matrix_multiply N A B br bi =
      (pts64 N br bi).foldlM (fun C p => Verif.Looped.body N A B p C) (zeros (N * N)) := by
  have : matrix_multiply N A B br bi =
      iterateRev (body N A B) [[br, br, bi], [1, 1, 1]] [0, 0, 0] [N, N, N] (zeros (u64 (N * N))) := rfl
  rw [this, iterateRev, if_neg (by simp), count_three, if_neg (by omega), if_neg (by omega),
    if_neg (by omega), M_bind_ok, if_neg (by simp), pts64, Verif.Looped.foldlM_flatMap,
    u64_mul (by omega) hN]
  simp only [usub, Nat.zero_le, if_true, Nat.sub_zero]
  congr 1
  funext s n
  have hc : iter [0, 0, 0] [N, N, N] [br, br, bi] n = corner N br bi n :=
    iter_eq (M := 2 ^ 31) (getD3_le (by omega) (by omega) (by omega))
      (getD3_le (by omega) (by omega) (by omega))
      (fun d _ => by
        have := getD3_le (a := br) (b := br) (c := bi) (M := 2 ^ 31) (by omega) (by omega) (by omega) d
        omega) n
  rw [hc]
  have hle : ∀ d, (corner N br bi n).getD d 0 ≤ N :=
    iter_le (getD3_le (by omega) (by omega) (by omega)) (getD3_le (by omega) (by omega) (by omega)) n
  have h3 := Verif.Looped.iter_length [0, 0, 0] [N, N, N] [br, br, bi] n
  change (corner N br bi n).length = 3 at h3
  generalize corner N br bi n = cur at h3 hle
  match cur, h3 with
  | [x, y, k], _ =>
    have hx : x ≤ N := hle 0
    have hy : y ≤ N := hle 1
    have hk : k ≤ N := hle 2
    rw [show (List.range [0, 0, 0].length).map
      (fun d => u64 ([x, y, k].getD d 0 + [br, br, bi].getD d 0)) =
        [u64 (x + br), u64 (y + br), u64 (k + bi)] from rfl]
    rw [u64_eq (x := x + br) (by omega), u64_eq (x := y + br) (by omega),
      u64_eq (x := k + bi) (by omega)]
    rw [iterateRev]
    rw [if_neg (by simp), count_three, if_neg (by decide), if_neg (by decide), if_neg (by decide),
      M_bind_ok, if_neg (by simp), List.foldlM_map]
    simp only [usub, Nat.le_add_right, if_true, Nat.add_sub_cancel_left, Nat.div_one]
    congr 1
    funext s m
    have q1 : ∀ d, [x, y, k].getD d 0 ≤ 2 ^ 32 := getD3_le (by omega) (by omega) (by omega)
    have q2 : ∀ d, [x + br, y + br, k + bi].getD d 0 ≤ 2 ^ 32 := getD3_le (by omega) (by omega) (by omega)
    rw [iter_eq (M := 2 ^ 32) q1 q2 (fun d _ => by
      have := getD3_le (a := 1) (b := 1) (c := 1) (M := 1) (by omega) (by omega) (by omega) d
      omega)]
    exact body_eq hN A B (iter_le q1 q2 m) s

theorem mm_divZero {N : Nat} {A B : Array α} {br bi : Nat} (h : br = 0 ∨ bi = 0) :
    matrix_multiply N A B br bi = .error .divZero := by
  have : matrix_multiply N A B br bi =
      iterateRev (body N A B) [[br, br, bi], [1, 1, 1]] [0, 0, 0] [N, N, N] (zeros (u64 (N * N))) := rfl
  rw [this, iterateRev, if_neg (by simp), count_three]
  rcases h with rfl | rfl
  · simp
  · by_cases hb : br = 0
    · simp [hb]
    · simp [hb]

/-- Both counts below 2^64: no difference. -/
theorem matrix_multiply_eq {N : Nat} (A B : Array α) {br bi : Nat} (hN : N < 2 ^ 31) (hr : br < 2 ^ 31)
    (hi : bi < 2 ^ 31) (h1 : N / br * (N / br) * (N / bi) < 2 ^ 64) (h2 : br * br * bi < 2 ^ 64) :
    matrix_multiply N A B br bi = Verif.Looped.matrix_multiply N A B br bi := by
  by_cases h : br = 0 ∨ bi = 0
  · rw [mm_divZero h, Verif.Looped.mm_divZero h]
  · rw [mm_eq hN (by omega) (by omega) hr hi, Verif.Looped.mm_eq (by omega) (by omega)]
    unfold pts64 pts inBlock
    rw [u64_eq h1, u64_eq h2]

/-- One of the counts is a multiple of 2^64: nothing is computed. -/
theorem matrix_multiply_zero {N : Nat} (A B : Array α) {br bi : Nat} (hN : N < 2 ^ 31) (hbr : 0 < br)
    (hbi : 0 < bi) (hr : br < 2 ^ 31) (hi : bi < 2 ^ 31)
    (h : 2 ^ 64 ∣ N / br * (N / br) * (N / bi) ∨ 2 ^ 64 ∣ br * br * bi) :
    matrix_multiply N A B br bi = .ok (zeros (N * N)) := by
  rw [mm_eq hN hbr hbi hr hi]
  have : pts64 N br bi = [] := by
    unfold pts64
    rcases h with h | h
    · have : u64 (N / br * (N / br) * (N / bi)) = 0 := Nat.mod_eq_zero_of_dvd h
      rw [this]
      rfl
    · have : u64 (br * br * bi) = 0 := Nat.mod_eq_zero_of_dvd h
      rw [this]
      exact List.flatMap_eq_nil_iff.2 fun _ _ => rfl
  rw [this]
  rfl

end Looped

/-! ### algorithms.hpp -/

namespace Algorithms
open _root_.Verif.Size64.IndexIterator

theorem index_iterator_eq {br : Nat} (h : 0 < br) {n : Nat} (hn : n ≤ 2 ^ 62) :
    index_iterator br n = (n / br, n % br) := by
  rw [← Verif.Algorithms.index_iterator_eq h]
  induction n with
  | zero => rfl
  | succ n ih =>
    rw [index_iterator, Verif.Algorithms.index_iterator, ih (by omega),
      Verif.Algorithms.index_iterator_eq h]
    dsimp only
    have h1 := Nat.div_le_self n br
    have h2 := Nat.mod_le n br
    rw [u64_eq (by omega), u64_eq (by omega)]

theorem loadSmall_eq {N x kb br bi : Nat} (hN : N < 2 ^ 31) (hb : br < 2 ^ 31) (hi : bi < 2 ^ 31)
    (hx : x < 2 ^ 32) (hk : kb < 2 ^ 31) (src small : Array α) :
    loadSmall src N x kb br bi small = Verif.Algorithms.loadSmall src N x kb br bi small := by
  refine forStep_congr (fun i hi s => forStep_congr (fun j hj s => ?_) _) _
  rw [u64_idx2 (by omega) hN (by omega), u64_idx (by omega) (by omega) (by omega)]

theorem inner_product_eq {bi x y : Nat} (hi : bi < 2 ^ 31) (hx : x < 2 ^ 31) (hy : y < 2 ^ 31)
    (As Bs : Array α) : inner_product As Bs bi x y = Verif.Algorithms.inner_product As Bs bi x y := by
  unfold inner_product Verif.Algorithms.inner_product
  dsimp only
  rw [u64_mul (by omega) hi, u64_mul (by omega) hi, u64_mul (by omega) hi]
  have : usub ((x + 1) * bi) (x * bi) = bi := by
    rw [Nat.add_mul, Nat.one_mul]
    unfold usub
    rw [if_pos (by omega)]
    omega
  rw [this]

theorem foldlM_congr {σ : Type} {l : List Nat} {f g : σ → Nat → M σ} (h : ∀ n ∈ l, ∀ s, f s n = g s n)
    (s : σ) : l.foldlM f s = l.foldlM g s := by
  induction l generalizing s with
  | nil => rfl
  | cons n l ih =>
    rw [List.foldlM_cons, List.foldlM_cons, h n (by simp)]
    congr 1
    funext s'
    exact ih (fun m hm => h m (by simp [hm])) s'

theorem multSmall_eq {br bi : Nat} (h0 : 0 < br) (hb : br < 2 ^ 31) (hi : bi < 2 ^ 31)
    (As Bs C : Array α) : multSmall As Bs br bi C = Verif.Algorithms.multSmall As Bs br bi C := by
  unfold multSmall Verif.Algorithms.multSmall
  rw [u64_mul (by omega) hb]
  refine foldlM_congr (fun n hn s => ?_) C
  have hn := List.mem_range.1 hn
  have hs := mul_lt62 hb hb
  rw [index_iterator_eq h0 (by omega), Verif.Algorithms.index_iterator_eq h0]
  dsimp only
  have h1 : n / br < br := Nat.div_lt_of_lt_mul hn
  have h2 : n % br < br := Nat.mod_lt _ h0
  rw [inner_product_eq hi (by omega) (by omega)]

theorem block_eq {N br bi ox oy : Nat} (hN : N < 2 ^ 31) (h0 : 0 < br) (hb : br < 2 ^ 31)
    (hi : bi < 2 ^ 31) (hx : ox < 2 ^ 32) (hy : oy < 2 ^ 32) (A B : Array α) :
    block N A B bi br ox oy = Verif.Algorithms.block N A B bi br ox oy := by
  have hp : ∀ k, k < N → ∀ s : Array α × Array α × Array α, (do
      let A_small ← loadSmall A N ox k br bi s.2.1
      let B_small ← loadSmall B N oy k br bi s.2.2
      let C_inner ← multSmall A_small B_small br bi s.1
      pure (C_inner, A_small, B_small) : M _) = (do
      let A_small ← Verif.Algorithms.loadSmall A N ox k br bi s.2.1
      let B_small ← Verif.Algorithms.loadSmall B N oy k br bi s.2.2
      let C_inner ← Verif.Algorithms.multSmall A_small B_small br bi s.1
      pure (C_inner, A_small, B_small) : M _) := by
    intro k hk s
    rw [loadSmall_eq hN hb hi hx (by omega)]
    congr 1
    funext As'
    rw [loadSmall_eq hN hb hi hy (by omega)]
    congr 1
    funext Bs'
    rw [multSmall_eq h0 hb hi]
  rcases Nat.eq_zero_or_pos bi with rfl | h1
  · rcases Nat.eq_zero_or_pos N with rfl | h2
    · unfold block Verif.Algorithms.block
      rw [u64_mul (by omega) hb, u64_mul (by omega) hb]
      rfl
    · rw [Verif.Algorithms.block_zero h2 h0]
      unfold block for64
      rw [u64_mul (by omega) hb, u64_mul (by omega) hb]
      have := forGo64_diverge (P := fun s : Array α × Array α × Array α => s.1.size = br * br)
        (cur := 0) (f := fun k_block s => do
          let A_small ← loadSmall A N ox k_block br 0 s.2.1
          let B_small ← loadSmall B N oy k_block br 0 s.2.2
          let C_inner ← multSmall A_small B_small br 0 s.1
          pure (C_inner, A_small, B_small)) h2 (by decide) (fun s hs => by
          obtain ⟨s', e, hs'⟩ := Verif.Algorithms.pass_zero (N := N) (A := A) (B := B) (ox := ox)
            (oy := oy) h0 0 s hs
          exact ⟨s', (hp 0 h2 s).trans e, hs'⟩) (2 ^ 64)
        (zeros (br * br), zeros (0 * br), zeros (0 * br)) (by simp)
      refine (congrArg (fun x => x >>= fun (s : Array α × Array α × Array α) => (pure s.1 : M _)) this)
  · unfold block Verif.Algorithms.block
    rw [u64_mul (by omega) hb, u64_mul (by omega) hb, for64_eq h1 (by omega) fun k _ hk s => ?_]
    exact hp k hk s

theorem task_eq {N br bi : Nat} (hN : N < 2 ^ 31) (h0 : 0 < br) (hb : br < 2 ^ 31)
    (hi : bi < 2 ^ 31) (A B : Array α) {p : List Nat} (hx : p.getD 0 0 * br < 2 ^ 32)
    (hy : p.getD 1 0 * br < 2 ^ 32) : task N A B bi br p = Verif.Algorithms.task N A B bi br p := by
  unfold task Verif.Algorithms.task
  dsimp only
  rw [u64_eq (by omega), u64_eq (x := p.getD 1 0 * br) (by omega), block_eq hN h0 hb hi hx hy,
    u64_mul (by omega) hN]
  congr 1
  funext C
  refine forStep_congr (fun i hi s => forStep_congr (fun j hj s => ?_) _) _
  rw [u64_idx (by omega) (by omega) (by omega), u64_idx (by omega) hN (by omega)]

theorem tree_eq {N br bi : Nat} (hN : N < 2 ^ 31) (h0 : 0 < br) (hb : br < 2 ^ 31)
    (hi : bi < 2 ^ 31) (A B : Array α) : tree N A B bi br = Verif.Algorithms.tree N A B bi br := by
  have hd := Nat.div_le_self N br
  have hrb : result_blocks N br = Verif.Algorithms.result_blocks N br := by
    refine u64_eq ?_
    split <;> omega
  have hle : Verif.Algorithms.result_blocks N br ≤ N / br + 1 := by
    unfold Verif.Algorithms.result_blocks
    split <;> omega
  unfold tree Verif.Algorithms.tree
  rw [hrb]
  dsimp only
  generalize Verif.Algorithms.result_blocks N br = rb at hle
  have hsq : rb * rb ≤ 2 ^ 31 * 2 ^ 31 := Nat.mul_le_mul (by omega) (by omega)
  rw [u64_eq (by omega)]
  refine congrArg Tree.par (List.map_congr_left fun n _ => congrArg Tree.act ?_)
  have g : ∀ a b M : Nat, a ≤ M → b ≤ M → ∀ d, [a, b].getD d 0 ≤ M := by
    intro a b M ha hb d
    rcases d with _ | _ | d
    · exact ha
    · exact hb
    · exact Nat.zero_le _
  rw [iter_eq (M := rb) (g _ _ _ (by omega) (by omega)) (g _ _ _ (by omega) (by omega)) (fun d _ => by
    have := g 1 1 1 (by omega) (by omega) d
    omega)]
  have hit := iter_le (st := [1, 1]) (g 0 0 rb (by omega) (by omega)) (g rb rb rb (by omega) (by omega)) n
  have hc : ∀ d, (Verif.IndexIterator.iter [0, 0] [rb, rb] [1, 1] n).getD d 0 * br < 2 ^ 32 := by
    intro d
    have h2 := Nat.mul_le_mul_right br ((hit d).trans hle)
    have h3 := Nat.div_mul_le_self N br
    rw [Nat.add_mul, Nat.one_mul] at h2
    omega
  exact task_eq hN h0 hb hi A B (hc 0) (hc 1)

theorem matrix_multiply_eq {N br bi : Nat} (hN : N < 2 ^ 31) (hb : br < 2 ^ 31)
    (hi : bi < 2 ^ 31) (A B : Array α) :
    matrix_multiply N A B bi br = Verif.Algorithms.matrix_multiply N A B bi br := by
  unfold matrix_multiply Verif.Algorithms.matrix_multiply
  split
  · rfl
  · rw [u64_mul (by omega) hN, tree_eq hN (by omega) hb hi]

end Algorithms

/-! ### semi.cpp -/

namespace Semi
open _root_.Verif.Size64.IndexIterator
open Verif.IndexIterator (Policy loop_nest_spec)
open Verif.Kernel (Acc8 macAt)

theorem getD2_le {a b M : Nat} (ha : a ≤ M) (hb : b ≤ M) (d : Nat) : [a, b].getD d 0 ≤ M := by
  rcases d with _ | _ | d
  · exact ha
  · exact hb
  · exact Nat.zero_le _

theorem copy_eq {N : Nat} (hN : N < 2 ^ 31) {pol : Policy} (hp : Policy.new 2 = .ok pol) (src : Array α) :
    copy N pol src = Verif.Semi.copy N pol src := by
  obtain rfl := Except.ok.inj hp
  unfold copy Verif.Semi.copy
  rw [u64_mul (by omega) hN]
  congr 1
  have e : iterate_indices 2 ⟨2, [([1, 1], [false, false])]⟩ [0, 0] [N, N] =
      Verif.IndexIterator.iterate_indices 2 ⟨2, [([1, 1], [false, false])]⟩ [0, 0] [N, N] := by
    refine iterateRev_eq _ _ _ (fun _ => 2 ^ 31) (2 ^ 31) ?_ (by decide)
      (getD2_le (by omega) (by omega)) (getD2_le (by omega) (by omega)) ?_
    · exact fun d => Nat.lt_of_le_of_lt (getD2_le (M := 1) (by omega) (by omega) d) (by decide)
    · intro d hd
      match d, hd with
      | 0, _ => exact ⟨Nat.zero_le _, Nat.le_of_lt hN⟩
      | 1, _ => exact ⟨Nat.zero_le _, Nat.le_of_lt hN⟩
  refine (congrArg (Verif.IndexIterator.Calls.toTree _) e).trans (toTree_congr _ fun p hp => ?_)
  obtain ⟨-, -, hm⟩ := loop_nest_spec (R := fun _ _ => False) (dim := 2) (mn := [0, 0])
    (mx := [N, N]) (st := [1, 1]) (by decide) rfl rfl
  obtain ⟨-, h⟩ := (hm p).1 hp
  obtain ⟨_, -, h0⟩ := h 0 (by decide)
  obtain ⟨_, -, h1⟩ := h 1 (by decide)
  change p.getD 0 0 < N at h0
  change p.getD 1 0 < N at h1
  dsimp only
  rw [u64_idx (by omega) hN (by omega)]

theorem inner8_eq {N bi x y k : Nat} (hN : N < 2 ^ 31) (hi : bi < 2 ^ 31) (hx : x < N) (hy : y < N)
    (hk : k < N) (A B : Array α) : inner8 N A B bi x y k = Verif.Semi.inner8 N A B bi x y k := by
  unfold inner8 Verif.Semi.inner8
  dsimp only
  refine forStep_congr (fun l hl s => ?_) _
  have h : ∀ d, d < 4 → ∀ x, x < N → u64 ((x + d) * N + k + l) = (x + d) * N + k + l := fun d hd x hx =>
    u64_idx2 (by omega) hN (by omega)
  simp only [h 0 (by decide) _ hx, h 1 (by decide) _ hx, h 2 (by decide) _ hx, h 3 (by decide) _ hx,
    h 0 (by decide) _ hy, h 1 (by decide) _ hy]

theorem body_eq {N bi : Nat} (hN : N < 2 ^ 31) (hi : bi < 2 ^ 31) {p : List Nat} (hx : p.getD 0 0 < N)
    (hy : p.getD 1 0 < N) (hk : p.getD 2 0 < N) (A B : Array α) :
    body N A B bi p = Verif.Semi.body N A B bi p := by
  unfold body Verif.Semi.body
  dsimp only
  rw [inner8_eq hN hi hx hy hk]
  have hsq : u64 (N * N) = N * N := u64_mul (by omega) hN
  have h : ∀ d, d < 4 → ∀ d', d' < 4 → u64 ((p.getD 0 0 + d) * N + (p.getD 1 0 + d')) =
      (p.getD 0 0 + d) * N + (p.getD 1 0 + d') := fun d hd d' hd' =>
    u64_idx (by omega) hN (by omega)
  simp only [h 0 (by decide) 0 (by decide), h 0 (by decide) 1 (by decide), h 1 (by decide) 0 (by decide),
    h 1 (by decide) 1 (by decide), h 2 (by decide) 0 (by decide), h 2 (by decide) 1 (by decide),
    h 3 (by decide) 0 (by decide), h 3 (by decide) 1 (by decide), hsq]

theorem tree_eq {N bi : Nat} (hN : N < 2 ^ 31) (hi : bi < 2 ^ 31) (A B : Array α) :
    tree N A B bi ⟨3, [([4, 2, bi], [false, false, false])]⟩ =
      Verif.Semi.tree N A B bi ⟨3, [([4, 2, bi], [false, false, false])]⟩ := by
  unfold tree Verif.Semi.tree
  have e : iterate_indices 3 ⟨3, [([4, 2, bi], [false, false, false])]⟩ [0, 0, 0] [N, N, N] =
      Verif.IndexIterator.iterate_indices 3 ⟨3, [([4, 2, bi], [false, false, false])]⟩
        [0, 0, 0] [N, N, N] := by
    refine iterateRev_eq _ _ _ (fun _ => 2 ^ 31) (2 ^ 31) ?_ (show 2 ^ 31 + 1 * 2 ^ 31 < 2 ^ 53 by decide)
      (Looped.getD3_le (by omega) (by omega) (by omega))
      (Looped.getD3_le (by omega) (by omega) (by omega)) ?_
    · exact fun d => Nat.lt_of_le_of_lt (Looped.getD3_le (M := 2 ^ 31 - 1)
        (by omega) (by omega) (by omega) d) (by decide)
    · intro d hd
      match d, hd with
      | 0, _ => exact ⟨Nat.zero_le _, Nat.le_of_lt hN⟩
      | 1, _ => exact ⟨Nat.zero_le _, Nat.le_of_lt hN⟩
      | 2, _ => exact ⟨Nat.zero_le _, Nat.le_of_lt hN⟩
  refine (congrArg (Verif.IndexIterator.Calls.toTree _) e).trans (toTree_congr _ fun p hp => ?_)
  obtain ⟨q, rfl, h⟩ := execute_looped_lt [0, 0, 0] [N, N, N] [4, 2, bi] 3 0 [] p hp
  have g0 := h 0 (by decide)
  have g1 := h 1 (by decide)
  have g2 := h 2 (by decide)
  exact body_eq hN hi g0 g1 g2 A B

theorem matrix_multiply_eq {N bi : Nat} (hN : N < 2 ^ 31) (hi : bi < 2 ^ 31)
    (A B : Array α) : matrix_multiply N A B bi = Verif.Semi.matrix_multiply N A B bi := by
  unfold matrix_multiply Verif.Semi.matrix_multiply
  have hp : Policy.new 2 = .ok ⟨2, [([1, 1], [false, false])]⟩ := rfl
  have hp3 : Verif.Semi.policy bi = .ok ⟨3, [([4, 2, bi], [false, false, false])]⟩ := rfl
  refine StaticImproved.nd_bind_congr fun pol hpol => ?_
  obtain rfl : pol = ⟨2, [([1, 1], [false, false])]⟩ := by
    have := hpol
    rw [hp] at this
    exact (Except.ok.inj this)
  simp only [copy_eq hN hp]
  congr 1
  funext Ac
  congr 1
  funext Bc
  refine StaticImproved.nd_bind_congr fun pol hpol => ?_
  obtain rfl : pol = ⟨3, [([4, 2, bi], [false, false, false])]⟩ := by
    have := hpol
    rw [hp3] at this
    exact (Except.ok.inj this)
  rw [u64_mul (Nat.le_of_lt (by omega)) hN]
  congr 1
  exact congrArg _ (tree_eq hN hi Ac Bc)

end Semi
end Verif.Size64
