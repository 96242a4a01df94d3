import Verif.SpecPlan
import Verif.SpecTiled
import Verif.Proof.Halving
/-
Formulas for the orders of summation.
-/
namespace Verif
namespace Plan
variable {α : Type} [Arith α]

/-- The products with the numbers `ks` added to `s`; the numbers from `N` on are padding. -/
def dotFrom (N : Nat) (s : Plan) (ks : List Nat) : Plan :=
  ks.foldl (fun s k => if k < N then mac s k else pad s) s

/-- `nb` blocks of length `bs` added to `s`. -/
def bdotFrom (N : Nat) (s : Plan) (bs nb : Nat) : Plan :=
  (List.range nb).foldl (fun s t => add s (dotFrom N zero ((List.range bs).map (t * bs + ·)))) s

/-- Blocks added `r` times. -/
def repeatDot (N r bs nb : Nat) : Plan := (fun s => bdotFrom N s bs nb)^[r] zero

/-- A vector of length `N` padded with zeros. -/
def padv (N : Nat) (f : Nat → α) (k : Nat) : α := if k < N then f k else Arith.zero

theorem eval_dotFrom (N : Nat) (f g : Nat → α) (ks : List Nat) (s : Plan) :
    (dotFrom N s ks).eval f g = Verif.dotFrom (s.eval f g) ks (padv N f) (padv N g) := by
  induction ks generalizing s with
  | nil => rfl
  | cons k ks ih =>
    show (dotFrom N (if k < N then mac s k else pad s) ks).eval f g = _
    rw [ih]
    show _ = Verif.dotFrom (Arith.mac _ _ _) ks _ _
    congr 1
    unfold padv
    by_cases h : k < N
    · simp only [if_pos h]; rfl
    · simp only [if_neg h]; rfl

theorem eval_bdotFrom (N : Nat) (f g : Nat → α) (bs nb : Nat) (s : Plan) :
    (bdotFrom N s bs nb).eval f g = Verif.bdotFrom (s.eval f g) bs nb (padv N f) (padv N g) := by
  unfold bdotFrom Verif.bdotFrom
  generalize List.range nb = ts
  induction ts generalizing s with
  | nil => rfl
  | cons t ts ih =>
    rw [List.foldl_cons, List.foldl_cons, ih]
    congr 1
    show Arith.add _ _ = _
    congr 1
    rw [eval_dotFrom]
    unfold Verif.dot Verif.dotFrom
    rw [List.foldl_map]
    rfl

theorem eval_repeatDot (N : Nat) (f g : Nat → α) (r bs nb : Nat) :
    (repeatDot N r bs nb).eval f g = Tiled.repeatDot r bs nb (padv N f) (padv N g) := by
  unfold repeatDot Tiled.repeatDot
  induction r with
  | zero => rfl
  | succ r ih => rw [Function.iterate_succ_apply', Function.iterate_succ_apply', eval_bdotFrom, ih]

theorem terms_dotFrom (N : Nat) (ks : List Nat) (s : Plan) :
    (dotFrom N s ks).terms = s.terms ++ ks.filter (· < N) := by
  induction ks generalizing s with
  | nil => simp [dotFrom]
  | cons k ks ih =>
    show (dotFrom N (if k < N then mac s k else pad s) ks).terms = _
    rw [ih]
    by_cases h : k < N <;> simp [h, terms]

theorem pads_dotFrom (N : Nat) (ks : List Nat) (s : Plan) :
    (dotFrom N s ks).pads = s.pads + (ks.filter (N ≤ ·)).length := by
  induction ks generalizing s with
  | nil => simp [dotFrom]
  | cons k ks ih =>
    show (dotFrom N (if k < N then mac s k else pad s) ks).pads = _
    rw [ih]
    by_cases h : k < N
    · simp [h, pads]
    · simp [h, pads, Nat.not_lt.1 h]; omega

theorem adds_dotFrom (N : Nat) (ks : List Nat) (s : Plan) : (dotFrom N s ks).adds = s.adds := by
  induction ks generalizing s with
  | nil => rfl
  | cons k ks ih =>
    show (dotFrom N (if k < N then mac s k else pad s) ks).adds = _
    rw [ih]
    split <;> rfl

theorem bdotFrom_succ (N : Nat) (s : Plan) (bs nb : Nat) :
    bdotFrom N s bs (nb + 1) =
      add (bdotFrom N s bs nb) (dotFrom N zero ((List.range bs).map (nb * bs + ·))) := by
  unfold bdotFrom
  rw [List.range_succ, List.foldl_append]
  rfl

private theorem range_block (bs nb : Nat) :
    List.range ((nb + 1) * bs) = List.range (nb * bs) ++ (List.range bs).map (nb * bs + ·) := by
  rw [Nat.succ_mul, List.range_add]

theorem terms_bdotFrom (N : Nat) (s : Plan) (bs nb : Nat) :
    (bdotFrom N s bs nb).terms = s.terms ++ (List.range (nb * bs)).filter (· < N) := by
  induction nb with
  | zero => simp [bdotFrom]
  | succ nb ih =>
    rw [bdotFrom_succ, range_block, List.filter_append, ← List.append_assoc, ← ih]
    show _ ++ _ = _
    rw [terms_dotFrom]
    rfl

theorem pads_bdotFrom (N : Nat) (s : Plan) (bs nb : Nat) :
    (bdotFrom N s bs nb).pads = s.pads + ((List.range (nb * bs)).filter (N ≤ ·)).length := by
  induction nb with
  | zero => simp [bdotFrom]
  | succ nb ih =>
    rw [bdotFrom_succ, range_block, List.filter_append, List.length_append]
    show _ + _ = _
    rw [ih, pads_dotFrom]
    simp only [pads]
    omega

theorem adds_bdotFrom (N : Nat) (s : Plan) (bs nb : Nat) :
    (bdotFrom N s bs nb).adds = s.adds + nb := by
  induction nb with
  | zero => rfl
  | succ nb ih =>
    rw [bdotFrom_succ]
    show _ + _ + 1 = _
    rw [ih, adds_dotFrom]
    simp only [adds]
    omega

theorem count_filter_range (N m k : Nat) (h : N ≤ m) :
    ((List.range m).filter (· < N)).count k = if k < N then 1 else 0 := by
  by_cases hk : k < N
  · rw [if_pos hk, List.count_filter (by simpa using hk), List.count_range, if_pos (by omega)]
  · rw [if_neg hk, List.count_eq_zero]
    simp [hk]

theorem length_filter_range (N m : Nat) : ((List.range m).filter (N ≤ ·)).length = m - N := by
  induction m with
  | zero => simp
  | succ m ih =>
    rw [List.range_succ, List.filter_append, List.length_append, ih]
    by_cases h : N ≤ m <;> simp [h] <;> omega

/-! ### the three orders -/

theorem complete_dot (N : Nat) : (dotFrom N zero (List.range N)).Complete N 1 := by
  intro k
  rw [terms_dotFrom]
  exact count_filter_range N N k (Nat.le_refl _)

theorem pads_dot (N : Nat) : (dotFrom N zero (List.range N)).pads = 0 := by
  rw [pads_dotFrom, length_filter_range]
  simp [pads]

theorem complete_bdot {N bs nb : Nat} (h : N ≤ nb * bs) : (bdotFrom N zero bs nb).Complete N 1 := by
  intro k
  rw [terms_bdotFrom]
  exact count_filter_range N _ k h

theorem pads_bdot (N bs nb : Nat) : (bdotFrom N zero bs nb).pads = nb * bs - N := by
  rw [pads_bdotFrom, length_filter_range]
  simp [pads]

theorem adds_bdot (N bs nb : Nat) : (bdotFrom N zero bs nb).adds = nb := by
  rw [adds_bdotFrom]
  simp [adds]

theorem repeatDot_succ (N r bs nb : Nat) :
    repeatDot N (r + 1) bs nb = bdotFrom N (repeatDot N r bs nb) bs nb :=
  Function.iterate_succ_apply' _ _ _

theorem complete_repeat {N bs nb : Nat} (h : N ≤ nb * bs) (r : Nat) :
    (repeatDot N r bs nb).Complete N r := by
  induction r with
  | zero => intro k; simp [repeatDot, terms]
  | succ r ih =>
    intro k
    rw [repeatDot_succ, terms_bdotFrom, List.count_append, ih k, count_filter_range N _ k h]
    split <;> rfl

theorem pads_repeat (N bs nb r : Nat) : (repeatDot N r bs nb).pads = r * (nb * bs - N) := by
  induction r with
  | zero => simp [repeatDot, pads]
  | succ r ih => rw [repeatDot_succ, pads_bdotFrom, ih, length_filter_range, Nat.succ_mul]

theorem adds_repeat (N bs nb r : Nat) : (repeatDot N r bs nb).adds = r * nb := by
  induction r with
  | zero => simp [repeatDot, adds]
  | succ r ih => rw [repeatDot_succ, adds_bdotFrom, ih, Nat.succ_mul]

/-! ### values -/

theorem eval_dot (N : Nat) (f g : Nat → α) :
    (dotFrom N zero (List.range N)).eval f g = dot N f g := by
  rw [eval_dotFrom]
  unfold dot Verif.dotFrom
  refine foldl_congr' (fun k hk s => ?_) _
  rw [List.mem_range] at hk
  simp only [padv, if_pos hk]

theorem eval_bdot {N bs : Nat} (hd : bs ∣ N) (f g : Nat → α) :
    (bdotFrom N zero bs (N / bs)).eval f g = bdot bs (N / bs) f g := by
  rw [eval_bdotFrom]
  unfold bdot Verif.bdotFrom
  refine foldl_congr' (fun t ht s => ?_) _
  congr 1
  unfold dot Verif.dotFrom
  refine foldl_congr' (fun u hu s => ?_) _
  have hlt : t * bs + u < N / bs * bs := idx_lt (List.mem_range.1 ht) (List.mem_range.1 hu)
  rw [Nat.div_mul_cancel hd] at hlt
  simp only [padv, if_pos hlt]

theorem padv_row {N i : Nat} (a : Nat → Nat → α) (hi : i < N) :
    padv N (a i) = fun k => Tiled.pad N a i k := by
  funext k
  simp only [padv, Tiled.pad, hi, true_and]

theorem padv_col {N j : Nat} (b : Nat → Nat → α) (hj : j < N) :
    (padv N fun k => b k j) = fun k => Tiled.pad N b k j := by
  funext k
  simp only [padv, Tiled.pad, hj, and_true]

/-- A formula only looks at its terms. -/
theorem eval_congr {f f' g g' : Nat → α} (q : Plan) (h : ∀ k ∈ q.terms, f k = f' k ∧ g k = g' k) :
    q.eval f g = q.eval f' g' := by
  induction q with
  | zero => rfl
  | mac s k ih =>
    simp only [terms, List.mem_append, List.mem_singleton] at h
    simp only [eval]
    rw [ih fun k hk => h k (.inl hk), (h k (.inr rfl)).1, (h k (.inr rfl)).2]
  | pad s ih => simp only [eval]; rw [ih h]
  | add s t ihs iht =>
    simp only [terms, List.mem_append] at h
    simp only [eval]
    rw [ihs fun k hk => h k (.inl hk), iht fun k hk => h k (.inr hk)]

theorem Complete.mem {N r : Nat} {q : Plan} (h : q.Complete N r) {k : Nat} (hk : k ∈ q.terms) :
    k < N := by
  have := h k
  by_contra hc
  rw [if_neg hc] at this
  exact List.count_eq_zero.1 this hk

theorem Complete.all {N r : Nat} {q : Plan} (h : q.Complete N r) (hr : 0 < r) {k : Nat} (hk : k < N) :
    k ∈ q.terms := by
  have := h k
  rw [if_pos hk] at this
  exact List.count_pos_iff.1 (by omega)

/-- A quantity preserved by all operations is taken over from the products to the sum. -/
theorem eval_bad {f g : Nat → α} (bad : α → Prop) (hadd : ∀ x y, bad x ∨ bad y → bad (Arith.add x y))
    (hmac : ∀ c x y, bad c → bad (Arith.mac c x y)) (q : Plan) (k : Nat) (hk : k ∈ q.terms)
    (hb : ∀ c, bad (Arith.mac c (f k) (g k))) : bad (q.eval f g) := by
  induction q with
  | zero => simp [terms] at hk
  | mac s k' ih =>
    simp only [terms, List.mem_append, List.mem_singleton] at hk
    rcases hk with hk | rfl
    · exact hmac _ _ _ (ih hk)
    · exact hb _
  | pad s ih => exact hmac _ _ _ (ih hk)
  | add s t ihs iht =>
    simp only [terms, List.mem_append] at hk
    rcases hk with hk | hk
    · exact hadd _ _ (.inl (ihs hk))
    · exact hadd _ _ (.inr (iht hk))

end Plan
end Verif
