import Verif.Proof.IndexIterator
import Verif.Proof.Calls
import Mathlib.Tactic.Ring
/-
Helper lemmas about blocked index iteration.
-/
set_option linter.unusedSectionVars false
namespace Verif.IndexIterator

/-- A point has coordinates `min + t * step`, `t < cnt`, in each dimension. -/
abbrev InG (ds : List Dim) (p : List Nat) : Prop :=
  List.Forall₂ (fun (d : Dim) x => ∃ t, t < cnt d ∧ x = d.1 + t * d.2.2) ds p

/-- Later positions are at least one step further in the highest dimension that differs. -/
theorem pos_gap (ds : List Dim) (n m : Nat) (hnm : n < m) (hm : m < total ds) :
    ∃ d, d < ds.length ∧ (pos ds n).getD d 0 + (ds.getD d (0, 0, 0)).2.2 ≤ (pos ds m).getD d 0 ∧
      ∀ e, d < e → (pos ds n).getD e 0 = (pos ds m).getD e 0 := by
  induction ds generalizing n m with
  | nil => rw [total] at hm; omega
  | cons d ds ih =>
    rw [total] at hm
    have hc := cnt_pos d
    have hd : m / cnt d < total ds := (Nat.div_lt_iff_lt_mul hc).2 (by rw [Nat.mul_comm]; exact hm)
    rw [pos, pos]
    rcases Nat.lt_or_ge (n / cnt d) (m / cnt d) with h | h
    · obtain ⟨e, he, h1, h2⟩ := ih _ _ h hd
      refine ⟨e + 1, by simpa using he, by simpa using h1, fun e' he' => ?_⟩
      cases e' with
      | zero => omega
      | succ e' => simpa using h2 e' (by omega)
    · have he : n / cnt d = m / cnt d := Nat.le_antisymm (Nat.div_le_div_right (by omega)) h
      have h1 := Nat.div_add_mod n (cnt d)
      have h2 := Nat.div_add_mod m (cnt d)
      rw [he] at h1
      refine ⟨0, by simp, ?_, fun e' he' => ?_⟩
      · have : (n % cnt d + 1) * d.2.2 ≤ m % cnt d * d.2.2 := Nat.mul_le_mul_right _ (by omega)
        rw [Nat.succ_mul] at this
        simp only [List.getD_cons_zero]
        omega
      · cases e' with
        | zero => omega
        | succ e' => simp only [List.getD_cons_succ]; rw [he]

/-! ### The parallel and the serial dimensions -/

/-- The parallel dimensions. -/
def redDs (fs : List (Dim × Bool)) : List Dim := (fs.filter (·.2)).map (·.1)

/-- The dimensions of the serial iteration: parallel ones are fixed. -/
def serDs : List (Dim × Bool) → List Nat → List Dim
  | [], _ => []
  | (d, true) :: fs, x => (x.headD 0, x.headD 0, d.2.2) :: serDs fs x.tail
  | (d, false) :: fs, x => d :: serDs fs x

/-- Positions of the parallel dimensions. -/
def idxs : List (Dim × Bool) → List Nat
  | [] => []
  | (_, true) :: fs => 0 :: (idxs fs).map (· + 1)
  | (_, false) :: fs => (idxs fs).map (· + 1)

theorem idxs_eq (fs : List (Dim × Bool)) :
    idxs fs = (List.range fs.length).filter fun d => (fs.map (·.2)).getD d false := by
  induction fs with
  | nil => rfl
  | cons f fs ih =>
    obtain ⟨d, b⟩ := f
    rw [List.length_cons, List.range_succ_eq_map, List.filter_cons, List.filter_map]
    cases b <;> simp [idxs, ih, Function.comp_def]

theorem idxs_length (fs : List (Dim × Bool)) : (idxs fs).length = (redDs fs).length := by
  induction fs with
  | nil => rfl
  | cons f fs ih =>
    obtain ⟨d, b⟩ := f
    cases b <;> simp_all [idxs, redDs]

/-- `map_dims` without the length check, over pairs. -/
def setAll (l : List (Nat × Nat)) (index : List Nat) : M (List Nat) :=
  l.foldlM (fun (index : List Nat) p =>
    if p.1 < index.length then .ok (index.set p.1 p.2) else .error .outOfRange) index

theorem map_dims_eq (sub map index : List Nat) (h : sub.length = map.length) :
    map_dims sub map index = setAll (map.zip sub) index := by
  rw [map_dims, if_neg (by omega), setAll]
  have : map.zip sub = (List.range sub.length).map fun i => (map.getD i 0, sub.getD i 0) := by
    apply List.ext_getElem
    · simp [h]
    · intro i h1 h2
      simp at h1 h2
      have h3 : i < map.length := by omega
      simp [h2, h3]
  rw [this, List.foldlM_map]

theorem setAll_succ (l : List (Nat × Nat)) (x : Nat) (index : List Nat) :
    setAll (l.map fun p => (p.1 + 1, p.2)) (x :: index) = (x :: ·) <$> setAll l index := by
  unfold setAll
  rw [List.foldlM_map]
  induction l generalizing index with
  | nil => rfl
  | cons p l ih =>
    rw [List.foldlM_cons, List.foldlM_cons]
    by_cases h : p.1 < index.length
    · simp only [List.length_cons, Nat.add_lt_add_iff_right, if_pos h, List.set_cons_succ]
      exact ih _
    · simp only [List.length_cons, Nat.add_lt_add_iff_right, if_neg h]
      rfl

theorem setAll_ser (fs : List (Dim × Bool)) (x : List Nat) (hx : x.length = (redDs fs).length)
    (g : Dim → Nat) (hg : ∀ a s, g (a, a, s) = a) :
    setAll ((idxs fs).zip x) (fs.map fun f => g f.1) = .ok ((serDs fs x).map g) := by
  induction fs generalizing x with
  | nil => rfl
  | cons f fs ih =>
    obtain ⟨d, b⟩ := f
    cases b with
    | false =>
      have := ih x (by simpa [redDs] using hx)
      rw [idxs, List.map_cons, List.zip_map_left]
      refine (setAll_succ _ _ _).trans ?_
      rw [this]; rfl
    | true =>
      cases x with
      | nil => simp [redDs] at hx
      | cons x xs =>
        have := ih xs (by simpa [redDs] using hx)
        rw [idxs, List.zip_cons_cons, List.zip_map_left, setAll, List.foldlM_cons, List.map_cons]
        rw [if_pos (by simp)]
        refine (setAll_succ _ _ _).trans ?_
        rw [this]
        simp [serDs, hg]

theorem serDs_total (fs : List (Dim × Bool)) (x : List Nat) :
    total (serDs fs x) = (((fs.filter fun f => !f.2).map (·.1)).map cnt).prod := by
  induction fs generalizing x with
  | nil => rfl
  | cons f fs ih =>
    obtain ⟨d, b⟩ := f
    cases b with
    | false => simp [serDs, total, ih]
    | true =>
      rw [serDs, total, ih]
      have : cnt (x.headD 0, x.headD 0, d.2.2) = 1 := by
        unfold cnt ceilDiv
        rcases Nat.eq_zero_or_pos d.2.2 with h | h
        · simp [h]
        · have : (x.headD 0 - x.headD 0 + d.2.2 - 1) / d.2.2 = 0 := Nat.div_eq_of_lt (by omega)
          simp only [this]; rfl
      rw [this]; simp

theorem total_eq (ds : List Dim) : total ds = (ds.map cnt).prod := by
  induction ds with
  | nil => rfl
  | cons d ds ih => simp [total, ih]

theorem serDs_pos (fs : List (Dim × Bool)) (x : List Nat) (h : ∀ f ∈ fs, 0 < f.1.2.2) :
    ∀ d ∈ serDs fs x, 0 < d.2.2 := by
  induction fs generalizing x with
  | nil => intro d hd; cases hd
  | cons f fs ih =>
    obtain ⟨d, b⟩ := f
    have h1 := h (d, b) (by simp)
    have h2 := fun x => ih x fun f hf => h f (by simp [hf])
    cases b with
    | false =>
      rw [serDs]; intro e he
      rcases List.mem_cons.1 he with rfl | he
      · exact h1
      · exact h2 _ e he
    | true =>
      rw [serDs]; intro e he
      rcases List.mem_cons.1 he with rfl | he
      · exact h1
      · exact h2 _ e he

theorem serDs_steps (fs : List (Dim × Bool)) (x : List Nat) :
    (serDs fs x).map (·.2.2) = fs.map (·.1.2.2) := by
  induction fs generalizing x with
  | nil => rfl
  | cons f fs ih =>
    obtain ⟨d, b⟩ := f
    cases b <;> simp [serDs, ih]

/-- Choosing parallel positions first and serial ones afterwards reaches the whole grid. -/
theorem split_grid (fs : List (Dim × Bool)) (y : List Nat) :
    (∃ x, InG (redDs fs) x ∧ InG (serDs fs x) y) ↔ InG (fs.map (·.1)) y := by
  induction fs generalizing y with
  | nil =>
    constructor
    · rintro ⟨x, _, h⟩; exact h
    · intro h; exact ⟨[], .nil, h⟩
  | cons f fs ih =>
    obtain ⟨d, b⟩ := f
    cases b with
    | false =>
      constructor
      · rintro ⟨x, h1, h2⟩
        rw [serDs] at h2
        cases h2 with
        | cons h2 h3 => exact .cons h2 ((ih _).1 ⟨x, by simpa [redDs] using h1, h3⟩)
      · intro h
        cases h with
        | cons h1 h2 =>
          obtain ⟨x, h3, h4⟩ := (ih _).2 h2
          exact ⟨x, by simpa [redDs] using h3, .cons h1 h4⟩
    | true =>
      have hred : redDs ((d, true) :: fs) = d :: redDs fs := by simp [redDs]
      constructor
      · rintro ⟨x, h1, h2⟩
        rw [hred] at h1
        cases h1 with
        | cons h1 h1' =>
          rw [serDs] at h2
          cases h2 with
          | cons h2 h3 =>
            refine .cons ?_ ((ih _).1 ⟨_, h1', h3⟩)
            obtain ⟨t, ht, rfl⟩ := h2
            have : t = 0 := by
              simp only [cnt, ceilDiv, Nat.sub_self] at ht
              rcases Nat.eq_zero_or_pos d.2.2 with h | h
              · simp [h] at ht; exact ht
              · rw [Nat.div_eq_of_lt (by omega)] at ht; omega
            subst this
            simpa using h1
      · intro h
        cases h with
        | cons h1 h2 =>
          obtain ⟨x, h3, h4⟩ := (ih _).2 h2
          rename_i y0 ys
          refine ⟨y0 :: x, by rw [hred]; exact .cons h1 h3, .cons ⟨0, cnt_pos _, by simp⟩ h4⟩

/-- A gap between the parallel positions is a gap between the complete positions. -/
theorem gap_lift (fs : List (Dim × Bool)) (x x' y y' : List Nat)
    (hy : InG (serDs fs x) y) (hy' : InG (serDs fs x') y')
    (hx : x.length = (redDs fs).length) (hx' : x'.length = (redDs fs).length)
    (h : ∃ e, e < (redDs fs).length ∧
      x.getD e 0 + ((redDs fs).getD e (0, 0, 0)).2.2 ≤ x'.getD e 0) :
    ∃ d, d < fs.length ∧ (fs.map (·.2)).getD d false = true ∧
      y.getD d 0 + (fs.map (·.1.2.2)).getD d 0 ≤ y'.getD d 0 := by
  induction fs generalizing x x' y y' with
  | nil => obtain ⟨e, he, _⟩ := h; simp [redDs] at he
  | cons f fs ih =>
    obtain ⟨d, b⟩ := f
    cases b with
    | false =>
      have hred : redDs ((d, false) :: fs) = redDs fs := by simp [redDs]
      rw [hred] at h hx hx'
      rw [serDs] at hy hy'
      cases hy with
      | cons a hy =>
        cases hy' with
        | cons a' hy' =>
          obtain ⟨e, h1, h2, h3⟩ := ih _ _ _ _ hy hy' hx hx' h
          exact ⟨e + 1, by simpa using h1, by simpa using h2, by simpa using h3⟩
    | true =>
      have hred : redDs ((d, true) :: fs) = d :: redDs fs := by simp [redDs]
      rw [hred] at h hx hx'
      rw [serDs] at hy hy'
      cases x with
      | nil => simp at hx
      | cons x0 x =>
      cases x' with
      | nil => simp at hx'
      | cons x0' x' =>
      have one : ∀ (a : Nat) t, t < cnt (a, a, d.2.2) → t = 0 := by
        intro a t ht
        simp only [cnt, ceilDiv, Nat.sub_self] at ht
        rcases Nat.eq_zero_or_pos d.2.2 with h | h
        · simp [h] at ht; exact ht
        · rw [Nat.div_eq_of_lt (by omega)] at ht; omega
      cases hy with
      | cons a hy =>
        cases hy' with
        | cons a' hy' =>
          obtain ⟨e, h1, h2⟩ := h
          cases e with
          | zero =>
            refine ⟨0, by simp, by simp, ?_⟩
            obtain ⟨t, ht, rfl⟩ := a
            obtain ⟨t', ht', rfl⟩ := a'
            have := one _ _ ht
            have := one _ _ ht'
            subst t t'
            simpa using h2
          | succ e =>
            obtain ⟨e, h1, h2, h3⟩ := ih _ _ _ _ hy hy' (by simpa using hx) (by simpa using hx')
              ⟨e, by simpa using h1, by simpa using h2⟩
            exact ⟨e + 1, by simpa using h1, by simpa using h2, by simpa using h3⟩

/-! ### The loop nest -/

/-- Somewhere `p` is smaller than `q`. -/
abbrev SomeLt (p q : List Nat) : Prop := ∃ d, p.getD d 0 < q.getD d 0

theorem steps_sorted (lo hi st : Nat) (h : 0 < st) : (steps lo hi st).Pairwise (· < ·) := by
  unfold steps
  rw [List.pairwise_map]
  refine List.pairwise_lt_range.imp fun {a b} hab => ?_
  have := Nat.mul_lt_mul_of_pos_right hab h
  omega

theorem getD_append_cons (args r : List Nat) (c : Nat) :
    (args ++ [c] ++ r).getD args.length 0 = c := by
  simp [List.getD_eq_getElem?_getD]

theorem execute_looped_spec {R : List Nat → List Nat → Prop} (mn mx st : List Nat)
    (hs : ∀ d, d < st.length → 0 < st.getD d 0) (dim cur : Nat) (args : List Nat)
    (hl : cur + dim ≤ st.length) :
    (execute_looped mn mx st dim cur args).Good R ∧
    (execute_looped mn mx st dim cur args).leaves.Pairwise SomeLt ∧
    ∀ p, p ∈ (execute_looped mn mx st dim cur args).leaves ↔
      ∃ q : List Nat, p = args ++ q ∧ q.length = dim ∧ ∀ d, d < dim →
        ∃ t, q.getD d 0 = mn.getD (cur + d) 0 + t * st.getD (cur + d) 0 ∧
          q.getD d 0 < mx.getD (cur + d) 0 := by
  induction dim generalizing cur args with
  | zero =>
    rw [execute_looped, Calls.leaves]
    refine ⟨.call, List.pairwise_singleton _ _, fun p => ?_⟩
    constructor
    · intro h
      refine ⟨[], by simpa using h, rfl, fun d hd => absurd hd (by omega)⟩
    · rintro ⟨q, rfl, hq, -⟩
      have := List.length_eq_zero_iff.1 hq
      subst this; simp
  | succ dim ih =>
    have hst := hs cur (by omega)
    rw [execute_looped, if_neg (by omega), if_neg (by omega), leaves_seq]
    have hmem : ∀ c p, p ∈ (execute_looped mn mx st dim (cur + 1) (args ++ [c])).leaves →
        ∃ r, p = args ++ [c] ++ r := fun c p hp => by
      obtain ⟨q, hq, -⟩ := ((ih (cur + 1) (args ++ [c]) (by omega)).2.2 p).1 hp
      exact ⟨q, hq⟩
    refine ⟨.seq fun t ht => ?_, ?_, fun p => ?_⟩
    · obtain ⟨c, -, rfl⟩ := List.mem_map.1 ht
      exact (ih _ _ (by omega)).1
    · rw [List.flatMap_map, List.pairwise_flatMap]
      refine ⟨fun c _ => (ih _ _ (by omega)).2.1, (steps_sorted _ _ _ hst).imp ?_⟩
      intro c c' hc p hp q hq
      obtain ⟨r, rfl⟩ := hmem c p hp
      obtain ⟨r', rfl⟩ := hmem c' q hq
      exact ⟨args.length, by rw [getD_append_cons, getD_append_cons]; exact hc⟩
    · rw [List.flatMap_map, List.mem_flatMap]
      constructor
      · rintro ⟨c, hc, hp⟩
        obtain ⟨q, rfl, hq, h⟩ := ((ih _ _ (by omega)).2.2 p).1 hp
        refine ⟨c :: q, by simp, by simp [hq], fun d hd => ?_⟩
        cases d with
        | zero => simpa using (mem_steps hst).1 hc
        | succ d =>
          have := h d (by omega)
          rw [show cur + 1 + d = cur + (d + 1) by omega] at this
          simpa using this
      · rintro ⟨q, rfl, hq, h⟩
        cases q with
        | nil => simp at hq
        | cons c q =>
          refine ⟨c, (mem_steps hst).2 (by simpa using h 0 (by omega)), ?_⟩
          refine ((ih _ _ (by omega)).2.2 _).2 ⟨q, by simp, by simpa using hq, fun d hd => ?_⟩
          have := h (d + 1) (by omega)
          rw [show cur + (d + 1) = cur + 1 + d by omega] at this
          simpa using this

/-- The innermost loop nest visits the grid. -/
theorem loop_nest_spec {R : List Nat → List Nat → Prop} {dim : Nat} {mn mx st : List Nat}
    (hs : ∀ d, d < st.length → 0 < st.getD d 0) (h1 : mn.length = dim) (h3 : st.length = dim) :
    (loop_nest dim mn mx st).Good R ∧ (loop_nest dim mn mx st).leaves.Pairwise SomeLt ∧
    ∀ p, p ∈ (loop_nest dim mn mx st).leaves ↔ OnGrid mn mx st p := by
  have := execute_looped_spec (R := R) mn mx st hs dim 0 [] (by omega)
  refine ⟨this.1, this.2.1, fun p => (this.2.2 p).trans ?_⟩
  constructor
  · rintro ⟨q, rfl, hq, h⟩
    refine ⟨by simpa [h1] using hq, fun d hd => ?_⟩
    simpa using h d (by omega)
  · rintro ⟨hq, h⟩
    refine ⟨p, by simp, by omega, fun d hd => ?_⟩
    simpa using h d (by omega)

/-! ### One blocking level -/

/-- The dimensions of one blocking level together with their flags. -/
def lvDims (dim : Nat) (mn mx b : List Nat) (f : List Bool) : List (Dim × Bool) :=
  (List.range dim).map fun d => ((mn.getD d 0, mx.getD d 0, b.getD d 0), f.getD d false)

/-- Number of blocks in one dimension. -/
def ext (d : Dim) : Nat := ceilDiv (d.2.1 - d.1) d.2.2

theorem map_range_getD {α} (l : List α) (x : α) : (List.range l.length).map (l.getD · x) = l := by
  apply List.ext_getElem
  · simp
  · intro i h1 h2; simp [h2]

theorem lvDims_idxs (dim : Nat) (mn mx b : List Nat) (f : List Bool) :
    idxs (lvDims dim mn mx b f) = (List.range dim).filter fun d => f.getD d false := by
  rw [idxs_eq, lvDims]
  simp only [List.length_map, List.length_range, List.map_map, Function.comp_def]
  refine List.filter_congr fun d hd => ?_
  simp [List.mem_range.1 hd]

theorem blockCounts_eq {mn mx b ds : List Nat} (h : ∀ d ∈ ds, 0 < b.getD d 0)
    (h' : ∀ d ∈ ds, mn.getD d 0 ≤ mx.getD d 0) :
    blockCounts mn mx b ds =
      .ok ((ds.map fun d => ext (mn.getD d 0, mx.getD d 0, b.getD d 0)).prod) := by
  unfold blockCounts
  have : ∀ c, ds.foldlM (fun c d => (c * ·) <$> blockCount mn mx b d) c =
      Except.ok (c * (ds.map fun d => ext (mn.getD d 0, mx.getD d 0, b.getD d 0)).prod) := by
    induction ds with
    | nil => intro c; simp
    | cons d ds ih =>
      intro c
      rw [List.foldlM_cons, blockCount, if_neg (by have := h d (by simp); omega), usub,
        if_pos (h' d (by simp))]
      refine (ih (fun d hd => h d (by simp [hd])) (fun d hd => h' d (by simp [hd])) _).trans ?_
      rw [List.map_cons, List.prod_cons, Nat.mul_assoc]; rfl
  rw [this, Nat.one_mul]

/-- Position of the block that contains parallel position `n1` and serial position `n2`. -/
def blockPos (fs : List (Dim × Bool)) (n1 n2 : Nat) : List Nat :=
  let x := pos (redDs fs) (min n1 (total (redDs fs) - 1))
  pos (serDs fs x) (min n2 (total (serDs fs x) - 1))

/-- One blocking level, for any computation of the numbers of blocks. -/
theorem iterateRevBy_level {bc : List Nat → List Nat → List Nat → List Nat → M Nat} {dim : Nat}
    {b : List Nat} {f : List Bool} {c rest} {mn mx : List Nat} {c1 c2 : Nat}
    (h1 : mn.length = dim) (h2 : mx.length = dim) (hb : b.length = dim) (hf : f.length = dim)
    (hpos : ∀ d, d < dim → 0 < b.getD d 0)
    (hc1 : bc mn mx b ((List.range dim).filter fun d => f.getD d false) = .ok c1)
    (hc2 : bc mn mx b ((List.range dim).filter fun d => !f.getD d false) = .ok c2) :
    let fs := lvDims dim mn mx b f
    iterateRevBy bc dim ((b, f) :: c :: rest) mn mx =
      .par ((List.range c1).map fun n1 => .seq ((List.range c2).map fun n2 =>
          iterateRevBy bc dim (c :: rest) (blockPos fs n1 n2)
            ((List.range dim).map fun d => (blockPos fs n1 n2).getD d 0 + b.getD d 0))) := by
  intro fs
  have hfs : fs = (List.range dim).map fun d =>
    ((mn.getD d 0, mx.getD d 0, b.getD d 0), f.getD d false) := rfl
  rw [iterateRevBy, if_neg (by omega), if_neg (by omega), if_neg (by omega)]
  simp only [hc1, hc2]
  have eR : ∀ g : Dim → Nat, (redDs fs).map g =
      ((List.range dim).filter fun d => f.getD d false).map
        fun d => g (mn.getD d 0, mx.getD d 0, b.getD d 0) := by
    intro g
    rw [redDs, hfs, List.filter_map, List.map_map, List.map_map]; rfl
  have hsteps : ∀ d ∈ redDs fs, 0 < d.2.2 := by
    intro d hd
    rw [redDs, hfs] at hd
    obtain ⟨⟨d', b'⟩, hd', rfl⟩ := List.mem_map.1 hd
    obtain ⟨e, he, heq⟩ := List.mem_map.1 (List.mem_filter.1 hd').1
    rw [← heq]
    exact hpos e (List.mem_range.1 he)
  have hsteps' : ∀ f ∈ fs, 0 < f.1.2.2 := by
    intro f hf
    rw [hfs] at hf
    obtain ⟨e, he, heq⟩ := List.mem_map.1 hf
    rw [← heq]
    exact hpos e (List.mem_range.1 he)
  congr 1
  refine List.map_congr_left fun n1 _ => ?_
  rw [← eR (·.1), ← eR (·.2.1), ← eR (·.2.2), iter_eq _ hsteps]
  rw [← lvDims_idxs dim mn mx b f]
  have hx : (pos (redDs fs) (min n1 (total (redDs fs) - 1))).length = (redDs fs).length :=
    pos_length _ _
  have emn : mn = fs.map fun f => (fun d : Dim => d.1) f.1 := by
    rw [hfs, List.map_map, ← h1]; exact (map_range_getD mn 0).symm
  have emx : mx = fs.map fun f => (fun d : Dim => d.2.1) f.1 := by
    rw [hfs, List.map_map, ← h2]; exact (map_range_getD mx 0).symm
  have eb : b = fs.map (·.1.2.2) := by
    rw [hfs, List.map_map, ← hb]; exact (map_range_getD b 0).symm
  have e1 : map_dims (pos (redDs fs) (min n1 (total (redDs fs) - 1)))
      (idxs (lvDims dim mn mx b f)) mn =
      .ok ((serDs fs (pos (redDs fs) (min n1 (total (redDs fs) - 1)))).map (·.1)) := by
    rw [map_dims_eq _ _ _ (by rw [hx, idxs_length])]
    conv => lhs; arg 2; rw [emn]
    exact setAll_ser fs _ hx (·.1) fun _ _ => rfl
  have e2 : map_dims (pos (redDs fs) (min n1 (total (redDs fs) - 1)))
      (idxs (lvDims dim mn mx b f)) mx =
      .ok ((serDs fs (pos (redDs fs) (min n1 (total (redDs fs) - 1)))).map (·.2.1)) := by
    rw [map_dims_eq _ _ _ (by rw [hx, idxs_length])]
    conv => lhs; arg 2; rw [emx]
    exact setAll_ser fs _ hx (·.2.1) fun _ _ => rfl
  simp only [e1, e2]
  rw [if_neg (by omega)]
  congr 1
  refine List.map_congr_left fun n2 _ => ?_
  have : iter ((serDs fs (pos (redDs fs) (min n1 (total (redDs fs) - 1)))).map (·.1))
      ((serDs fs (pos (redDs fs) (min n1 (total (redDs fs) - 1)))).map (·.2.1)) b n2 =
      blockPos fs n1 n2 := by
    conv => lhs; arg 3; rw [eb, ← serDs_steps fs (pos (redDs fs) (min n1 (total (redDs fs) - 1)))]
    rw [iter_eq _ (serDs_pos _ _ hsteps')]
    rfl
  rw [this]

theorem iterateRev_level {dim : Nat} {b : List Nat} {f : List Bool} {c rest} {mn mx : List Nat}
    (h1 : mn.length = dim) (h2 : mx.length = dim) (hb : b.length = dim) (hf : f.length = dim)
    (hpos : ∀ d, d < dim → 0 < b.getD d 0)
    (hle : ∀ d, d < dim → mn.getD d 0 ≤ mx.getD d 0) :
    let fs := lvDims dim mn mx b f
    iterateRev dim ((b, f) :: c :: rest) mn mx =
      .par ((List.range ((redDs fs).map ext).prod).map fun n1 =>
        .seq ((List.range (((fs.filter fun f => !f.2).map (·.1)).map ext).prod).map fun n2 =>
          iterateRev dim (c :: rest) (blockPos fs n1 n2)
            ((List.range dim).map fun d => (blockPos fs n1 n2).getD d 0 + b.getD d 0))) := by
  intro fs
  have hmap : ∀ d ∈ (List.range dim).filter (fun d => f.getD d false), d < dim := fun d hd =>
    List.mem_range.1 (List.mem_filter.1 hd).1
  have hser : ∀ d ∈ (List.range dim).filter (fun d => !f.getD d false), d < dim := fun d hd =>
    List.mem_range.1 (List.mem_filter.1 hd).1
  have hfs : fs = (List.range dim).map fun d =>
    ((mn.getD d 0, mx.getD d 0, b.getD d 0), f.getD d false) := rfl
  have eR : ∀ g : Dim → Nat, (redDs fs).map g =
      ((List.range dim).filter fun d => f.getD d false).map
        fun d => g (mn.getD d 0, mx.getD d 0, b.getD d 0) := by
    intro g
    rw [redDs, hfs, List.filter_map, List.map_map, List.map_map]; rfl
  have eS : ∀ g : Dim → Nat, ((fs.filter fun f => !f.2).map (·.1)).map g =
      ((List.range dim).filter fun d => !f.getD d false).map
        fun d => g (mn.getD d 0, mx.getD d 0, b.getD d 0) := by
    intro g
    rw [hfs, List.filter_map, List.map_map, List.map_map]; rfl
  rw [eR ext, eS ext]
  exact iterateRevBy_level h1 h2 hb hf hpos
    (blockCounts_eq (fun d hd => hpos d (hmap d hd)) (fun d hd => hle d (hmap d hd)))
    (blockCounts_eq (fun d hd => hpos d (hser d hd)) (fun d hd => hle d (hser d hd)))

/-! ### All levels -/

/-- Blocking levels (outermost first) that fit together and end in the steps `s`. -/
inductive LvOk (dim : Nat) (s : List Nat) : List (List Nat × List Bool) → Prop
  | nil : LvOk dim s []
  | cons {b f rest} : b.length = dim → f.length = dim → (∀ d, d < dim → 0 < b.getD d 0) →
      (∀ d, d < dim → s.getD d 0 ∣ b.getD d 0) →
      (∀ lv ∈ rest, ∀ d, d < dim → lv.1.getD d 0 ∣ b.getD d 0) → LvOk dim s rest →
      LvOk dim s ((b, f) :: rest)

/-- Upper bounds, rounded up to whole blocks of the outermost level. -/
def bound (dim : Nat) (levels : List (List Nat × List Bool)) (mn mx : List Nat) : List Nat :=
  match levels with
  | [] => mx
  | (b, _) :: _ => (List.range dim).map fun d =>
      mn.getD d 0 + ceilDiv (mx.getD d 0 - mn.getD d 0) (b.getD d 0) * b.getD d 0

/-- Two points differ in a dimension that is parallel on some level. -/
def SepBy (levels : List (List Nat × List Bool)) (p q : List Nat) : Prop :=
  ∃ d, (∃ lv ∈ levels, lv.2.getD d false = true) ∧ p.getD d 0 ≠ q.getD d 0

theorem getD_map_range {α} (dim : Nat) (g : Nat → α) (x : α) {d : Nat} (h : d < dim) :
    ((List.range dim).map g).getD d x = g d := by
  simp [h]

theorem onGrid_congr {mn mx mx' st p : List Nat}
    (h : ∀ d, d < mn.length → mx.getD d 0 = mx'.getD d 0) :
    OnGrid mn mx st p ↔ OnGrid mn mx' st p := by
  unfold OnGrid
  constructor
  · rintro ⟨h1, h2⟩; exact ⟨h1, fun d hd => h d hd ▸ h2 d hd⟩
  · rintro ⟨h1, h2⟩; exact ⟨h1, fun d hd => h d hd ▸ h2 d hd⟩

theorem bound_block {dim : Nat} {s b cur : List Nat} {f rest}
    (h : LvOk dim s ((b, f) :: rest)) :
    ∀ d, d < dim →
      (bound dim rest cur ((List.range dim).map fun d => cur.getD d 0 + b.getD d 0)).getD d 0 =
        cur.getD d 0 + b.getD d 0 := by
  intro d hd
  cases h with
  | cons _ _ hpos _ hdiv hrest =>
    cases hrest with
    | nil => rw [bound, getD_map_range _ _ _ hd]
    | @cons b' f' rest _ _ hpos' =>
      rw [bound, getD_map_range _ _ _ hd, getD_map_range _ _ _ hd]
      obtain ⟨q, hq⟩ := hdiv (b', f') (by simp) d hd
      simp only at hq
      rw [Nat.add_sub_cancel_left, hq, Nat.mul_comm _ q, ceilDiv_mul _ _ (hpos' d hd)]

theorem inG_iff {ds : List Dim} {p : List Nat} :
    InG ds p ↔ ds.length = p.length ∧ ∀ d, d < ds.length → ∃ t,
      t < cnt (ds.getD d (0, 0, 0)) ∧
      p.getD d 0 = (ds.getD d (0, 0, 0)).1 + t * (ds.getD d (0, 0, 0)).2.2 := by
  rw [InG, List.forall₂_iff_get]
  refine and_congr_right fun hl => ?_
  constructor
  · intro h d hd
    have := h d hd (by omega)
    simpa [List.getD_eq_getElem?_getD, hd, show d < p.length by omega] using this
  · intro h d hd hd'
    have := h d hd
    simpa [List.getD_eq_getElem?_getD, hd, show d < p.length by omega] using this

theorem prod_eq_zero_of_mem {l : List Nat} (h : 0 ∈ l) : l.prod = 0 := by
  induction l with
  | nil => cases h
  | cons a l ih =>
    rcases List.mem_cons.1 h with rfl | h
    · simp
    · simp [ih h]

theorem cnt_eq_ext {d : Dim} (hs : 0 < d.2.2) (h : d.1 < d.2.1) : cnt d = ext d := by
  have : 0 < ext d := (lt_ceilDiv hs).2 (by omega)
  unfold cnt
  change max 1 (ext d) = _
  omega

theorem iterateRev_spec {dim : Nat} {s : List Nat} {f0 : List Bool}
    (hs : ∀ d, d < dim → 0 < s.getD d 0) (hsl : s.length = dim)
    (levels : List (List Nat × List Bool)) (hl : LvOk dim s levels) (mn mx : List Nat)
    (h1 : mn.length = dim) (h2 : mx.length = dim)
    (hle : ∀ d, d < dim → mn.getD d 0 ≤ mx.getD d 0) :
    (iterateRev dim (levels ++ [(s, f0)]) mn mx).Good (SepBy levels) ∧
    (iterateRev dim (levels ++ [(s, f0)]) mn mx).leaves.Pairwise SomeLt ∧
    ∀ p, p ∈ (iterateRev dim (levels ++ [(s, f0)]) mn mx).leaves ↔
      OnGrid mn (bound dim levels mn mx) s p := by
  induction levels generalizing mn mx with
  | nil =>
    rw [List.nil_append, iterateRev, iterateRevBy, if_neg (by omega)]
    exact loop_nest_spec (by rw [hsl]; exact hs) h1 hsl
  | cons lv rest ih =>
    obtain ⟨b, f⟩ := lv
    have hl' := hl
    cases hl with
    | cons hb hf hpos hdiv hdivs hrest =>
    obtain ⟨c, r, hcr⟩ : ∃ c r, rest ++ [(s, f0)] = c :: r := by
      cases rest with
      | nil => exact ⟨_, _, rfl⟩
      | cons c r => exact ⟨_, _, rfl⟩
    rw [List.cons_append, hcr, iterateRev_level h1 h2 hb hf hpos hle, ← hcr]
    have hfs : lvDims dim mn mx b f = (List.range dim).map fun d =>
      ((mn.getD d 0, mx.getD d 0, b.getD d 0), f.getD d false) := rfl
    generalize lvDims dim mn mx b f = fs at hfs ⊢
    -- facts about every block
    have hlen : ∀ n1 n2, (blockPos fs n1 n2).length = dim := by
      intro n1 n2
      unfold blockPos
      rw [pos_length]
      have := congrArg List.length (serDs_steps fs (pos (redDs fs) (min n1 (total (redDs fs) - 1))))
      rw [List.length_map, List.length_map] at this
      rw [this, hfs]; simp
    have hblk : ∀ n1 n2, _ := fun n1 n2 => ih hrest (blockPos fs n1 n2)
      ((List.range dim).map fun d => (blockPos fs n1 n2).getD d 0 + b.getD d 0)
      (hlen n1 n2) (by simp) (fun d hd => by rw [getD_map_range _ _ _ hd]; omega)
    have hmem : ∀ n1 n2 p, p ∈ (iterateRev dim (rest ++ [(s, f0)]) (blockPos fs n1 n2)
        ((List.range dim).map fun d => (blockPos fs n1 n2).getD d 0 + b.getD d 0)).leaves ↔
        p.length = dim ∧ ∀ d, d < dim → ∃ t, p.getD d 0 =
          (blockPos fs n1 n2).getD d 0 + t * s.getD d 0 ∧
          p.getD d 0 < (blockPos fs n1 n2).getD d 0 + b.getD d 0 := by
      intro n1 n2 p
      rw [(hblk n1 n2).2.2 p, OnGrid, hlen]
      refine and_congr_right fun _ => forall_congr' fun d => forall_congr' fun hd => ?_
      rw [bound_block hl' d hd]
    have hfl : (fs.map (·.1)).length = dim := by rw [hfs]; simp
    have hfd : ∀ d, d < dim → (fs.map (·.1)).getD d (0, 0, 0) =
        (mn.getD d 0, mx.getD d 0, b.getD d 0) := by
      intro d hd
      rw [hfs, List.map_map, getD_map_range _ _ _ hd]; rfl
    by_cases hz : ∃ d, d < dim ∧ mx.getD d 0 = mn.getD d 0
    · -- some extent is zero: no call
      obtain ⟨d0, hd0, hz⟩ := hz
      have hz0 : ext (mn.getD d0 0, mx.getD d0 0, b.getD d0 0) = 0 := by
        have := hpos d0 hd0
        simp only [ext, ceilDiv, hz, Nat.sub_self]
        exact Nat.div_eq_of_lt (by omega)
      have hm0 : ((mn.getD d0 0, mx.getD d0 0, b.getD d0 0), f.getD d0 false) ∈ fs := by
        rw [hfs]; exact List.mem_map.2 ⟨d0, List.mem_range.2 hd0, rfl⟩
      have hnone : ∀ p, ¬ OnGrid mn (bound dim ((b, f) :: rest) mn mx) s p := by
        rintro p ⟨_, hp⟩
        obtain ⟨t, e1, e2⟩ := hp d0 (by omega)
        rw [bound, getD_map_range _ _ _ hd0] at e2
        change ceilDiv (mx.getD d0 0 - mn.getD d0 0) (b.getD d0 0) = 0 at hz0
        rw [hz0] at e2
        omega
      have hempty : (Calls.par ((List.range ((redDs fs).map ext).prod).map fun n1 =>
        .seq ((List.range (((fs.filter fun f => !f.2).map (·.1)).map ext).prod).map fun n2 =>
          iterateRev dim (rest ++ [(s, f0)]) (blockPos fs n1 n2)
            ((List.range dim).map fun d => (blockPos fs n1 n2).getD d 0 + b.getD d 0)))).leaves
          = [] := by
        rw [leaves_par, List.flatMap_map]
        cases hfl0 : f.getD d0 false with
        | true =>
          have : ((redDs fs).map ext).prod = 0 := by
            apply prod_eq_zero_of_mem
            rw [← hz0]
            refine List.mem_map_of_mem ?_
            rw [hfl0] at hm0
            exact List.mem_map.2 ⟨_, List.mem_filter.2 ⟨hm0, rfl⟩, rfl⟩
          rw [this]; rfl
        | false =>
          have : (((fs.filter fun f => !f.2).map (·.1)).map ext).prod = 0 := by
            apply prod_eq_zero_of_mem
            rw [← hz0]
            refine List.mem_map_of_mem ?_
            rw [hfl0] at hm0
            exact List.mem_map.2 ⟨_, List.mem_filter.2 ⟨hm0, rfl⟩, rfl⟩
          rw [this, List.flatMap_eq_nil_iff]
          intro n _
          rw [leaves_seq]; rfl
      refine ⟨?_, by rw [hempty]; exact .nil, fun p => ?_⟩
      · refine .par (fun t ht => ?_) ?_
        · obtain ⟨n1, _, rfl⟩ := List.mem_map.1 ht
          refine .seq fun t ht => ?_
          obtain ⟨n2, _, rfl⟩ := List.mem_map.1 ht
          refine (hblk n1 n2).1.mono ?_
          rintro p q ⟨d, ⟨lv, hlv, h⟩, hne⟩
          exact ⟨d, ⟨lv, by simp [hlv], h⟩, hne⟩
        · have hnil : ∀ t ∈ ((List.range ((redDs fs).map ext).prod).map fun n1 =>
              Calls.seq ((List.range (((fs.filter fun f => !f.2).map (·.1)).map ext).prod).map
              fun n2 => iterateRev dim (rest ++ [(s, f0)]) (blockPos fs n1 n2)
                ((List.range dim).map fun d => (blockPos fs n1 n2).getD d 0 + b.getD d 0))),
              t.leaves = [] := by
            rw [leaves_par, List.flatMap_eq_nil_iff] at hempty
            exact hempty
          refine List.pairwise_iff_forall_sublist.2 fun {t u} hsub i hi => ?_
          rw [hnil t (hsub.subset (by simp))] at hi
          cases hi
      · rw [hempty]
        constructor
        · intro h; cases h
        · intro h; exact (hnone p h).elim
    · -- all extents positive
      have hlt : ∀ d, d < dim → mn.getD d 0 < mx.getD d 0 := by
        intro d hd
        rcases Nat.lt_or_ge (mn.getD d 0) (mx.getD d 0) with h | h
        · exact h
        · exact (hz ⟨d, hd, Nat.le_antisymm h (hle d hd)⟩).elim
      have hcnt : ∀ f ∈ fs, cnt f.1 = ext f.1 := by
        intro f' hf'
        rw [hfs] at hf'
        obtain ⟨d, hd, rfl⟩ := List.mem_map.1 hf'
        exact cnt_eq_ext (hpos d (List.mem_range.1 hd)) (hlt d (List.mem_range.1 hd))
      have hR : ((redDs fs).map ext).prod = total (redDs fs) := by
        rw [total_eq]; congr 1
        refine List.map_congr_left fun d hd => ?_
        obtain ⟨f', hf', rfl⟩ := List.mem_map.1 hd
        exact (hcnt f' (List.mem_filter.1 hf').1).symm
      have hS : ∀ x, (((fs.filter fun f => !f.2).map (·.1)).map ext).prod = total (serDs fs x) := by
        intro x
        rw [serDs_total]; congr 1
        refine List.map_congr_left fun d hd => ?_
        obtain ⟨f', hf', rfl⟩ := List.mem_map.1 hd
        exact (hcnt f' (List.mem_filter.1 hf').1).symm
      have hbp : ∀ n1 n2, n1 < ((redDs fs).map ext).prod →
          n2 < (((fs.filter fun f => !f.2).map (·.1)).map ext).prod →
          blockPos fs n1 n2 = pos (serDs fs (pos (redDs fs) n1)) n2 := by
        intro n1 n2 hn1 hn2
        unfold blockPos
        rw [hR] at hn1
        rw [hS (pos (redDs fs) n1)] at hn2
        rw [show min n1 (total (redDs fs) - 1) = n1 by omega]
        simp only
        rw [show min n2 (total (serDs fs (pos (redDs fs) n1)) - 1) = n2 by omega]
      have hin : ∀ n1 n2, n1 < ((redDs fs).map ext).prod →
          n2 < (((fs.filter fun f => !f.2).map (·.1)).map ext).prod →
          InG (serDs fs (pos (redDs fs) n1)) (blockPos fs n1 n2) := by
        intro n1 n2 hn1 hn2
        rw [hbp n1 n2 hn1 hn2]
        exact (mem_pos _ _).1 ⟨n2, by rw [← hS]; exact hn2, rfl⟩
      have hflen : fs.length = dim := by rw [hfs]; simp
      have hfb : ∀ d, d < dim → (fs.map (·.1.2.2)).getD d 0 = b.getD d 0 := by
        intro d hd
        rw [hfs, List.map_map, getD_map_range _ _ _ hd]; rfl
      have hff : ∀ d, d < dim → (fs.map (·.2)).getD d false = f.getD d false := by
        intro d hd
        rw [hfs, List.map_map, getD_map_range _ _ _ hd]; rfl
      -- blocks with different parallel positions
      have hpar : ∀ n1 n1', n1 < n1' → n1' < ((redDs fs).map ext).prod → ∀ n2 n2',
          n2 < (((fs.filter fun f => !f.2).map (·.1)).map ext).prod →
          n2' < (((fs.filter fun f => !f.2).map (·.1)).map ext).prod →
          ∃ d, d < dim ∧ f.getD d false = true ∧
            (blockPos fs n1 n2).getD d 0 + b.getD d 0 ≤ (blockPos fs n1' n2').getD d 0 := by
        intro n1 n1' hn hn1' n2 n2' hn2 hn2'
        obtain ⟨e, he, hgap, _⟩ := pos_gap (redDs fs) n1 n1' hn (by rw [← hR]; exact hn1')
        obtain ⟨d, hd, hd1, hd2⟩ := gap_lift fs _ _ _ _ (hin n1 n2 (by omega) hn2)
          (hin n1' n2' hn1' hn2') (pos_length _ _) (pos_length _ _) ⟨e, he, hgap⟩
        rw [hflen] at hd
        rw [hff d hd] at hd1
        rw [hfb d hd] at hd2
        exact ⟨d, hd, hd1, hd2⟩
      have hserg : ∀ n1, n1 < ((redDs fs).map ext).prod → ∀ n2 n2', n2 < n2' →
          n2' < (((fs.filter fun f => !f.2).map (·.1)).map ext).prod →
          ∃ d, d < dim ∧
            (blockPos fs n1 n2).getD d 0 + b.getD d 0 ≤ (blockPos fs n1 n2').getD d 0 := by
        intro n1 hn1 n2 n2' hn hn2'
        rw [hbp n1 n2 hn1 (by omega), hbp n1 n2' hn1 hn2']
        obtain ⟨d, hd, hgap, _⟩ := pos_gap (serDs fs (pos (redDs fs) n1)) n2 n2' hn
          (by rw [← hS]; exact hn2')
        have hst := serDs_steps fs (pos (redDs fs) n1)
        have hdd : d < dim := by
          have := congrArg List.length hst
          rw [List.length_map, List.length_map, hflen] at this
          omega
        refine ⟨d, hdd, ?_⟩
        have h3 : ((serDs fs (pos (redDs fs) n1)).getD d (0, 0, 0)).2.2 = b.getD d 0 := by
          rw [← hfb d hdd, ← hst]
          simp [List.getD_eq_getElem?_getD, hd]
        rw [h3] at hgap
        exact hgap
      have hgapLt : ∀ n1 n2 n1' n2' d, d < dim →
          (blockPos fs n1 n2).getD d 0 + b.getD d 0 ≤ (blockPos fs n1' n2').getD d 0 →
          ∀ p ∈ (iterateRev dim (rest ++ [(s, f0)]) (blockPos fs n1 n2)
            ((List.range dim).map fun d => (blockPos fs n1 n2).getD d 0 + b.getD d 0)).leaves,
          ∀ q ∈ (iterateRev dim (rest ++ [(s, f0)]) (blockPos fs n1' n2')
            ((List.range dim).map fun d => (blockPos fs n1' n2').getD d 0 + b.getD d 0)).leaves,
          p.getD d 0 < q.getD d 0 := by
        intro n1 n2 n1' n2' d hd hg p hp q hq
        obtain ⟨t, _, e1⟩ := ((hmem n1 n2 p).1 hp).2 d hd
        obtain ⟨t', e2, _⟩ := ((hmem n1' n2' q).1 hq).2 d hd
        omega
      refine ⟨.par ?_ ?_, ?_, fun p => ?_⟩
      · intro t ht
        obtain ⟨n1, _, rfl⟩ := List.mem_map.1 ht
        refine .seq fun t ht => ?_
        obtain ⟨n2, _, rfl⟩ := List.mem_map.1 ht
        refine (hblk n1 n2).1.mono ?_
        rintro p q ⟨d, ⟨lv, hlv, h⟩, hne⟩
        exact ⟨d, ⟨lv, by simp [hlv], h⟩, hne⟩
      · rw [List.pairwise_map]
        refine (List.Pairwise.and_mem.1 List.pairwise_lt_range).imp ?_
        rintro n1 n1' ⟨hn1, hn1', hn⟩ p hp q hq
        rw [List.mem_range] at hn1 hn1'
        rw [leaves_seq, List.flatMap_map, List.mem_flatMap] at hp hq
        obtain ⟨n2, hn2, hp⟩ := hp
        obtain ⟨n2', hn2', hq⟩ := hq
        rw [List.mem_range] at hn2 hn2'
        obtain ⟨d, hd, hfd', hg⟩ := hpar n1 n1' hn hn1' n2 n2' hn2 hn2'
        exact ⟨d, ⟨(b, f), by simp, hfd'⟩, Nat.ne_of_lt (hgapLt _ _ _ _ d hd hg p hp q hq)⟩
      · rw [leaves_par, List.flatMap_map, List.pairwise_flatMap]
        constructor
        · intro n1 hn1
          rw [List.mem_range] at hn1
          rw [leaves_seq, List.flatMap_map, List.pairwise_flatMap]
          refine ⟨fun n2 _ => (hblk n1 n2).2.1, (List.Pairwise.and_mem.1 List.pairwise_lt_range).imp ?_⟩
          rintro n2 n2' ⟨hn2, hn2', hn⟩ p hp q hq
          rw [List.mem_range] at hn2 hn2'
          obtain ⟨d, hd, hg⟩ := hserg n1 hn1 n2 n2' hn hn2'
          exact ⟨d, hgapLt _ _ _ _ d hd hg p hp q hq⟩
        · refine (List.Pairwise.and_mem.1 List.pairwise_lt_range).imp ?_
          rintro n1 n1' ⟨hn1, hn1', hn⟩ p hp q hq
          rw [List.mem_range] at hn1 hn1'
          rw [leaves_seq, List.flatMap_map, List.mem_flatMap] at hp hq
          obtain ⟨n2, hn2, hp⟩ := hp
          obtain ⟨n2', hn2', hq⟩ := hq
          rw [List.mem_range] at hn2 hn2'
          obtain ⟨d, hd, hfd', hg⟩ := hpar n1 n1' hn hn1' n2 n2' hn2 hn2'
          exact ⟨d, hgapLt _ _ _ _ d hd hg p hp q hq⟩
      · have hIn : ∀ y, InG (fs.map (·.1)) y ↔ y.length = dim ∧ ∀ d, d < dim → ∃ t,
            t < ceilDiv (mx.getD d 0 - mn.getD d 0) (b.getD d 0) ∧
            y.getD d 0 = mn.getD d 0 + t * b.getD d 0 := by
          intro y
          rw [inG_iff, hfl]
          refine and_congr eq_comm (forall_congr' fun d => forall_congr' fun hd => ?_)
          rw [hfd d hd, cnt_eq_ext (hpos d hd) (hlt d hd)]
          rfl
        have hall : (∃ n1, n1 < ((redDs fs).map ext).prod ∧ ∃ n2,
              n2 < (((fs.filter fun f => !f.2).map (·.1)).map ext).prod ∧
              p ∈ (iterateRev dim (rest ++ [(s, f0)]) (blockPos fs n1 n2)
                ((List.range dim).map fun d => (blockPos fs n1 n2).getD d 0 + b.getD d 0)).leaves) ↔
            ∃ y, InG (fs.map (·.1)) y ∧ p.length = dim ∧ ∀ d, d < dim → ∃ t, p.getD d 0 =
              y.getD d 0 + t * s.getD d 0 ∧ p.getD d 0 < y.getD d 0 + b.getD d 0 := by
          constructor
          · rintro ⟨n1, hn1, n2, hn2, hp⟩
            refine ⟨blockPos fs n1 n2, (split_grid fs _).1 ⟨pos (redDs fs) n1, ?_, hin n1 n2 hn1 hn2⟩,
              (hmem n1 n2 p).1 hp⟩
            exact (mem_pos _ _).1 ⟨n1, by rw [← hR]; exact hn1, rfl⟩
          · rintro ⟨y, hy, hp⟩
            obtain ⟨x, hx, hy⟩ := (split_grid fs y).2 hy
            obtain ⟨n1, hn1, rfl⟩ := (mem_pos _ _).2 hx
            obtain ⟨n2, hn2, rfl⟩ := (mem_pos _ _).2 hy
            rw [← hR] at hn1
            rw [← hS] at hn2
            refine ⟨n1, hn1, n2, hn2, (hmem n1 n2 p).2 ?_⟩
            rw [hbp n1 n2 hn1 hn2]
            exact hp
        have hlv : p ∈ (Calls.par ((List.range ((redDs fs).map ext).prod).map fun n1 =>
            Calls.seq ((List.range (((fs.filter fun f => !f.2).map (·.1)).map ext).prod).map
            fun n2 => iterateRev dim (rest ++ [(s, f0)]) (blockPos fs n1 n2)
              ((List.range dim).map fun d =>
                (blockPos fs n1 n2).getD d 0 + b.getD d 0)))).leaves ↔
            ∃ n1, n1 < ((redDs fs).map ext).prod ∧ ∃ n2,
              n2 < (((fs.filter fun f => !f.2).map (·.1)).map ext).prod ∧
              p ∈ (iterateRev dim (rest ++ [(s, f0)]) (blockPos fs n1 n2)
                ((List.range dim).map fun d =>
                  (blockPos fs n1 n2).getD d 0 + b.getD d 0)).leaves := by
          rw [leaves_par, List.flatMap_map]
          simp only [List.mem_flatMap, leaves_seq, List.flatMap_map, List.mem_range]
        rw [hlv, hall]
        unfold OnGrid
        rw [h1]
        constructor
        · rintro ⟨y, hy, hp, hpd⟩
          refine ⟨hp, fun d hd => ?_⟩
          obtain ⟨t, ht, hyt⟩ := ((hIn y).1 hy).2 d hd
          obtain ⟨u, e1, e2⟩ := hpd d hd
          obtain ⟨q, hq⟩ := hdiv d hd
          rw [bound, getD_map_range _ _ _ hd]
          refine ⟨t * q + u, ?_, ?_⟩
          · rw [e1, hyt, hq]; ring
          · have : (t + 1) * b.getD d 0 ≤
              ceilDiv (mx.getD d 0 - mn.getD d 0) (b.getD d 0) * b.getD d 0 :=
              Nat.mul_le_mul_right _ ht
            rw [Nat.succ_mul] at this
            omega
        · rintro ⟨hp, hpd⟩
          -- the block of `p`
          refine ⟨(List.range dim).map fun d =>
            mn.getD d 0 + (p.getD d 0 - mn.getD d 0) / b.getD d 0 * b.getD d 0,
            (hIn _).2 ⟨by simp, fun d hd => ?_⟩, hp, fun d hd => ?_⟩
          · refine ⟨(p.getD d 0 - mn.getD d 0) / b.getD d 0, ?_, by rw [getD_map_range _ _ _ hd]⟩
            obtain ⟨t, e1, e2⟩ := hpd d hd
            rw [bound, getD_map_range _ _ _ hd] at e2
            exact (Nat.div_lt_iff_lt_mul (hpos d hd)).2 (by omega)
          · obtain ⟨t, e1, e2⟩ := hpd d hd
            rw [getD_map_range _ _ _ hd]
            have hb0 := hpos d hd
            obtain ⟨q, hq⟩ := hdiv d hd
            have hdm := Nat.div_add_mod (p.getD d 0 - mn.getD d 0) (b.getD d 0)
            have hml := Nat.mod_lt (p.getD d 0 - mn.getD d 0) hb0
            rw [Nat.mul_comm] at hdm
            refine ⟨t % q, ?_, by omega⟩
            have e3 : p.getD d 0 - mn.getD d 0 = t * s.getD d 0 := by omega
            have hs0 := hs d hd
            have hdv : (p.getD d 0 - mn.getD d 0) / b.getD d 0 = t / q := by
              rw [e3, hq, Nat.mul_comm t, Nat.mul_div_mul_left _ _ hs0]
            rw [hdv, hq, e1]
            have := Nat.div_add_mod t q
            calc mn.getD d 0 + t * s.getD d 0
                = mn.getD d 0 + (q * (t / q) + t % q) * s.getD d 0 := by rw [this]
              _ = _ := by ring

end Verif.IndexIterator
