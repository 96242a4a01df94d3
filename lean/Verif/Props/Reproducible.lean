import Verif.Proof.SameBits
import Verif.Props.Halving
import Verif.Props.OneLocality
import Verif.Props.ScheduleDrop
import Verif.Props.Double
/-
Property C115: under which settings the results of the algorithms `single` and `pseudodynamic` are
reproducible bit by bit, that is, do not depend on the number of localities, the balancing
parameters, `block_result`, the repetitions or the order of the tasks; and that they are not in
general.
-/
namespace Verif.Props
open Verif.Kernel Verif.Recursive Verif.StaticImproved Verif.IEEE
variable {α : Type} [Arith α]

/-- One order of the additions for every entry: blockwise if input blocks are used, left to right
otherwise. -/
def fixedOrder (N : Nat) (a b : Nat → Nat → α) (transposed : Bool) (bi i j : Nat) : α :=
  if transposed = true ∧ bi ≠ 0 then bdot bi (N / bi) (a i) (b j)
  else dot N (a i) fun k => if transposed then b j k else b k j

private theorem submatrixEntry_fixed {N : Nat} (a b : Nat → Nat → α) {transposed : Bool}
    {bi s : Nat} (hs : transposed = true → bi ≠ 0 → 4 ≤ s) (i j : Nat) :
    submatrixEntry N a b transposed bi s i j = fixedOrder N a b transposed bi i j := by
  unfold submatrixEntry fixedOrder
  cases transposed with
  | false => rfl
  | true =>
    by_cases h0 : bi = 0
    · simp [h0]
    · have := hs rfl h0
      rw [if_neg (by decide), if_neg (by omega), if_pos ⟨rfl, h0⟩]

private theorem size_ge {d q : Nat} (h4 : 4 ∣ q) (h0 : 0 < q) :
    4 ∣ 2 ^ d * q ∧ 4 ≤ 2 ^ d * q := by
  have h : 4 ∣ 2 ^ d * q := Dvd.dvd.mul_left h4 _
  exact ⟨h, Nat.le_of_dvd (Nat.mul_pos (Nat.two_pow_pos d) h0) h⟩

/-- **C115**, distributed, every rounding.  `N = 2^e · q` where packages and blocks of `q` rows
are small enough not to be split; if input blocks are used, they divide the rows and `q` is a
multiple of the four rows of a register block.  Then every execution adds every entry in one and the
same order, which no other setting has an influence on. -/
theorem C115_pseudodynamic (p : Params) (N e q : Nat) (A B : Array α) (a b : Nat → Nat → α)
    (transposed : Bool) (br bi reps L : Nat) (hA : Holds A N N a) (hB : Holds B N N b)
    (hN : N = 2 ^ e * q) (hq : q ≤ p.min_work_size) (hbr : q ≤ br) (hL : 0 < L) (hr : 0 < reps)
    (hbi : transposed = true → bi ≠ 0 → 4 ∣ q ∧ bi ∣ N) :
    pseudodynamic_matrix_multiply p N A B transposed br bi reps L =
      ND.pure (rowMajor N (fixedOrder N a b transposed bi)) := by
  refine matrix_multiply_blocks p N e q A B transposed bi br reps L _ hN hq hbr hL hr
    fun d hd x y hx hy => ?_
  rcases Nat.eq_zero_or_pos q with rfl | h0
  · rw [C09_calculate_submatrix N A B a b transposed bi x y _ hA hB hx hy
      (fun _ _ h => by rw [Nat.mul_zero] at h; omega)]
    exact congrArg _ (rect_congr fun i hi => by rw [Nat.mul_zero] at hi; omega)
  · rw [C09_calculate_submatrix N A B a b transposed bi x y _ hA hB hx hy
      fun h1 h2 _ => ⟨(size_ge (hbi h1 h2).1 h0).1, (hbi h1 h2).2⟩]
    exact congrArg _ (rect_congr fun i _ j _ => submatrixEntry_fixed a b
      (fun h1 h2 => (size_ge (hbi h1 h2).1 h0).2) _ _)

/-- **C115**, single node, every rounding. -/
theorem C115_single (N e q : Nat) (A B : Array α) (a b : Nat → Nat → α)
    (transposed : Bool) (br bi reps : Nat) (hA : Holds A N N a) (hB : Holds B N N b)
    (hN : N = 2 ^ e * q) (hbr : q ≤ br) (hr : 0 < reps)
    (hbi : transposed = true → bi ≠ 0 → 4 ∣ q ∧ bi ∣ N) :
    single_matrix_multiply N A B transposed br bi reps =
      ND.pure (rowMajor N (fixedOrder N a b transposed bi)) := by
  obtain ⟨d, hd, h1, h2⟩ := halving_stops hbr e
  have hN' : N = 2 ^ (e - d) * (2 ^ d * q) := by
    rw [← Nat.mul_assoc, ← Nat.pow_add, hN]; congr 2; omega
  rcases Nat.eq_zero_or_pos q with rfl | h0
  · rw [C10_single N (e - d) _ A B a b transposed br bi reps hA hB hN' h1 h2
      (fun _ _ h => by rw [Nat.mul_zero] at h; omega) hr]
    rw [Nat.mul_zero] at hN
    exact congrArg _ (rect_congr fun i hi => by omega)
  · rw [C10_single N (e - d) _ A B a b transposed br bi reps hA hB hN' h1 h2
      (fun h1 h2 _ => ⟨(size_ge (hbi h1 h2).1 h0).1, (hbi h1 h2).2⟩) hr]
    exact congrArg _ (rect_congr fun i _ j _ => submatrixEntry_fixed a b
      (fun h1 h2 => (size_ge (hbi h1 h2).1 h0).2) _ _)

/-- **C115**, every rounding: any two runs of the two algorithms on the same matrices have the same
result, whatever the numbers of localities, the balancing parameters, the sizes of the result blocks,
the repetitions and the orders of the tasks. -/
theorem C115_reproducible (N e q : Nat) (A B : Array α) (a b : Nat → Nat → α) (transposed : Bool)
    (bi : Nat) (hA : Holds A N N a) (hB : Holds B N N b) (hN : N = 2 ^ e * q)
    (hbi : transposed = true → bi ≠ 0 → 4 ∣ q ∧ bi ∣ N) :
    ∃ C : Array α,
      (∀ p br reps L, q ≤ p.min_work_size → q ≤ br → 0 < L → 0 < reps →
        pseudodynamic_matrix_multiply p N A B transposed br bi reps L = ND.pure C) ∧
      ∀ br reps, q ≤ br → 0 < reps →
        single_matrix_multiply N A B transposed br bi reps = ND.pure C :=
  ⟨_, fun p br reps L hq hbr hL hr =>
    C115_pseudodynamic p N e q A B a b transposed br bi reps L hA hB hN hq hbr hL hr hbi,
    fun br reps hbr hr => C115_single N e q A B a b transposed br bi reps hA hB hN hbr hr hbi⟩

/-- **C115**, powers of two: packages and result blocks of at least four rows suffice. -/
theorem C115_pow2 (e : Nat) (he : 2 ≤ e) (A B : Array α) (a b : Nat → Nat → α) (transposed : Bool)
    (bi : Nat) (hA : Holds A (2 ^ e) (2 ^ e) a) (hB : Holds B (2 ^ e) (2 ^ e) b)
    (hbi : bi = 0 ∨ bi ∣ 2 ^ e) :
    ∃ C : Array α,
      (∀ p br reps L, 4 ≤ p.min_work_size → 4 ≤ br → 0 < L → 0 < reps →
        pseudodynamic_matrix_multiply p (2 ^ e) A B transposed br bi reps L = ND.pure C) ∧
      ∀ br reps, 4 ≤ br → 0 < reps →
        single_matrix_multiply (2 ^ e) A B transposed br bi reps = ND.pure C :=
  C115_reproducible (2 ^ e) (e - 2) 4 A B a b transposed bi hA hB
    (by rw [show (4 : Nat) = 2 ^ 2 from rfl, ← Nat.pow_add]; congr 1; omega)
    fun _ h0 => ⟨Nat.dvd_refl 4, hbi.resolve_left h0⟩

/-! ### Smaller packages and blocks -/

open SameBits

private theorem ones (bi : Nat) : Ones bi fun _ => one := fun _ => .inl rfl

/-- **C115**, single node: `block_result` has an influence below four.  For every power of two, all
input blocks of at least two elements that do not fill the row and every decision on fused
operations there are matrices of doubles whose product differs in every entry. -/
theorem C115_single_blocks (fuse : Double → Double → Double → Bool) (e bi : Nat) (he : 2 ≤ e)
    (hbi : 2 ≤ bi) (hd : bi ∣ 2 ^ e) (hlt : bi < 2 ^ e) :
    Double.ofInt 0 (2 ^ 53) ≠ Double.ofInt 0 (2 ^ 53 + 2) ∧
    ∃ A B : Array Double, A.size = 2 ^ e * 2 ^ e ∧ B.size = 2 ^ e * 2 ^ e ∧
      ∀ br br' reps reps', 1 ≤ br → br < 4 → 4 ≤ br' → 0 < reps → 0 < reps' →
        @single_matrix_multiply Double (Double.arith fuse) (2 ^ e) A B true br bi reps =
          ND.pure (rowMajor (2 ^ e) fun _ _ => Double.ofInt 0 (2 ^ 53)) ∧
        @single_matrix_multiply Double (Double.arith fuse) (2 ^ e) A B true br' bi reps' =
          ND.pure (rowMajor (2 ^ e) fun _ _ => Double.ofInt 0 (2 ^ 53 + 2)) := by
  let _ := Double.arith fuse
  have h2e : 0 < 2 ^ e := Nat.two_pow_pos e
  refine ⟨x_ne, rowMajor (2 ^ e) fun _ k => xRow bi k, rowMajor (2 ^ e) fun _ _ => one, rect_size ..,
    rect_size .., fun br br' reps reps' h1 h4 h4' hr hr' => ⟨?_, ?_⟩⟩
  · obtain ⟨d, hd', g1, g2⟩ := halving_stops h1 e
    rw [C10_single (2 ^ e) (e - d) (2 ^ d * 1) _ _ _ _ true br bi reps (holds_rect _ _ _)
      (holds_rect _ _ _) (by rw [Nat.mul_one, ← Nat.pow_add]; congr 1; omega) g1 g2
      (fun _ _ h => by omega) hr]
    refine congrArg _ (rect_congr fun i _ j _ => ?_)
    unfold submatrixEntry
    rw [if_neg (by decide), if_pos (.inr (by omega))]
    exact dot_x fuse bi _ h2e _ (ones bi)
  · rw [C115_single (2 ^ e) (e - 2) 4 _ _ _ _ true br' bi reps' (holds_rect _ _ _)
      (holds_rect _ _ _) (by rw [show (4 : Nat) = 2 ^ 2 from rfl, ← Nat.pow_add]; congr 1; omega)
      h4' hr' fun _ _ => ⟨Nat.dvd_refl 4, hd⟩]
    refine congrArg _ (rect_congr fun i _ j _ => ?_)
    unfold fixedOrder
    rw [if_pos ⟨rfl, by omega⟩]
    exact bdot_x fuse bi _ hbi (two_blocks h2e hd hlt) _ (ones bi)

private theorem four_dvd {d : Nat} (h : 4 ≤ 2 ^ d * 1) : 4 ∣ 2 ^ d * 1 := by
  rw [Nat.mul_one] at h ⊢
  have h2d : 2 ≤ d := by
    apply Classical.byContradiction; intro hn
    have : d = 0 ∨ d = 1 := by omega
    rcases this with rfl | rfl <;> simp at h
  exact ⟨2 ^ (d - 2), by rw [show (4 : Nat) = 2 ^ 2 by rfl, ← Nat.pow_add]; congr 1; omega⟩

/-- With packages of fewer than four rows allowed and more localities than the loads can be spread
over, the schedule has a package of fewer than four rows. -/
private theorem small_package (p : Params) (e L : Nat) (hN63 : 2 ^ e * 2 ^ e < 2 ^ 63)
    (hmin : 1 ≤ p.min_work_size) (hmin' : p.min_work_size < 4) (hdiff : p.max_work_difference ≤ 1)
    (hL : 2 ^ e * 2 ^ e + 1 < 2 * L) :
    ∃ aw, create_schedule p (2 ^ e) L = .ok aw ∧ ∃ ws ∈ aw, ∃ w ∈ ws, 0 < w.N ∧ w.N < 4 := by
  have hL0 : 0 < L := by omega
  have hNN : 0 < 2 ^ e * 2 ^ e := Nat.mul_pos (Nat.two_pow_pos e) (Nat.two_pow_pos e)
  obtain ⟨k, s, _, h1, h2, h3⟩ := schedule_state p (2 ^ e) L hL0
  have hI := (iter_inv hL0 h1).1
  have hP := iter_parity hL0 h1
  have hacc := C18_accounting_exact p (2 ^ e) L e 1 k s hL0 (by omega) hmin h1
  have hidle : 0 ∈ s.total_work := by
    apply Classical.byContradiction
    intro hn
    have := sum_ge_of_even (tw := s.total_work)
      (fun t ht => Nat.pos_of_ne_zero fun h0 => hn (h0 ▸ ht))
      (fun i h0 hi => hP i h0 (by rw [← hI.len2]; exact hi)) (by rw [hI.len2]; exact hL0)
    rw [hI.total, hI.len2] at this
    omega
  obtain ⟨hi, him, hib⟩ : ∃ hi ∈ s.total_work, ∀ t ∈ s.total_work, t ≤ hi := by
    have hne : s.total_work ≠ [] := fun h => by rw [h] at hidle; cases hidle
    exact ⟨s.total_work.max hne, List.max_mem hne, fun t ht => List.le_max_of_mem ht⟩
  have hipos : 0 < hi := by
    apply Classical.byContradiction; intro h0
    have : s.total_work.sum = 0 := List.sum_eq_zero fun t ht => by
      have := hib t ht; omega
    rw [hI.total] at this; omega
  have hext : Extent s.total_work 0 hi := ⟨hidle, him, fun t ht => ⟨Nat.zero_le _, hib t ht⟩⟩
  obtain ⟨i, hil, hie⟩ := List.getElem_of_mem him
  have hil' : i < s.all_work.length := by rw [hI.len1, ← hI.len2]; exact hil
  have hload : ((s.all_work[i]).map fun w => w.N * w.N).sum = hi := by
    have := congrArg (·[i]?) hacc
    simp only [List.getElem?_map, List.getElem?_eq_getElem hil, List.getElem?_eq_getElem hil',
      Option.map_some, Option.some.injEq] at this
    rw [← this, hie]
  refine ⟨s.all_work, by unfold create_schedule; rw [h3]; rfl, s.all_work[i], List.getElem_mem hil',
    ?_⟩
  -- a package with a positive area
  obtain ⟨w, hw, hw0⟩ : ∃ w ∈ s.all_work[i], 0 < w.N := by
    apply Classical.byContradiction
    intro hn
    have : ((s.all_work[i]).map fun w => w.N * w.N).sum = 0 := List.sum_eq_zero fun x hx => by
      obtain ⟨w, hw, rfl⟩ := List.mem_map.1 hx
      rcases Nat.eq_zero_or_pos w.N with h | h
      · rw [h, Nat.zero_mul]
      · exact absurd ⟨w, hw, h⟩ hn
    omega
  refine ⟨w, hw, hw0, ?_⟩
  apply Classical.byContradiction
  intro hbig
  obtain ⟨s', e', hC⟩ := C21_stops_for_reason p (2 ^ e) L hL0 hN63
  obtain rfl : s = s' := by rw [h3] at e'; cases e'; rfl
  rcases hC with hC | hC
  · have := hC 0 hi hext
    omega
  · have := hC 0 hi hext i _ (by rw [List.getElem?_eq_getElem hil, hie])
      (List.getElem?_eq_getElem hil') w hw (by omega)
    have hle : w.N * w.N ≤ ((s.all_work[i]).map fun w => w.N * w.N).sum :=
      le_map_sum (f := fun w : Work => w.N * w.N) hw
    rw [hload] at hle
    rw [Int.abs_eq_natAbs] at this
    generalize w.N * w.N = q at *
    omega

/-- **C115**, distributed: the number of localities and the balancing parameters have an influence
if packages of fewer than four rows are allowed.  The matrices are those of doubles above; with one
computing locality, or if packages of fewer than four rows are not allowed, every entry is `2^53 + 2`;
with many localities the result is another one. -/
theorem C115_localities (fuse : Double → Double → Double → Bool) (e bi : Nat) (he : 2 ≤ e)
    (hN63 : 2 ^ e * 2 ^ e < 2 ^ 63) (hbi : 2 ≤ bi) (hd : bi ∣ 2 ^ e) (hlt : bi < 2 ^ e) :
    ∃ A B : Array Double, A.size = 2 ^ e * 2 ^ e ∧ B.size = 2 ^ e * 2 ^ e ∧
      ∀ (p p' : Params) (br br' reps reps' L L' : Nat), 4 ≤ br → 4 ≤ br' → 0 < reps → 0 < reps' →
        (L = 1 ∨ L = 2) ∧ 1 ≤ p.min_work_size ∨ 0 < L ∧ 4 ≤ p.min_work_size →
        1 ≤ p'.min_work_size → p'.min_work_size < 4 → p'.max_work_difference ≤ 1 →
        2 ^ e * 2 ^ e + 1 < 2 * (L' - 1) →
        ∃ C C' : Array Double,
          @pseudodynamic_matrix_multiply Double (Double.arith fuse) p (2 ^ e) A B true br bi reps L =
            ND.pure C ∧
          @pseudodynamic_matrix_multiply Double (Double.arith fuse) p' (2 ^ e) A B true br' bi reps' L' =
            ND.pure C' ∧
          C ≠ C' := by
  let _ := Double.arith fuse
  have h2e : 0 < 2 ^ e := Nat.two_pow_pos e
  have h4e : 2 ^ e = 2 ^ (e - 2) * 4 := by
    rw [show (4 : Nat) = 2 ^ 2 from rfl, ← Nat.pow_add]; congr 1; omega
  have hA := holds_rect (2 ^ e) (2 ^ e) fun (_ k : Nat) => xRow bi k
  have hB := holds_rect (2 ^ e) (2 ^ e) fun (_ _ : Nat) => one
  refine ⟨rowMajor (2 ^ e) fun _ k => xRow bi k, rowMajor (2 ^ e) fun _ _ => one, rect_size ..,
    rect_size .., fun p p' br br' reps reps' L L' hbr hbr' hr hr' hp hmin hmin' hdiff hL' => ?_⟩
  have hbig : pseudodynamic_matrix_multiply p (2 ^ e) (rowMajor (2 ^ e) fun _ k => xRow bi k)
      (rowMajor (2 ^ e) fun _ _ => one) true br bi reps L =
      ND.pure (rowMajor (2 ^ e) fun _ _ => Double.ofInt 0 (2 ^ 53 + 2)) := by
    have hfix : ∀ i j, fixedOrder (2 ^ e) (fun (_ k : Nat) => xRow bi k) (fun _ _ => one) true bi i j =
        Double.ofInt 0 (2 ^ 53 + 2) := by
      intro i j
      unfold fixedOrder
      rw [if_pos ⟨rfl, by omega⟩]
      exact bdot_x fuse bi _ hbi (two_blocks h2e hd hlt) _ (ones bi)
    rcases hp with ⟨hL, h1⟩ | ⟨hL, h4⟩
    · rw [C72_one_locality p (2 ^ e) _ _ true br bi reps L hL hN63 (.inr h1),
        C115_single (2 ^ e) (e - 2) 4 _ _ _ _ true br bi reps hA hB h4e hbr hr
          fun _ _ => ⟨Nat.dvd_refl 4, hd⟩]
      exact congrArg _ (rect_congr fun i _ j _ => hfix i j)
    · rw [C115_pseudodynamic p (2 ^ e) (e - 2) 4 _ _ _ _ true br bi reps L hA hB h4e h4 hbr hL hr
          fun _ _ => ⟨Nat.dvd_refl 4, hd⟩]
      exact congrArg _ (rect_congr fun i _ j _ => hfix i j)
  obtain ⟨aw, haw, ws, hws, w, hw, hw0, hw4⟩ := small_package p' e (L' - 1) hN63 hmin hmin' hdiff hL'
  have hL1 : (if 1 < L' then L' - 1 else L') = L' - 1 := if_pos (by omega)
  obtain ⟨_, k, s, hi, _, _, hs⟩ := schedule_ok haw
  have hI := (iter_inv (by omega) hi).1
  have hE := iter_even (by omega) (N := 2 ^ e) (e := e) (q := 1) (by omega) hmin hi
  have hin : ∀ ws ∈ aw, ∀ w ∈ ws, w.x + w.N ≤ 2 ^ e ∧ w.y + w.N ≤ 2 ^ e := fun ws hws w hw =>
    hI.inside w (by rw [hs]; exact List.mem_flatten.2 ⟨ws, hws, hw⟩)
  obtain ⟨C', g1, _, g2, _⟩ := C107_pseudodynamic p' (2 ^ e) _ _ _ _ true br' bi reps' L' aw hA hB
    (by rw [hL1]; exact haw) (fun ws hws w hw => by
      have h := hin ws hws w hw
      have hx := (extent_bound br' w.N).2
      refine leafIn_of_dvd (by omega) (by omega) fun _ _ h4 => ⟨?_, hd⟩
      obtain ⟨d, hd⟩ := hE.pow w (by rw [hs]; exact List.mem_flatten.2 ⟨ws, hws, hw⟩)
      obtain ⟨d', hd', k1, k2⟩ := halving_stops (q := 1) (br := br') (by omega) d
      have : leafSize br' w.N = 2 ^ d' * 1 := by
        rw [hd, show 2 ^ d * 1 = 2 ^ (d - d') * (2 ^ d' * 1) by
          rw [← Nat.mul_assoc, ← Nat.pow_add]; congr 2; omega]
        exact leafSize_halves k1 k2
      rw [this] at h4 ⊢
      exact four_dvd h4) hr'
  refine ⟨_, C', hbig, g1, fun hcc => ?_⟩
  have h := hin ws hws w hw
  have hcell := g2 ws hws w hw 0 hw0 0 hw0
  rw [source_le (by omega) (by rw [Nat.zero_mul, Nat.add_zero]; exact Nat.mul_pos hw0 hw0), ← hcc,
    Nat.add_zero, Nat.add_zero] at hcell
  rw [holds_rect (2 ^ e) (2 ^ e) (fun _ _ => Double.ofInt 0 (2 ^ 53 + 2)) w.x (by omega) w.y
    (by omega)] at hcell
  rw [Option.map_some, Option.getD_some, leafSize_le (by omega)] at hcell
  unfold leafEntry at hcell
  rw [if_neg (by decide), if_pos (.inr hw4), dot_x fuse bi _ h2e _ (ones bi)] at hcell
  exact x_ne (Option.some.inj hcell).symm

section Examples

-- C115_reproducible: 48 rows, input blocks of 8, all parameters that do not split below 12 rows
example (A B : Array Double) (a b : Nat → Nat → Double) (hA : Holds A 48 48 a)
    (hB : Holds B 48 48 b) (fuse : Double → Double → Double → Bool) : ∃ C : Array Double,
      (∀ p br reps L, 12 ≤ p.min_work_size → 12 ≤ br → 0 < L → 0 < reps →
        @pseudodynamic_matrix_multiply Double (Double.arith fuse) p 48 A B true br 8 reps L =
          ND.pure C) ∧
      ∀ br reps, 12 ≤ br → 0 < reps →
        @single_matrix_multiply Double (Double.arith fuse) 48 A B true br 8 reps = ND.pure C :=
  @C115_reproducible Double (Double.arith fuse) 48 2 12 A B a b true 8 hA hB rfl
    fun _ _ => ⟨by decide, by decide⟩

-- C115_single: concrete matrices
example : @single_matrix_multiply Nat (exact Nat) 8 (rect 8 8 fun i j => i + j)
    (rect 8 8 fun i j => i * j) true 5 4 2 = ND.pure (rowMajor 8
      (@fixedOrder Nat (exact Nat) 8 (fun i j => i + j) (fun i j => i * j) true 4)) :=
  @C115_single Nat (exact Nat) 8 1 4 _ _ _ _ true 5 4 2 (holds_rect _ _ _) (holds_rect _ _ _) rfl
    (by decide) (by decide) fun _ _ => ⟨by decide, by decide⟩

-- C115_pseudodynamic: five localities
example : @pseudodynamic_matrix_multiply Nat (exact Nat) ⟨4, 10, fun _ _ => false⟩ 16
    (rect 16 16 fun i j => i + j) (rect 16 16 fun i j => i * j) true 7 8 2 5 = ND.pure (rowMajor 16
      (@fixedOrder Nat (exact Nat) 16 (fun i j => i + j) (fun i j => i * j) true 8)) :=
  @C115_pseudodynamic Nat (exact Nat) _ 16 2 4 _ _ _ _ true 7 8 2 5 (holds_rect _ _ _)
    (holds_rect _ _ _) rfl (Nat.le_refl 4) (by decide) (by decide) (by decide)
    fun _ _ => ⟨by decide, by decide⟩

-- C115_pow2: a matrix of doubles
example (fuse : Double → Double → Double → Bool) : ∃ C : Array Double,
      (∀ p br reps L, 4 ≤ p.min_work_size → 4 ≤ br → 0 < L → 0 < reps →
        @pseudodynamic_matrix_multiply Double (Double.arith fuse) p 8
          (rect 8 8 fun i j => Double.lit (i + j) 1) (rect 8 8 fun i j => Double.lit (i * j) 1) true
          br 2 reps L = ND.pure C) ∧
      ∀ br reps, 4 ≤ br → 0 < reps →
        @single_matrix_multiply Double (Double.arith fuse) 8
          (rect 8 8 fun i j => Double.lit (i + j) 1) (rect 8 8 fun i j => Double.lit (i * j) 1) true
          br 2 reps = ND.pure C :=
  @C115_pow2 Double (Double.arith fuse) 3 (by decide) _ _ _ _ true 2 (holds_rect _ _ _)
    (holds_rect _ _ _) (.inr (by decide))

-- C115_single_blocks: 16 rows, input blocks of 4
example (fuse : Double → Double → Double → Bool) : ∃ A B : Array Double,
    @single_matrix_multiply Double (Double.arith fuse) 16 A B true 2 4 1 ≠
      @single_matrix_multiply Double (Double.arith fuse) 16 A B true 8 4 1 := by
  obtain ⟨_, A, B, _, _, h⟩ := C115_single_blocks fuse 4 4 (by decide) (by decide) (by decide) (by decide)
  obtain ⟨h1, h2⟩ := h 2 8 1 1 (by decide) (by decide) (by decide) (by decide) (by decide)
  refine ⟨A, B, fun he => ?_⟩
  rw [show (2 : Nat) ^ 4 = 16 from rfl] at h1 h2
  rw [h1, h2] at he
  have := (congrFun he (.ok _)).mp rfl
  have h0 := congrArg (·[0]?) (Except.ok.inj this)
  simp only [rowMajor, rect, Array.getElem?_ofFn] at h0
  exact x_ne (Option.some.inj h0)

-- C115_localities: 4 rows, one locality against 12
example (fuse : Double → Double → Double → Bool) : ∃ (A B C C' : Array Double) (p : Params),
    @pseudodynamic_matrix_multiply Double (Double.arith fuse) p 4 A B true 4 2 1 1 = ND.pure C ∧
    @pseudodynamic_matrix_multiply Double (Double.arith fuse) p 4 A B true 4 2 1 12 = ND.pure C' ∧
    C ≠ C' := by
  obtain ⟨A, B, _, _, h⟩ := C115_localities fuse 2 2 (by decide) (by decide) (by decide) (by decide)
    (by decide)
  obtain ⟨C, C', h⟩ := h ⟨2, 1, fun _ _ => false⟩ ⟨2, 1, fun _ _ => false⟩ 4 4 1 1 1 12 (by decide)
    (by decide) (by decide) (by decide) (.inl ⟨.inl rfl, by decide⟩) (by decide) (by decide)
    (by decide) (by decide)
  exact ⟨A, B, C, C', _, h⟩

end Examples

end Verif.Props
