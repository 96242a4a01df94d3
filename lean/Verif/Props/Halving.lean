import Verif.Proof.Halving
import Verif.Props.Schedule
/-
Property C107: what the recursive single-node multiplication and the distributed multiplication
return for every matrix size, every block size and every schedule.
-/
namespace Verif.Props
open Verif.Kernel Verif.Recursive Verif.StaticImproved
variable {α : Type} [Arith α]

/-- **C107**, one block: `calculate_submatrix` multiplies every block inside the matrix, or leaves
the matrices. -/
theorem C107_block (N : Nat) (A B : Array α) (a b : Nat → Nat → α) (transposed : Bool)
    (bi x y s : Nat) (hA : Holds A N N a) (hB : Holds B N N b) (hA' : A.size = N * N)
    (hB' : B.size = N * N) (hx : x + s ≤ N) (hy : y + s ≤ N) :
    (LeafIn N transposed bi s (x + s) (y + s) →
      calculate_submatrix ⟨N, A, B, transposed, bi⟩ x y s =
        .ok (rect s s fun i j => leafEntry N a b transposed bi s (x + i) (y + j))) ∧
    (¬ LeafIn N transposed bi s (x + s) (y + s) →
      calculate_submatrix ⟨N, A, B, transposed, bi⟩ x y s = .error .oob) :=
  ⟨fun h => calculate_flat hA hB hx hy h, fun h => calculate_stuck hA' hB' hx h⟩

private theorem package_ok {N br : Nat} {A B : Array α} {a b : Nat → Nat → α} {transposed : Bool}
    {bi n x y : Nat} (hA : Holds A N N a) (hB : Holds B N N b) (hx : x + n ≤ N) (hy : y + n ≤ N)
    (h : LeafIn N transposed bi (leafSize br n) (x + extent br n) (y + extent br n)) :
    distribute_recursively (calculate_submatrix ⟨N, A, B, transposed, bi⟩) br x y n =
      (pure (spread br n fun i j =>
        leafEntry N a b transposed bi (leafSize br n) (x + i) (y + j)) : ND _) := by
  have he := (extent_bound br n).2
  exact distribute_spread (X := x + extent br n) (Y := y + extent br n)
    (G := leafEntry N a b transposed bi (leafSize br n)) n
    (fun x' y' hx' hy' => calculate_flat hA hB (by omega) (by omega) (leafIn_mono h hx' hy'))
    x y (Nat.le_refl _) (Nat.le_refl _)

private theorem package_stuck {N br : Nat} {A B : Array α} {a b : Nat → Nat → α}
    {transposed : Bool} {bi n x y : Nat} (hA : Holds A N N a) (hB : Holds B N N b)
    (hA' : A.size = N * N) (hB' : B.size = N * N) (hx : x + n ≤ N) (hy : y + n ≤ N)
    (h : ¬ LeafIn N transposed bi (leafSize br n) (x + extent br n) (y + extent br n)) :
    distribute_recursively (calculate_submatrix ⟨N, A, B, transposed, bi⟩) br x y n =
      ND.ofM (.error .oob) := by
  have he := (extent_bound br n).2
  refine nd_fail_of_all (distribute_last (X := x + extent br n) (Y := y + extent br n)
    (fun _ _ _ _ h => calculate_size h) n (fun x' y' hx' hy' e hm => ?_) (fun x' y' hx' hy' => ?_)
    x y rfl rfl) (distribute_exists _ _ _ _ _)
  · by_cases hl : LeafIn N transposed bi (leafSize br n) (x' + leafSize br n) (y' + leafSize br n)
    · rw [calculate_flat hA hB (by omega) (by omega) hl] at hm; cases hm
    · rw [calculate_stuck hA' hB' (by omega) hl] at hm; cases hm; rfl
  · exact calculate_stuck hA' hB' (by omega) (by rw [hx', hy']; exact h)

/-- **C107**, single node.  For every size, every block sizes and every execution the result is
the entries of the product where `source` says and zeros elsewhere, provided that the last
block reached can be multiplied inside the matrices. -/
theorem C107_single (N : Nat) (A B : Array α) (a b : Nat → Nat → α) (transposed : Bool)
    (br bi reps : Nat) (hA : Holds A N N a) (hB : Holds B N N b)
    (hl : LeafIn N transposed bi (leafSize br N) (extent br N) (extent br N)) (hr : 0 < reps) :
    single_matrix_multiply N A B transposed br bi reps =
      ND.pure (spread br N (leafEntry N a b transposed bi (leafSize br N))) := by
  unfold single_matrix_multiply
  rw [nd_repeat _ _ _ hr]
  have := package_ok (x := 0) (y := 0) (br := br) (n := N) (bi := bi) (transposed := transposed)
    hA hB (by omega) (by omega) (by simpa using hl)
  simp only [Nat.zero_add] at this
  exact this

/-- **C107**, single node, otherwise: every execution accesses memory out of bounds. -/
theorem C107_single_ub (N : Nat) (A B : Array α) (transposed : Bool)
    (br bi reps : Nat) (hA : A.size = N * N) (hB : B.size = N * N)
    (hl : ¬ LeafIn N transposed bi (leafSize br N) (extent br N) (extent br N)) (hr : 0 < reps) :
    single_matrix_multiply N A B transposed br bi reps = ND.fail .oob := by
  unfold single_matrix_multiply
  rw [nd_repeat _ _ _ hr]
  exact package_stuck (x := 0) (y := 0) (holds_entry hA) (holds_entry hB) hA hB (by omega)
    (by omega) (by simpa using hl)

/-- **C107.** What `source` says: entries of the block reached by the halving, none of them twice;
all positions in row-major order if the halving is exact, not the last position otherwise. -/
theorem C107_source (br n : Nat) :
    (∀ p q, source br n p = some q → q.1 < extent br n ∧ q.2 < extent br n) ∧
    (∀ p p' q, source br n p = some q → source br n p' = some q → p = p') ∧
    (HalvesTo br n → ∀ p, p < n * n → source br n p = some (p / n, p % n)) ∧
    (0 < n → ¬ HalvesTo br n → source br n (n * n - 1) = none) ∧
    (extent br n ≤ n ∧ (extent br n = n ↔ HalvesTo br n)) :=
  ⟨fun _ _ h => source_lt h, fun _ _ _ h h' => source_inj h h', fun h _ hp => source_exact h hp,
    fun hn h => source_last hn h, (extent_bound br n).2, extent_eq⟩

/-- **C107.** The halving stops at `N / 2^e` for the first `e` where this is at most
`block_result`; the entries then fill a square of `2^e * (N / 2^e)` rows, the other positions are
zeros. -/
theorem C107_count (br n : Nat) :
    ∃ e, leafSize br n = n / 2 ^ e ∧ n / 2 ^ e ≤ br ∧ (∀ d, d < e → br < n / 2 ^ d) ∧
      ((Finset.range (n * n)).filter fun p => (source br n p).isSome).card =
        2 ^ e * leafSize br n * (2 ^ e * leafSize br n) := by
  obtain ⟨e, h1, h2, h3⟩ := leafSize_div br n
  exact ⟨e, h1, h2, h3, by rw [h1]; exact source_count h2 h3⟩

private theorem pure_inj {S : Type} {x y : S} (h : (ND.pure x : ND S) = ND.pure y) : x = y := by
  have : (ND.pure y : ND S) (.ok x) := by rw [← h]; exact rfl
  exact Except.ok.inj this

private theorem fail_ne_pure {S : Type} {y : S} {e : Err} (h : (ND.fail e : ND S) = ND.pure y) :
    False := by
  have : (ND.fail e : ND S) (.ok y) := by rw [h]; exact rfl
  cases this

/-- If the input blocks of the last row of a block end inside the matrix, they end with the row,
or the row is not the last one. -/
private theorem dvd_or_lt {N bi X : Nat} (hbi : 0 < bi) (hX : X ≤ N)
    (h : (X - 1) * N + ceilDiv N bi * bi ≤ N * N) : bi ∣ N ∨ X < N ∧ N < ceilDiv N bi * bi := by
  have hge : N ≤ ceilDiv N bi * bi := by
    apply Classical.byContradiction
    intro hn
    exact Nat.lt_irrefl _ ((lt_ceilDiv (t := ceilDiv N bi) hbi).2 (by omega))
  rcases Nat.eq_or_lt_of_le hge with he | hlt
  · exact .inl ⟨ceilDiv N bi, by rw [Nat.mul_comm]; exact he⟩
  · refine .inr ⟨?_, hlt⟩
    apply Classical.byContradiction
    intro hn
    have hXN : X = N := by omega
    subst hXN
    rcases Nat.eq_zero_or_pos X with rfl | h0
    · rw [Nat.mul_zero] at h; omega
    · have : (X - 1) * X + X = X * X := by rw [← Nat.succ_mul]; congr 1; omega
      omega

/-- The product of a matrix with ones in the first column and the matrix of ones. -/
private theorem ones_get {R : Type} [Semiring R] {N p : Nat} (h0 : 0 < N) (hp : p < N * N)
    (transposed : Bool) :
    (rowMajor N fun (_ _ : Nat) => ∑ k ∈ Finset.range N,
      (if k = 0 then (1 : R) else 0) * (if transposed = true then 1 else 1))[p]? = some 1 := by
  have : ∑ k ∈ Finset.range N,
      (if k = 0 then (1 : R) else 0) * (if transposed = true then 1 else 1) = 1 := by
    simp [h0]
  simp only [this, rowMajor, rect, Array.getElem?_ofFn, hp, dif_pos]

/-- One past the end of row `x` lies the first entry of row `x + 1`. -/
private theorem flat_next {R : Type} [Semiring R] {N : Nat} (h0 : 0 < N) (x k : Nat) :
    flat N (fun i j => if i = x + 1 ∧ j = 0 then (1 : R) else 0) (x * N + k) =
      if k = N then 1 else 0 := by
  unfold flat
  have : ((x * N + k) / N = x + 1 ∧ (x * N + k) % N = 0) ↔ k = N := by
    constructor
    · rintro ⟨h1, h2⟩
      have := Nat.div_add_mod (x * N + k) N
      rw [h1, h2, Nat.mul_comm, Nat.succ_mul] at this
      omega
    · rintro rfl
      have : x * k + k = (x + 1) * k + 0 := by rw [Nat.succ_mul]; omega
      rw [this, idx_div h0, idx_mod h0]
      exact ⟨rfl, rfl⟩
  simp only [this]

private theorem last_ne {R : Type} [Semiring R] [Nontrivial R] {o : Option R}
    (h : o = some (0 : R)) (h' : o = some (1 : R)) : False :=
  zero_ne_one (Option.some.inj (h.symm.trans h'))

/-- **C107**, single node, exact arithmetic.  The result is the product for all matrices if and
only if `N` can be halved without remainder down to a size of at most `block_result`, and that
size and the input blocks fit. -/
theorem C107_single_iff {R : Type} [Semiring R] [Nontrivial R] (N : Nat) (transposed : Bool)
    (br bi reps : Nat) (hr : 0 < reps) :
    (∀ A B : Array R, ∀ a b : Nat → Nat → R, Holds A N N a → Holds B N N b → A.size = N * N →
      B.size = N * N →
      @single_matrix_multiply R (exact R) N A B transposed br bi reps =
        ND.pure (rowMajor N fun i j =>
          ∑ k ∈ Finset.range N, a i k * (if transposed then b j k else b k j))) ↔
    HalvesTo br N ∧ InputFits N transposed bi (leafSize br N) := by
  let _ := exact R
  constructor
  · intro h
    have hN : HalvesTo br N := by
      apply Classical.byContradiction
      intro hN
      have h0 : 0 < N := by
        rcases Nat.eq_zero_or_pos N with rfl | h0
        · exact absurd ⟨0, 0, rfl, Nat.zero_le _, fun d hd => by omega⟩ hN
        · exact h0
      have hp : N * N - 1 < N * N := Nat.sub_lt (Nat.mul_pos h0 h0) (by decide)
      have := h (rowMajor N fun _ k => if k = 0 then 1 else 0) (rowMajor N fun _ _ => 1) _ _
        (holds_rect N N _) (holds_rect N N _) (rect_size ..) (rect_size ..)
      by_cases hl : LeafIn N transposed bi (leafSize br N) (extent br N) (extent br N)
      · rw [C107_single N _ _ _ _ transposed br bi reps (holds_rect N N _) (holds_rect N N _)
          hl hr] at this
        have he := pure_inj this
        refine last_ne ?_ (ones_get (R := R) h0 hp transposed)
        rw [← he, spread_get _ hp, source_last h0 hN]
        rfl
      · rw [C107_single_ub N _ _ transposed br bi reps (rect_size ..) (rect_size ..) hl hr] at this
        exact fail_ne_pure this
    refine ⟨hN, fun h1 h2 h3 => ?_⟩
    apply Classical.byContradiction
    intro hf
    have := h (rowMajor N fun _ _ => 0) (rowMajor N fun _ _ => 0) _ _
      (holds_rect N N _) (holds_rect N N _) (rect_size ..) (rect_size ..)
    rw [C107_single_ub N _ _ transposed br bi reps (rect_size ..) (rect_size ..) ?_ hr] at this
    · exact fail_ne_pure this
    · intro hl
      obtain ⟨g1, g2, _⟩ := hl h1 h2 h3
      rw [extent_eq.2 hN] at g2
      rcases dvd_or_lt (by omega) (Nat.le_refl _) g2 with hd | hd
      · exact hf ⟨g1, hd⟩
      · omega
  · rintro ⟨hN, hf⟩ A B a b hA hB _ _
    rw [C107_single N A B a b transposed br bi reps hA hB
      (leafIn_of_dvd (extent_bound br N).2 (extent_bound br N).2 hf) hr, spread_exact hN]
    congr 1
    refine rect_congr fun i _ j _ => ?_
    rw [leafEntry_dvd a b fun h1 h2 h3 => (hf h1 h2 h3).2]
    exact submatrixEntry_exact N a b transposed bi _ _ _ fun h1 h2 h3 => (hf h1 h2 h3).2

/-- **C107**, distributed.  `aw` is the schedule.  If the last block of every package can be
multiplied inside the matrices, every execution returns the same vector: in the square of each
package what `source` says, zeros in the cells of no package. -/
theorem C107_pseudodynamic (p : Params) (N : Nat) (A B : Array α) (a b : Nat → Nat → α)
    (transposed : Bool) (br bi reps L : Nat) (aw : List (List Work)) (hA : Holds A N N a)
    (hB : Holds B N N b) (haw : create_schedule p N (if 1 < L then L - 1 else L) = .ok aw)
    (hl : ∀ ws ∈ aw, ∀ w ∈ ws, LeafIn N transposed bi (leafSize br w.N) (w.x + extent br w.N)
      (w.y + extent br w.N)) (hr : 0 < reps) :
    ∃ C, pseudodynamic_matrix_multiply p N A B transposed br bi reps L = ND.pure C ∧
      C.size = N * N ∧
      (∀ ws ∈ aw, ∀ w ∈ ws, ∀ i, i < w.N → ∀ j, j < w.N →
        C[(w.x + i) * N + (w.y + j)]? = some (((source br w.N (i * w.N + j)).map fun q =>
          leafEntry N a b transposed bi (leafSize br w.N) (w.x + q.1) (w.y + q.2)).getD
            Arith.zero)) ∧
      ∀ r c, r < N → c < N → (∀ ws ∈ aw, ∀ w ∈ ws, ¬ Covers w r c) →
        C[r * N + c]? = some Arith.zero := by
  unfold pseudodynamic_matrix_multiply matrix_multiply
  simp only
  rw [haw, ND.ofM_ok, ND.pure_bind']
  obtain ⟨hL, k, s, hi, _, _, rfl⟩ := schedule_ok haw
  have hI := (iter_inv hL hi).1
  have hcp := computePackages_eq (mult := calculate_submatrix ⟨N, A, B, transposed, bi⟩) (br := br)
    (ws := s.all_work.flatten) (g := fun w => rect w.N w.N fun i j =>
      ((source br w.N (i * w.N + j)).map fun q =>
        leafEntry N a b transposed bi (leafSize br w.N) (w.x + q.1) (w.y + q.2)).getD Arith.zero)
    (fun w hw => by
      obtain ⟨ws, hws, hw'⟩ := List.mem_flatten.1 hw
      have := hI.inside w hw
      rw [package_ok hA hB this.1 this.2 (hl ws hws w hw'), spread_eq_rect])
  rw [hcp]
  let ws := s.all_work.flatten
  let g : Work → Nat → Nat → α := fun w i j => ((source br w.N (i * w.N + j)).map fun q =>
    leafEntry N a b transposed bi (leafSize br w.N) (w.x + q.1) (w.y + q.2)).getD Arith.zero
  let I : Array α → Prop := fun C => C.size = N * N ∧
    ∀ r c, r < N → c < N → (∀ w ∈ ws, ¬ Covers w r c) → C[r * N + c]? = some Arith.zero
  have hz : I (zeros (N * N)) := ⟨by simp, fun r c hr hc _ => by
    rw [zeros, Array.getElem?_replicate, if_pos (idx_lt hr hc)]⟩
  obtain ⟨C0, h1, h2, h3, h4⟩ := insert_cells (g := g) hz.1 hI.inside hI.apart
  have h4' : ∀ r c, r < N → c < N → (∀ w ∈ ws, ¬ Covers w r c) → C0[r * N + c]? = some Arith.zero :=
    fun r c hr hc hun => (h4 r c hr hc hun).trans (hz.2 r c hr hc hun)
  have hrep := nd_repeat_const (I := I) (r := C0)
    (body := fun _ C => ((pure (ws.map fun w => (w, rect w.N w.N (g w))) : ND _) >>= fun subs =>
      ND.runOn C (.par (subs.map fun ws => .act (insert_submatrix N ws.2 ws.1)))))
    ⟨h2, h4'⟩ (fun _ C hC => by
      rw [ND.pure_bind']
      obtain ⟨C1, k1, k2, k3, k4⟩ := insert_cells (g := g) hC.1 hI.inside hI.apart
      rw [k1]
      congr 1
      apply Array.ext_getElem?
      intro p
      rcases Nat.lt_or_ge p (N * N) with hp | hp
      · have h0 : 0 < N := by
          rcases Nat.eq_zero_or_pos N with rfl | h
          · omega
          · exact h
        have hrl : p / N < N := Nat.div_lt_of_lt_mul hp
        have hcl := Nat.mod_lt p h0
        have hpe : p = p / N * N + p % N := by
          rw [Nat.mul_comm]; exact (Nat.div_add_mod p _).symm
        rw [hpe]
        by_cases hun : ∀ w ∈ ws, ¬ Covers w (p / N) (p % N)
        · rw [k4 _ _ hrl hcl hun, h4' _ _ hrl hcl hun, hC.2 _ _ hrl hcl hun]
        · simp only [Classical.not_forall, Classical.not_not] at hun
          obtain ⟨w, hw, hc⟩ := hun
          unfold Covers at hc
          have e1 : p / N = w.x + (p / N - w.x) := by omega
          have e2 : p % N = w.y + (p % N - w.y) := by omega
          rw [e1, e2, k3 w hw _ (by omega) _ (by omega), h3 w hw _ (by omega) _ (by omega)]
      · rw [Array.getElem?_eq_none (by omega), Array.getElem?_eq_none (by omega)])
    hz reps hr
  refine ⟨C0, hrep, h2, fun ws hws w hw => h3 w (List.mem_flatten.2 ⟨ws, hws, hw⟩),
    fun r c hr hc hun => h4' r c hr hc fun w hw => ?_⟩
  obtain ⟨ws, hws, hw⟩ := List.mem_flatten.1 hw
  exact hun ws hws w hw

/-- **C107**, distributed, otherwise: every execution accesses memory out of bounds. -/
theorem C107_pseudodynamic_ub (p : Params) (N : Nat) (A B : Array α) (transposed : Bool)
    (br bi reps L : Nat) (aw : List (List Work)) (hA : A.size = N * N) (hB : B.size = N * N)
    (haw : create_schedule p N (if 1 < L then L - 1 else L) = .ok aw)
    (hl : ¬ ∀ ws ∈ aw, ∀ w ∈ ws, LeafIn N transposed bi (leafSize br w.N) (w.x + extent br w.N)
      (w.y + extent br w.N)) (hr : 0 < reps) :
    pseudodynamic_matrix_multiply p N A B transposed br bi reps L = ND.fail .oob := by
  unfold pseudodynamic_matrix_multiply matrix_multiply
  simp only
  rw [haw, ND.ofM_ok, ND.pure_bind']
  obtain ⟨hL, k, s, hi, _, _, rfl⟩ := schedule_ok haw
  have hI := (iter_inv hL hi).1
  have hcp := computePackages_stuck (mult := calculate_submatrix ⟨N, A, B, transposed, bi⟩)
    (br := br) (ws := s.all_work.flatten) (fun w hw => by
      have := hI.inside w hw
      by_cases hl : LeafIn N transposed bi (leafSize br w.N) (w.x + extent br w.N)
        (w.y + extent br w.N)
      · exact .inl ⟨_, package_ok (holds_entry hA) (holds_entry hB) this.1 this.2 hl⟩
      · exact .inr (package_stuck (holds_entry hA) (holds_entry hB) hA hB this.1 this.2 hl))
    (by
      simp only [Classical.not_forall] at hl
      obtain ⟨ws, hws, w, hw, hl⟩ := hl
      have hw' : w ∈ s.all_work.flatten := List.mem_flatten.2 ⟨ws, hws, hw⟩
      have := hI.inside w hw'
      exact ⟨w, hw', package_stuck (holds_entry hA) (holds_entry hB) hA hB this.1 this.2 hl⟩)
  rw [hcp]
  simp only [ofM_error_bind]
  exact nd_repeat _ _ _ hr

/-- **C107**, distributed, exact arithmetic.  The result is the product for all matrices if and
only if the packages of the schedule cover the matrix, every package can be halved without
remainder, and the resulting block sizes and the input blocks fit. -/
theorem C107_pseudodynamic_iff {R : Type} [Semiring R] [Nontrivial R] (p : Params) (N : Nat)
    (transposed : Bool) (br bi reps L : Nat) (aw : List (List Work))
    (haw : create_schedule p N (if 1 < L then L - 1 else L) = .ok aw) (hr : 0 < reps) :
    (∀ A B : Array R, ∀ a b : Nat → Nat → R, Holds A N N a → Holds B N N b → A.size = N * N →
      B.size = N * N →
      @pseudodynamic_matrix_multiply R (exact R) p N A B transposed br bi reps L =
        ND.pure (rowMajor N fun i j =>
          ∑ k ∈ Finset.range N, a i k * (if transposed then b j k else b k j))) ↔
    (∀ r c, r < N → c < N → ∃ ws ∈ aw, ∃ w ∈ ws, Covers w r c) ∧
    ∀ ws ∈ aw, ∀ w ∈ ws, HalvesTo br w.N ∧ InputFits N transposed bi (leafSize br w.N) := by
  let _ := exact R
  obtain ⟨hL, k, s, hi, _, _, hs⟩ := schedule_ok haw
  have hI := (iter_inv hL hi).1
  have hin : ∀ ws ∈ aw, ∀ w ∈ ws, w.x + w.N ≤ N ∧ w.y + w.N ≤ N := fun ws hws w hw =>
    hI.inside w (by rw [hs]; exact List.mem_flatten.2 ⟨ws, hws, hw⟩)
  clear hs hI hi hL
  constructor
  · intro h
    have hl : ∀ ws ∈ aw, ∀ w ∈ ws, LeafIn N transposed bi (leafSize br w.N)
        (w.x + extent br w.N) (w.y + extent br w.N) := by
      apply Classical.byContradiction
      intro hl
      have := h (rowMajor N fun _ _ => 0) (rowMajor N fun _ _ => 0) _ _
        (holds_rect N N _) (holds_rect N N _) (rect_size ..) (rect_size ..)
      rw [C107_pseudodynamic_ub p N _ _ transposed br bi reps L aw (rect_size ..) (rect_size ..)
        haw hl hr] at this
      exact fail_ne_pure this
    have key : ∀ a b : Nat → Nat → R,
        (∀ ws ∈ aw, ∀ w ∈ ws, ∀ i, i < w.N → ∀ j, j < w.N →
          (rowMajor N fun i j => ∑ k ∈ Finset.range N,
            a i k * (if transposed then b j k else b k j))[(w.x + i) * N + (w.y + j)]? =
            some (((source br w.N (i * w.N + j)).map fun q =>
          leafEntry N a b transposed bi (leafSize br w.N) (w.x + q.1) (w.y + q.2)).getD 0)) ∧
        ∀ r c, r < N → c < N → (∀ ws ∈ aw, ∀ w ∈ ws, ¬ Covers w r c) →
          (rowMajor N fun i j => ∑ k ∈ Finset.range N,
            a i k * (if transposed then b j k else b k j))[r * N + c]? = some 0 := by
      intro a b
      have h1 := h _ _ a b (holds_rect N N a) (holds_rect N N b) (rect_size ..) (rect_size ..)
      obtain ⟨C, h2, _, h3, h4⟩ := C107_pseudodynamic p N _ _ a b transposed br bi reps L aw
        (holds_rect N N a) (holds_rect N N b) haw hl hr
      rw [h2] at h1
      have := pure_inj h1
      subst this
      exact ⟨h3, h4⟩
    have ones := key (fun _ k => if k = 0 then 1 else 0) fun _ _ => 1
    refine ⟨fun r c hr' hc' => ?_, fun ws hws w hw => ?_⟩
    · apply Classical.byContradiction
      intro hn
      refine last_ne (ones.2 r c hr' hc' fun ws hws w hw hc => hn ⟨ws, hws, w, hw, hc⟩) ?_
      exact ones_get (by omega) (idx_lt hr' hc') transposed
    · have hi := hin ws hws w hw
      have hN : HalvesTo br w.N := by
        apply Classical.byContradiction
        intro hN
        have h0 : 0 < w.N := by
          rcases Nat.eq_zero_or_pos w.N with h0 | h0
          · rw [h0] at hN
            exact absurd ⟨0, 0, rfl, Nat.zero_le _, fun d hd => by omega⟩ hN
          · exact h0
        have h1 := ones.1 ws hws w hw (w.N - 1) (by omega) (w.N - 1) (by omega)
        have hp : (w.N - 1) * w.N + (w.N - 1) = w.N * w.N - 1 := by
          have : (w.N - 1) * w.N + w.N = w.N * w.N := by rw [← Nat.succ_mul]; congr 1; omega
          omega
        rw [hp, source_last h0 hN] at h1
        exact last_ne h1 (ones_get (by omega) (idx_lt (by omega) (by omega)) transposed)
      refine ⟨hN, fun h1 h2 h3 => ?_⟩
      obtain ⟨g1, g2, g3⟩ := hl ws hws w hw h1 h2 h3
      have hx := (extent_bound br w.N).1
      rw [extent_eq.2 hN] at g2 g3 hx
      refine ⟨g1, ?_⟩
      rcases dvd_or_lt (by omega) hi.1 g2 with hd | ⟨hlt, hgt⟩
      · exact hd
      · rcases dvd_or_lt (by omega) hi.2 g3 with hd | ⟨hlt', _⟩
        · exact hd
        · exfalso
          have := (key (fun i k => if i = w.x + 1 ∧ k = 0 then 1 else 0)
            (fun i k => if i = w.y + 1 ∧ k = 0 then 1 else 0)).1 ws hws w hw 0 (by omega) 0 (by omega)
          rw [source_exact hN (idx_lt (by omega) (by omega)), idx_div (by omega),
            idx_mod (by omega), Option.map_some, Option.getD_some] at this
          simp only [Nat.add_zero] at this
          rw [holds_rect N N _ w.x (by omega) w.y (by omega), leafEntry, if_neg (by simp [h1]),
            if_neg (by omega), bdot_exact] at this
          simp only [flat_next (show 0 < N by omega), h1] at this
          have he := Option.some.inj this
          simp [hgt] at he
  · rintro ⟨hcov, hw⟩ A B a b hA hB _ _
    obtain ⟨C, h2, h3, h4, h5⟩ := C107_pseudodynamic p N A B a b transposed br bi reps L aw
      hA hB haw (fun ws hws w hw' => by
        have := hin ws hws w hw'
        have := (extent_bound br w.N).2
        exact leafIn_of_dvd (by omega) (by omega) (hw ws hws w hw').2) hr
    rw [h2]
    congr 1
    refine eq_rect h3 fun r hr' c hc' => ?_
    obtain ⟨ws, hws, w, hw', hc⟩ := hcov r c hr' hc'
    unfold Covers at hc
    have hf := (hw ws hws w hw').2
    have e1 : r = w.x + (r - w.x) := by omega
    have e2 : c = w.y + (c - w.y) := by omega
    have h6 := h4 ws hws w hw' (r - w.x) (by omega) (c - w.y) (by omega)
    rw [source_exact (hw ws hws w hw').1 (idx_lt (by omega) (by omega)), idx_div (by omega),
      idx_mod (by omega), ← e1, ← e2, Option.map_some, Option.getD_some, ← e1, ← e2,
      leafEntry_dvd a b fun h1 h2 h3 => (hf h1 h2 h3).2] at h6
    rw [h6]
    congr 1
    exact submatrixEntry_exact N a b transposed bi _ _ _ fun h1 h2 h3 => (hf h1 h2 h3).2

section Examples
attribute [local instance] exact

/-- `5 × 5` with `block_result = 2`: the halving 5 → 2 is not exact, the result is wrong for some
matrices. -/
example : ¬ HalvesTo 2 5 := by rw [← extent_eq]; simp [extent]

/-- Where the entries of a `5 × 5` result come from: a `4 × 4` matrix squeezed into the first
sixteen of twenty-five elements. -/
example : (List.range 25).map (source 2 5) =
    ((List.range 16).map fun p => some (p / 4, p % 4)) ++ List.replicate 9 none := by
  simp [source, List.range_succ, List.replicate]

/-- In a `7 × 7` matrix with `block_result = 1` rows 2, 5 and 6 of the product are not computed at
all; sixteen of the forty-nine elements of the result are filled. -/
example : leafSize 1 7 = 1 ∧ extent 1 7 = 5 ∧
    (List.range 49).filterMap (source 1 7) =
      [(0, 0), (0, 1), (1, 0), (0, 3), (0, 4), (1, 3), (1, 1), (1, 4),
       (3, 0), (3, 1), (4, 0), (3, 3), (3, 4), (4, 3), (4, 1), (4, 4)] := by
  refine ⟨by simp [leafSize], by simp [extent], ?_⟩
  simp [source, List.range_succ]

/-- `N = 10`, `block_result = 4`, `block_input = 4`, `B` transposed: the blocks have two rows, the
register blocking is not used. -/
example (A B : Array Int) (a b : Nat → Nat → Int) (hA : Holds A 10 10 a) (hB : Holds B 10 10 b) :
    single_matrix_multiply 10 A B true 4 4 1 =
      ND.pure (spread 4 10 (leafEntry 10 a b true 4 2)) := by
  have h : leafSize 4 10 = 2 := by simp [leafSize]
  have := C107_single 10 A B a b true 4 4 1 hA hB (by rw [h]; intro _ _ h4; omega) (by decide)
  rwa [h] at this

/-- `N = 9`, `block_result = 4`, `block_input = 5`: the blocks end at row 8 of 9, so the input
blocks run into the next row but not out of the matrix, and the program returns sums with one
summand too many. -/
example (A B : Array Int) (a b : Nat → Nat → Int) (hA : Holds A 9 9 a) (hB : Holds B 9 9 b) :
    single_matrix_multiply 9 A B true 4 5 1 =
      ND.pure (spread 4 9 (leafEntry 9 a b true 5 4)) := by
  have h : leafSize 4 9 = 4 := by simp [leafSize]
  have h' : extent 4 9 = 8 := by simp [extent]
  have := C107_single 9 A B a b true 4 5 1 hA hB
    (by rw [h, h']; intro _ _ _; exact ⟨by decide, by decide, by decide⟩) (by decide)
  rwa [h] at this

/-- `N = 10`, `block_result = 8`, `block_input = 0` fits only without remainder: 10 → 5 does. -/
example : HalvesTo 8 10 ∧ InputFits 10 true 0 (leafSize 8 10) :=
  ⟨⟨1, 5, rfl, by decide, fun d hd => by
    have : d = 0 := by omega
    subst this; decide⟩, fun _ h => absurd rfl h⟩

/-- Some `4 × 4` matrices are not multiplied if `block_input = 3`. -/
example : ¬ ∀ A B : Array Int, ∀ a b : Nat → Nat → Int, Holds A 4 4 a → Holds B 4 4 b →
      A.size = 4 * 4 → B.size = 4 * 4 → single_matrix_multiply 4 A B true 4 3 1 =
        ND.pure (rowMajor 4 fun i j =>
          ∑ k ∈ Finset.range 4, a i k * (if true then b j k else b k j)) := by
  rw [C107_single_iff 4 true 4 3 1 (by decide)]
  rintro ⟨_, h⟩
  have h' : leafSize 4 4 = 4 := by simp [leafSize]
  rw [h'] at h
  exact absurd (h rfl (by decide) (by decide)).2 (by decide)

/-- The packages of the schedule of a `4 × 4` matrix on three computing localities have size one;
input blocks of length three do no harm, because they are not used. -/
example : ∃ aw, create_schedule exParams 4 (if 1 < 4 then 4 - 1 else 4) = .ok aw ∧
    ∀ ws ∈ aw, ∀ w ∈ ws, HalvesTo 1 w.N ∧ InputFits 4 true 3 (leafSize 1 w.N) := by
  refine ⟨_, rfl, fun ws hws w hw => ?_⟩
  have h1 : w.N = 1 := by
    revert w ws
    decide
  rw [h1]
  exact ⟨⟨0, 1, rfl, by decide, fun d hd => by omega⟩, fun _ _ h4 => by
    rw [leafSize_le (by decide)] at h4; omega⟩

/-- One locality, `3 × 3`, `block_result = 2`: the one package cannot be halved. -/
example : ¬ ∀ A B : Array Int, ∀ a b : Nat → Nat → Int, Holds A 3 3 a → Holds B 3 3 b →
      A.size = 3 * 3 → B.size = 3 * 3 →
      pseudodynamic_matrix_multiply exParams 3 A B false 2 0 1 1 =
        ND.pure (rowMajor 3 fun i j =>
          ∑ k ∈ Finset.range 3, a i k * (if false then b j k else b k j)) := by
  rw [C107_pseudodynamic_iff exParams 3 false 2 0 1 1 _ rfl (by decide)]
  rintro ⟨_, h⟩
  have := (h _ (List.mem_cons_self ..) ⟨0, 0, 3⟩ (by decide)).1
  rw [← extent_eq] at this
  simp [extent] at this

end Examples
end Verif.Props
