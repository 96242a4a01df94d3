import Verif.Proof.KernelTiled
import Verif.Props.Combined
import Verif.Props.Naive
/-
Reference kernel `kernel_tiled`: properties C37 and C38; padding and tiled layouts: properties C40
and C41.
-/
namespace Verif.Props
open Verif.KernelTiled Tiled
variable {α : Type} [Arith α]

/-- **C37**, any arithmetic and any block sizes that fit together: one outcome, the blockwise
product of the last repetition. -/
theorem C37_kernel_tiled (b : Blocking) (hb : b.Valid) (N : Nat) (A B : Array α)
    (f g : Nat → Nat → α) (hA : Holds A N N f) (hB : Holds B N N g) (transposed : Bool) (r : Nat) :
    KernelTiled.matrix_multiply b N A B transposed r = ND.pure (rowMajor N fun i j =>
      if r = 0 then Arith.zero else
      bdot b.L1_K_STEP (ceilDiv N b.L3_K_STEP * b.L3_K_STEP / b.L1_K_STEP)
        (fun k => pad N f i k) (fun k => pad N g k j)) := mm_ok hb hA hB transposed r

/-- **C37.** `kernel_tiled` with at least one repetition returns `A · B` for every size; it has no
other outcome (no error) in any interleaving. -/
theorem C37_kernel_tiled_exact {R : Type} [Semiring R] (N : Nat) (A B : Array R)
    (f g : Nat → Nat → R) (hA : Holds A N N f) (hB : Holds B N N g) (transposed : Bool) (r : Nat)
    (hr : 1 ≤ r) :
    @KernelTiled.matrix_multiply R (exact R) KernelTiled.blocking N A B transposed r =
      ND.pure (rowMajor N (matProd N f g)) := by
  rw [@C37_kernel_tiled R (exact R) _ KernelTiled.valid N A B f g hA hB transposed r]
  refine congrArg ND.pure (rect_congr fun i hi j hj => ?_)
  rw [if_neg (by omega), bdot_exact, blocks_mul KernelTiled.valid,
    sum_pad (le_padded KernelTiled.valid.k3) f g hi hj]
  rfl

/-- **C37.** Without repetitions the result is the zero matrix. -/
theorem C37_kernel_tiled_zero (N : Nat) (A B : Array α) (f g : Nat → Nat → α) (hA : Holds A N N f)
    (hB : Holds B N N g) (transposed : Bool) :
    KernelTiled.matrix_multiply KernelTiled.blocking N A B transposed 0 =
      ND.pure (rowMajor N fun _ _ => Arith.zero) :=
  C37_kernel_tiled _ KernelTiled.valid N A B f g hA hB transposed 0

/-- **C37.** No interleaving of the parallel loop contains a data race. -/
theorem C37_kernel_tiled_raceFree (b : Blocking) (hb : b.Valid) (N : Nat) (A B : Array α)
    (f g : Nat → Nat → α) (hA : Holds A N N f) (hB : Holds B N N g) {p At Bp}
    (h1 : setup b N A B = .ok p) (h2 : tileA b p = .ok At) (h3 : tileB b p = .ok Bp) (m : Mem α) :
    RaceFree m (KernelTiled.tree b p.X_size p.Y_size p.K_size At Bp) := by
  obtain ⟨QX, hX⟩ := X_eq hb N
  obtain ⟨QY, hY⟩ := Y_eq hb N
  obtain ⟨QK, hK⟩ := K_eq hb N
  have dX : b.L3_X ∣ QX * b.L1_X := hX ▸ Dvd.intro_left _ rfl
  have dY : b.L3_Y ∣ QY * b.L1_Y := hY ▸ Dvd.intro_left _ rfl
  have dK : b.L3_K_STEP ∣ QK * b.L1_K_STEP := hK ▸ Dvd.intro_left _ rfl
  rw [setup_ok hb hA hB] at h1
  injection h1 with h1
  subst h1
  obtain ⟨At', eA, _, hAt⟩ := tileA_ok (b := b) (p := ⟨X b N, Y b N, K b N,
    rect (X b N) (K b N) (pad N f), rect (K b N) (Y b N) (pad N g)⟩) hX hK hb.x1 hb.k1
    (holds_rect _ _ _)
  obtain ⟨Bp', eB, _, hBp⟩ := tileB_ok (b := b) (p := ⟨X b N, Y b N, K b N,
    rect (X b N) (K b N) (pad N f), rect (K b N) (Y b N) (pad N g)⟩) hY hK hb.y1 hb.k1
    (holds_rect _ _ _)
  rw [eA] at h2
  rw [eB] at h3
  injection h2 with h2
  injection h3 with h3
  subst h2 h3
  simp only [hX, hY, hK]
  exact (KernelTiled.tree_does hb dX dY dK hAt hBp).raceFree m

/-- **C38.** The flag `transposed` has no effect on `kernel_tiled`, whatever the inputs. -/
theorem C38_kernel_tiled_flag (b : Blocking) (N : Nat) (A B : Array α) (r : Nat) :
    KernelTiled.matrix_multiply b N A B true r = KernelTiled.matrix_multiply b N A B false r := rfl

/-- The product with the identity matrix. -/
theorem matProd_one {R : Type} [Semiring R] {N i j : Nat} (hi : i < N) (g : Nat → Nat → R) :
    matProd N (fun i j => if i = j then 1 else 0) g i j = g i j := by
  simp [matProd, hi]

/-- A matrix `g` with `I · g ≠ I · gᵀ`. -/
def skew {R : Type} [Semiring R] (i j : Nat) : R := if i = 0 ∧ j = 1 then 1 else 0

theorem pure_inj {R : Type} {x y : R} (h : ND.pure x = ND.pure y) : x = y := by
  have h1 : (ND.pure x) (.ok y) := by rw [h]; rfl
  injection h1 with h1
  exact h1.symm

theorem rowMajor_inj {R : Type} {N : Nat} {f g : Nat → Nat → R} (h : rowMajor N f = rowMajor N g)
    {i j : Nat} (hi : i < N) (hj : j < N) : f i j = g i j := by
  have e1 := holds_rect N N f i hi j hj
  have e2 := holds_rect N N g i hi j hj
  have h' : rect N N f = rect N N g := h
  rw [h', e2] at e1
  exact (Option.some.inj e1).symm

/-- **C38.** With the second matrix given transposed, `kernel_tiled` (called with `transposed`)
returns what the transposed reference returns exactly if `A · B` and `A · Bᵀ` are the same. -/
theorem C38_kernel_tiled_iff {R : Type} [Semiring R] (N : Nat) (A B : Array R)
    (f g : Nat → Nat → R) (hA : Holds A N N f) (hB : Holds B N N g) (r : Nat) (hr : 1 ≤ r) :
    @KernelTiled.matrix_multiply R (exact R) KernelTiled.blocking N A B true r =
      @Naive.naive_matrix_multiply_transposed R (exact R) N A B ↔
      ∀ i, i < N → ∀ j, j < N → matProd N f g i j = matProd N f (tr g) i j := by
  rw [C37_kernel_tiled_exact N A B f g hA hB true r hr,
    @C02_naive_transposed R (exact R) N A B f g hA hB]
  have e : ∀ i j, @dot R (exact R) N (f i) (fun k => g j k) = matProd N f (tr g) i j :=
    fun i j => dot_exact N _ _
  simp only [e]
  constructor
  · exact fun h i hi j hj => rowMajor_inj (pure_inj h) hi hj
  · exact fun h => congrArg ND.pure (rect_congr h)

/-- **C38.** For every size `N ≥ 2` there are inputs for which `kernel_tiled` with
`transposed = true` differs from the transposed reference. -/
theorem C38_kernel_tiled_differs {R : Type} [Semiring R] [Nontrivial R] (N : Nat) (hN : 2 ≤ N)
    (r : Nat) (hr : 1 ≤ r) : ∃ A B : Array R, A.size = N * N ∧ B.size = N * N ∧
    @KernelTiled.matrix_multiply R (exact R) KernelTiled.blocking N A B true r ≠
      @Naive.naive_matrix_multiply_transposed R (exact R) N A B := by
  refine ⟨rowMajor N fun i j => if i = j then 1 else 0, rowMajor N skew, by simp, by simp, ?_⟩
  rw [ne_eq, C38_kernel_tiled_iff N _ _ _ _ (holds_rect _ _ _) (holds_rect _ _ _) r hr]
  intro h
  have := h 0 (by omega) 1 (by omega)
  rw [matProd_one (by omega), matProd_one (by omega)] at this
  simp [skew, tr] at this

/-! ### padding -/

theorem padded_smallest {d n : Nat} (hd : 0 < d) : SmallestMultiple d n (ceilDiv n d * d) := by
  refine ⟨Dvd.intro_left _ rfl, le_padded hd, ?_⟩
  rintro m' ⟨q, rfl⟩ hm
  have : ceilDiv n d ≤ q := by
    by_contra hq
    have := (lt_ceilDiv hd).1 (Nat.lt_of_not_le hq)
    rw [Nat.mul_comm] at this
    omega
  rw [Nat.mul_comm d]
  exact Nat.mul_le_mul_right _ this

/-- **C40.** The constructors of `combined` and `kernel_tiled`: whatever the input vectors, if the
constructor completes, the padded sizes are the smallest multiples of the L3 block sizes. -/
theorem C40_padding (b : Blocking) (hb : b.Valid) (N : Nat) (A B : Array α) (p : Padded α)
    (h : setup b N A B = .ok p) : SmallestMultiple b.L3_X N p.X_size ∧
      SmallestMultiple b.L3_Y N p.Y_size ∧ SmallestMultiple b.L3_K_STEP N p.K_size := by
  have hp : p.X_size = X b N ∧ p.Y_size = Y b N ∧ p.K_size = K b N := by
    unfold setup at h
    rw [verify_ok hb, M_bind_ok] at h
    obtain ⟨_, _, h⟩ := Semi.bind_ok h
    obtain ⟨_, _, h⟩ := Semi.bind_ok h
    injection h with h
    rw [← h]
    exact ⟨padOf_eq hb.x3, padOf_eq hb.y3, padOf_eq hb.k3⟩
  rw [hp.1, hp.2.1, hp.2.2]
  exact ⟨padded_smallest hb.x3, padded_smallest hb.y3, padded_smallest hb.k3⟩

/-- **C40.** … and it completes for vectors of `N * N` elements. -/
theorem C40_completes (b : Blocking) (hb : b.Valid) (N : Nat) (A B : Array α)
    (hA : A.size = N * N) (hB : B.size = N * N) : ∃ p, setup b N A B = .ok p := by
  have hh : ∀ v : Array α, v.size = N * N →
      Holds v N N fun i j => v.getD (i * N + j) Arith.zero := by
    intro v hv i hi j hj
    have : i * N + j < v.size := by rw [hv]; exact idx_lt hi hj
    simp [this]
  exact ⟨_, setup_ok hb (hh A hA) (hh B hB)⟩

/-- **C40.** The block sizes in combined.cpp and kernel_tiled.cpp pass `verify_blocking_setup`. -/
theorem C40_verify : verify_blocking_setup Combined.blocking = .ok () ∧
    verify_blocking_setup KernelTiled.blocking = .ok () :=
  ⟨verify_ok Combined.valid, verify_ok KernelTiled.valid⟩

/-- **C40**, the check in general: it passes exactly for nested block sizes. -/
theorem C40_verify_iff (b : Blocking) : verify_blocking_setup b = .ok () ↔
    (b.L1_X ∣ b.L2_X ∧ b.L2_X ∣ b.L3_X) ∧ (b.L1_Y ∣ b.L2_Y ∧ b.L2_Y ∣ b.L3_Y) ∧
      (b.L1_K_STEP ∣ b.L2_K_STEP ∧ b.L2_K_STEP ∣ b.L3_K_STEP) := by
  simp only [Nat.dvd_iff_mod_eq_zero]
  unfold verify_blocking_setup
  by_cases h1 : b.L2_X % b.L1_X = 0 ∧ b.L3_X % b.L2_X = 0
  · by_cases h2 : b.L2_Y % b.L1_Y = 0 ∧ b.L3_Y % b.L2_Y = 0
    · by_cases h3 : b.L2_K_STEP % b.L1_K_STEP = 0 ∧ b.L3_K_STEP % b.L2_K_STEP = 0
      · simp [h1, h2, h3]
      · rw [if_neg (not_not.2 h1), if_neg (not_not.2 h2), if_pos h3]
        simp [h3]
    · rw [if_neg (not_not.2 h1), if_pos h2]
      simp [h2]
  · rw [if_pos h1]
    simp [h1]

/-! ### tiled layouts -/

theorem tilePos_eq {R L Q i j : Nat} :
    (R * L) * (i / R * Q + j / L) + i % R * L + j % L = tilePos R L Q i j := by
  rw [tilePos, Nat.mul_comm (R * L), Nat.add_assoc]

omit [Arith α] in
theorem holdsTiled_pos {v : Array α} {P Q R L : Nat} {f : Nat → Nat → α} (hR : 0 < R) (hL : 0 < L)
    (h : HoldsTiled v P Q R L f) {i j : Nat} (hi : i < P * R) (hj : j < Q * L) :
    v[tilePos R L Q i j]? = some (f i j) := by
  have := h (i / R) ((Nat.div_lt_iff_lt_mul hR).2 hi) (j / L) ((Nat.div_lt_iff_lt_mul hL).2 hj)
    (i % R) (Nat.mod_lt _ hR) (j % L) (Nat.mod_lt _ hL)
  rw [tilePos_eq, Nat.div_add_mod', Nat.div_add_mod'] at this
  exact this

omit [Arith α] in
theorem holdsTiled_of {v : Array α} {P Q R L : Nat} {f : Nat → Nat → α}
    (h : ∀ i, i < P * R → ∀ j, j < Q * L → v[tilePos R L Q i j]? = some (f i j)) :
    HoldsTiled v P Q R L f := by
  intro a ha b hb r hr c hc
  have := h (a * R + r) (idx_lt ha hr) (b * L + c) (idx_lt hb hc)
  rw [tilePos, idx_div hr, idx_mod hr, idx_div hc, idx_mod hc] at this
  rw [tpos_eq rfl]
  exact this

/-- **C41.** `tilePos` is a bijection between the coordinates of the matrix and the positions of
the vector: in range, … -/
theorem C41_position_lt {P Q R L i j : Nat} (hR : 0 < R) (hL : 0 < L) (hi : i < P * R)
    (hj : j < Q * L) : tilePos R L Q i j < (P * R) * (Q * L) := by
  rw [← tilePos_eq]
  exact tpos_lt rfl ((Nat.div_lt_iff_lt_mul hR).2 hi) ((Nat.div_lt_iff_lt_mul hL).2 hj)
    (Nat.mod_lt _ hR) (Nat.mod_lt _ hL)

/-- **C41.** … distinct coordinates at distinct positions, … -/
theorem C41_position_injective {Q R L i j i' j' : Nat} (hR : 0 < R) (hL : 0 < L)
    (hj : j < Q * L) (hj' : j' < Q * L) (h : tilePos R L Q i j = tilePos R L Q i' j') :
    i = i' ∧ j = j' := by
  rw [← tilePos_eq, ← tilePos_eq] at h
  obtain ⟨h1, h2, h3, h4⟩ := tpos_inj rfl ((Nat.div_lt_iff_lt_mul hL).2 hj) (Nat.mod_lt _ hR)
    (Nat.mod_lt _ hL) ((Nat.div_lt_iff_lt_mul hL).2 hj') (Nat.mod_lt _ hR) (Nat.mod_lt _ hL) h
  rw [← Nat.div_add_mod' i R, ← Nat.div_add_mod' j L, h1, h2, h3, h4, Nat.div_add_mod',
    Nat.div_add_mod']
  exact ⟨rfl, rfl⟩

/-- **C41.** … and every position used. -/
theorem C41_position_surjective {P Q R L q : Nat} (hq : q < (P * R) * (Q * L)) :
    ∃ i j, i < P * R ∧ j < Q * L ∧ tilePos R L Q i j = q := by
  have hpos : 0 < R * L ∧ 0 < Q := by
    constructor
    · rcases Nat.eq_zero_or_pos R with rfl | h1
      · simp at hq
      · rcases Nat.eq_zero_or_pos L with rfl | h2
        · simp at hq
        · exact Nat.mul_pos h1 h2
    · rcases Nat.eq_zero_or_pos Q with rfl | h1
      · simp at hq
      · exact h1
  have hL : 0 < L := Nat.pos_of_mul_pos_left hpos.1
  have hT : q / (R * L) < P * Q := by
    rw [Nat.div_lt_iff_lt_mul hpos.1, Nat.mul_mul_mul_comm]
    exact hq
  have ha : q / (R * L) / Q < P := (Nat.div_lt_iff_lt_mul hpos.2).2 hT
  have hb : q / (R * L) % Q < Q := Nat.mod_lt _ hpos.2
  have hr : q % (R * L) / L < R := (Nat.div_lt_iff_lt_mul hL).2 (Nat.mod_lt _ hpos.1)
  have hc : q % (R * L) % L < L := Nat.mod_lt _ hL
  refine ⟨q / (R * L) / Q * R + q % (R * L) / L, q / (R * L) % Q * L + q % (R * L) % L,
    idx_lt ha hr, idx_lt hb hc, ?_⟩
  rw [tilePos, idx_div hr, idx_mod hr, idx_div hc, idx_mod hc, Nat.div_add_mod', Nat.div_add_mod',
    Nat.div_add_mod']

/-- **C41.** The tiled copy of `A` has as many elements as the padded matrix and stores element
`(x, k)` at the position of `(k, x)` in the layout of transposed tiles. -/
theorem C41_tileA (b : Blocking) (p : Padded α) (hx : 0 < b.L1_X) (hk : 0 < b.L1_K_STEP)
    (hX : b.L1_X ∣ p.X_size) (hK : b.L1_K_STEP ∣ p.K_size) (hA : p.A.size = p.X_size * p.K_size) :
    ∃ v, tileA b p = .ok v ∧ v.size = p.K_size * p.X_size ∧ ∀ x, x < p.X_size → ∀ k, k < p.K_size →
      v[tilePos b.L1_K_STEP b.L1_X (p.X_size / b.L1_X) k x]? = p.A[x * p.K_size + k]? := by
  have hX' : p.X_size = p.X_size / b.L1_X * b.L1_X := (Nat.div_mul_cancel hX).symm
  have hK' : p.K_size = p.K_size / b.L1_K_STEP * b.L1_K_STEP := (Nat.div_mul_cancel hK).symm
  have hh : Holds p.A p.X_size p.K_size fun i j => p.A.getD (i * p.K_size + j) Arith.zero := by
    intro i hi j hj
    have : i * p.K_size + j < p.A.size := by rw [hA]; exact idx_lt hi hj
    simp [this]
  obtain ⟨v, e, hs, hv⟩ := tileA_ok hX' hK' hx hk hh
  refine ⟨v, e, hs, fun x hx' k hk' => ?_⟩
  rw [holdsTiled_pos hk hx hv (hK' ▸ hk') (hX' ▸ hx')]
  exact (hh x hx' k hk').symm

/-- **C41.** The same for `B` (tiles not transposed). -/
theorem C41_tileB (b : Blocking) (p : Padded α) (hy : 0 < b.L1_Y) (hk : 0 < b.L1_K_STEP)
    (hY : b.L1_Y ∣ p.Y_size) (hK : b.L1_K_STEP ∣ p.K_size) (hB : p.B.size = p.K_size * p.Y_size) :
    ∃ v, tileB b p = .ok v ∧ v.size = p.K_size * p.Y_size ∧ ∀ k, k < p.K_size → ∀ y, y < p.Y_size →
      v[tilePos b.L1_K_STEP b.L1_Y (p.Y_size / b.L1_Y) k y]? = p.B[k * p.Y_size + y]? := by
  have hY' : p.Y_size = p.Y_size / b.L1_Y * b.L1_Y := (Nat.div_mul_cancel hY).symm
  have hK' : p.K_size = p.K_size / b.L1_K_STEP * b.L1_K_STEP := (Nat.div_mul_cancel hK).symm
  have hh : Holds p.B p.K_size p.Y_size fun i j => p.B.getD (i * p.Y_size + j) Arith.zero := by
    intro i hi j hj
    have : i * p.Y_size + j < p.B.size := by rw [hB]; exact idx_lt hi hj
    simp [this]
  obtain ⟨v, e, hs, hv⟩ := tileB_ok hY' hK' hy hk hh
  refine ⟨v, e, hs, fun k hk' y hy' => ?_⟩
  rw [holdsTiled_pos hk hy hv (hK' ▸ hk') (hY' ▸ hy')]
  exact (hh k hk' y hy').symm

/-- **C41.** Extracting the result from the tiled layout: if `C` stores the matrix `f` in tiles, the
result is `f` without the padding. -/
theorem C41_extract (b : Blocking) (N X Y : Nat) (C : Array α) (f : Nat → Nat → α)
    (hx : 0 < b.L1_X) (hy : 0 < b.L1_Y) (hX : b.L1_X ∣ X) (hY : b.L1_Y ∣ Y) (hNX : N ≤ X)
    (hNY : N ≤ Y) (hC : ∀ i, i < X → ∀ j, j < Y →
      C[tilePos b.L1_X b.L1_Y (Y / b.L1_Y) i j]? = some (f i j)) :
    extract b N X Y C = .ok (rowMajor N f) := by
  have hX' : X = X / b.L1_X * b.L1_X := (Nat.div_mul_cancel hX).symm
  have hY' : Y = Y / b.L1_Y * b.L1_Y := (Nat.div_mul_cancel hY).symm
  refine extract_ok hx hy hX' hY' hNX hNY (holdsTiled_of fun i hi j hj => ?_)
  exact hC i (by rw [hX']; exact hi) j (by rw [hY']; exact hj)

/-- **C41.** Copying a matrix into the tiled layout and back is the identity: the copy of `B`, read by
the extraction with the shape of its tiles, yields `B` again, and the copy of `A` the transposed
matrix. -/
theorem C41_roundtrip (b : Blocking) (p : Padded α) (N : Nat) (f g : Nat → Nat → α)
    (hx : 0 < b.L1_X) (hy : 0 < b.L1_Y) (hk : 0 < b.L1_K_STEP) (hX : b.L1_X ∣ p.X_size)
    (hY : b.L1_Y ∣ p.Y_size) (hK : b.L1_K_STEP ∣ p.K_size) (hNX : N ≤ p.X_size)
    (hNK : N ≤ p.K_size) (hNY : N ≤ p.Y_size) (hA : p.A = rect p.X_size p.K_size f)
    (hB : p.B = rect p.K_size p.Y_size g) :
    (tileB b p >>= fun v =>
        extract { b with L1_X := b.L1_K_STEP } N p.K_size p.Y_size v) = .ok (rowMajor N g) ∧
    (tileA b p >>= fun v =>
        extract { b with L1_X := b.L1_K_STEP, L1_Y := b.L1_X } N p.K_size p.X_size v) =
      .ok (rowMajor N (tr f)) := by
  constructor
  · obtain ⟨v, e, hs, hv⟩ := C41_tileB b p hy hk hY hK (by rw [hB, rect_size])
    rw [e, M_bind_ok]
    refine C41_extract _ N _ _ v g hk hy hK hY hNK hNY fun i hi j hj => ?_
    rw [hv i hi j hj, hB]
    exact holds_rect _ _ _ i hi j hj
  · obtain ⟨v, e, hs, hv⟩ := C41_tileA b p hx hk hX hK (by rw [hA, rect_size])
    rw [e, M_bind_ok]
    refine C41_extract _ N _ _ v (tr f) hk hx hK hX hNK hNX fun i hi j hj => ?_
    rw [hv j hj i hi, hA]
    exact holds_rect _ _ _ j hj i hi

section Examples
attribute [local instance] exact

/-- a size that needs padding in all directions and several parallel blocks -/
example : KernelTiled.matrix_multiply KernelTiled.blocking 1000 (rowMajor 1000 fun i j => i + j)
    (rowMajor 1000 fun i j => i * j) true 3 =
    ND.pure (rowMajor 1000 (matProd 1000 (fun i j => i + j) fun i j => i * j)) :=
  C37_kernel_tiled_exact 1000 _ _ _ _ (holds_rect _ _ _) (holds_rect _ _ _) _ 3 (by decide)

/-- the 1×1 product `3 * 5`: the result does not depend on the number of repetitions -/
example : KernelTiled.matrix_multiply KernelTiled.blocking 1 #[3] #[5] false 2 = ND.pure #[15] :=
  C37_kernel_tiled_exact 1 #[3] #[5] (fun _ _ => 3) (fun _ _ => 5)
    (fun i hi j hj => by simp [show i = 0 by omega, show j = 0 by omega])
    (fun i hi j hj => by simp [show i = 0 by omega, show j = 0 by omega]) _ 2 (by decide)

example : ∃ A B : Array Int, A.size = 2 * 2 ∧ B.size = 2 * 2 ∧
    KernelTiled.matrix_multiply KernelTiled.blocking 2 A B true 1 ≠
      Naive.naive_matrix_multiply_transposed 2 A B :=
  C38_kernel_tiled_differs 2 (by decide) 1 (by decide)

/-- 300 is padded to 420, 512 and 512 -/
example : SmallestMultiple 420 300 420 ∧ SmallestMultiple 256 300 512 :=
  ⟨padded_smallest (d := 420) (by decide), padded_smallest (d := 256) (by decide)⟩

/-- the constructor completes for 2×2 matrices -/
example : ∃ p, setup Combined.blocking 2 #[1, 2, 3, 4] #[5, 6, 7, 8] = .ok p :=
  C40_completes _ Combined.valid 2 _ _ rfl rfl

/-- the 4×6 matrix in 2×3 tiles: element (1, 4) is in the second tile -/
example : tilePos 2 3 2 1 4 = 10 ∧ tilePos 2 3 2 1 4 < 4 * 6 := by decide

/-- hypotheses of the copies for the blocks of combined.cpp and one L3 block -/
example (B : Array Nat) (hB : B.size = 256 * 256) :
    ∃ v, tileB Combined.blocking ⟨420, 256, 256, #[], B⟩ = .ok v ∧ v.size = 256 * 256 ∧
      ∀ k, k < 256 → ∀ y, y < 256 → v[tilePos 64 16 (256 / 16) k y]? = B[k * 256 + y]? :=
  C41_tileB Combined.blocking ⟨420, 256, 256, #[], B⟩ (by decide) (by decide)
    (show 16 ∣ 256 by decide) (show 64 ∣ 256 by decide) hB

/-- there and back with the blocks of combined.cpp and one L3 block, for a 100 × 100 matrix -/
example (A B : Array Nat) (hA : A = rect 420 256 fun i j => i * j)
    (hB : B = rect 256 256 fun i j => i + j) :
    (tileB Combined.blocking ⟨420, 256, 256, A, B⟩ >>= fun v =>
      extract { Combined.blocking with L1_X := 64 } 100 256 256 v) =
        .ok (rowMajor 100 fun i j => i + j) :=
  (C41_roundtrip Combined.blocking ⟨420, 256, 256, A, B⟩ 100 _ _
    (by decide) (by decide) (by decide) (show 35 ∣ 420 by decide) (show 16 ∣ 256 by decide)
    (show 64 ∣ 256 by decide) (show 100 ≤ 420 by decide) (show 100 ≤ 256 by decide)
    (show 100 ≤ 256 by decide) hA hB).1
end Examples

end Verif.Props
