import Verif.Proof.Combined
import Verif.Props.Exact
/-
Algorithm `combined`: properties C34, C35 and C36.
-/
namespace Verif.Props
open Verif.Combined Tiled IndexIterator
variable {α : Type} [Arith α]

/-- **C34, C35**, any arithmetic: for every size and every block sizes that fit together, `combined`
has exactly one outcome, and it adds up the blockwise dot products `r` times. -/
theorem C35_combined (b : Blocking) (hb : b.Valid) (N : Nat) (A B : Array α) (f g : Nat → Nat → α)
    (hA : Holds A N N f) (hB : Holds B N N g) (r : Nat) :
    matrix_multiply b N A B r = ND.pure (rowMajor N fun i j =>
      repeatDot r b.L1_K_STEP (ceilDiv N b.L3_K_STEP * b.L3_K_STEP / b.L1_K_STEP)
        (fun k => pad N f i k) (fun k => pad N g k j)) := mm_ok hb hA hB r

/-- Padding with zeros does not change the sums. -/
theorem sum_pad {R : Type} [Semiring R] {N K : Nat} (h : N ≤ K) (f g : Nat → Nat → R) {i j : Nat}
    (hi : i < N) (hj : j < N) :
    ∑ k ∈ Finset.range K, @pad R (exact R) N f i k * @pad R (exact R) N g k j =
      ∑ k ∈ Finset.range N, f i k * g k j := by
  obtain ⟨d, rfl⟩ := Nat.exists_eq_add_of_le h
  rw [Finset.sum_range_add]
  have h1 : ∑ x ∈ Finset.range d, @pad R (exact R) N f i (N + x) * @pad R (exact R) N g (N + x) j
      = 0 := by
    refine Finset.sum_eq_zero fun x _ => ?_
    have : @pad R (exact R) N f i (N + x) = 0 := if_neg (by omega)
    rw [this, zero_mul]
  rw [h1, add_zero]
  refine Finset.sum_congr rfl fun k hk => ?_
  have hk := Finset.mem_range.1 hk
  have e1 : @pad R (exact R) N f i k = f i k := if_pos ⟨hi, hk⟩
  have e2 : @pad R (exact R) N g k j = g k j := if_pos ⟨hk, hj⟩
  rw [e1, e2]

/-- The padded summation length consists of whole L1 blocks. -/
theorem blocks_mul {b : Blocking} (hb : b.Valid) (N : Nat) :
    ceilDiv N b.L3_K_STEP * b.L3_K_STEP / b.L1_K_STEP * b.L1_K_STEP =
      ceilDiv N b.L3_K_STEP * b.L3_K_STEP :=
  Nat.div_mul_cancel (Dvd.dvd.mul_left (hb.k21.trans hb.k32) _)

theorem repeatDot_exact {R : Type} [Semiring R] (r bs nb : Nat) (f g : Nat → R) :
    @repeatDot R (exact R) r bs nb f g = r • ∑ k ∈ Finset.range (nb * bs), f k * g k := by
  unfold repeatDot
  induction r with
  | zero => rw [zero_smul]; rfl
  | succ r ih => rw [Function.iterate_succ_apply', ih, bdotFrom_exact, succ_nsmul]

/-- **C35**, exact arithmetic: `combined` with `r` repetitions returns `r · (A · B)`. -/
theorem C35_combined_exact {R : Type} [Semiring R] (N : Nat) (A B : Array R) (f g : Nat → Nat → R)
    (hA : Holds A N N f) (hB : Holds B N N g) (r : Nat) :
    @matrix_multiply R (exact R) blocking N A B r =
      ND.pure (rowMajor N fun i j => r • ∑ k ∈ Finset.range N, f i k * g k j) := by
  rw [@C35_combined R (exact R) blocking valid N A B f g hA hB r]
  refine congrArg ND.pure (rect_congr fun i hi j hj => ?_)
  rw [repeatDot_exact, blocks_mul valid, sum_pad (le_padded valid.k3) f g hi hj]

/-- **C34.** With one repetition `combined` returns `A · B` for every size; it has no other
outcome. -/
theorem C34_combined {R : Type} [Semiring R] (N : Nat) (A B : Array R) (f g : Nat → Nat → R)
    (hA : Holds A N N f) (hB : Holds B N N g) :
    @matrix_multiply R (exact R) blocking N A B 1 = ND.pure (rowMajor N (matProd N f g)) := by
  rw [C35_combined_exact N A B f g hA hB]
  simp only [one_smul]
  rfl

/-- **C34**, any accepted blocking: the block sizes of combined.cpp are irrelevant for the result
as long as they are nested and the register block fits. -/
theorem C34_combined_blocking {R : Type} [Semiring R] (b : Blocking) (hb : b.Valid) (N : Nat)
    (A B : Array R) (f g : Nat → Nat → R) (hA : Holds A N N f) (hB : Holds B N N g) :
    @matrix_multiply R (exact R) b N A B 1 = ND.pure (rowMajor N (matProd N f g)) := by
  rw [@C35_combined R (exact R) b hb N A B f g hA hB 1]
  refine congrArg ND.pure (rect_congr fun i hi j hj => ?_)
  rw [repeatDot_exact, blocks_mul hb, sum_pad (le_padded hb.k3) f g hi hj, one_smul]
  rfl

/-- **C35.** The result with `r` repetitions is the product exactly when `r · (A · B) = A · B`. -/
theorem C35_product_iff {R : Type} [Semiring R] (N : Nat) (A B : Array R) (f g : Nat → Nat → R)
    (hA : Holds A N N f) (hB : Holds B N N g) (r : Nat) :
    @matrix_multiply R (exact R) blocking N A B r = ND.pure (rowMajor N (matProd N f g)) ↔
      ∀ i, i < N → ∀ j, j < N → r • matProd N f g i j = matProd N f g i j := by
  rw [C35_combined_exact N A B f g hA hB]
  constructor
  · intro h i hi j hj
    have h1 : (ND.pure (rowMajor N fun i j => r • ∑ k ∈ Finset.range N, f i k * g k j))
        (.ok (rowMajor N (matProd N f g))) := by rw [h]; rfl
    injection h1 with h1
    have e1 := holds_rect N N (matProd N f g) i hi j hj
    have e2 := holds_rect N N (fun i j => r • ∑ k ∈ Finset.range N, f i k * g k j) i hi j hj
    exact Option.some.inj (e2.symm.trans ((congrArg (fun v : Array R => v[i * N + j]?) h1.symm).trans e1))
  · intro h
    exact congrArg ND.pure (rect_congr h)

/-- **C36.** For `N > 256` every repetition (whatever `C_padded` contains at its start) has an
interleaving in which two tasks are about to access the variable `first`, one of them writing. -/
theorem C36_race (N : Nat) (hN : 256 < N) (A B : Array α) (f g : Nat → Nat → α)
    (hA : Holds A N N f) (hB : Holds B N N g) (C : Array α) :
    ∃ p At Bp pl, setup blocking N A B = .ok p ∧ tileA blocking p = .ok At ∧
      tileB blocking p = .ok Bp ∧ policy blocking = .ok pl ∧
      ∃ m t, PSteps (Mem.ofArray C) (tree blocking pl p.X_size p.Y_size p.K_size At Bp) m t ∧
        RaceOn (.flag 0) t := by
  have h := valid
  obtain ⟨QX, hX⟩ := X_eq h N
  obtain ⟨QY, hY⟩ := Y_eq h N
  obtain ⟨QK, hK⟩ := K_eq h N
  have dX : blocking.L3_X ∣ QX * blocking.L1_X := hX ▸ Dvd.intro_left _ rfl
  have dY : blocking.L3_Y ∣ QY * blocking.L1_Y := hY ▸ Dvd.intro_left _ rfl
  have dK : blocking.L3_K_STEP ∣ QK * blocking.L1_K_STEP := hK ▸ Dvd.intro_left _ rfl
  obtain ⟨At, eA, _, hAt⟩ := tileA_ok (b := blocking) (p := ⟨X blocking N, Y blocking N,
    K blocking N, rect (X blocking N) (K blocking N) (pad N f),
    rect (K blocking N) (Y blocking N) (pad N g)⟩) hX hK h.x1 h.k1 (holds_rect _ _ _)
  obtain ⟨Bp, eB, _, hBp⟩ := tileB_ok (b := blocking) (p := ⟨X blocking N, Y blocking N,
    K blocking N, rect (X blocking N) (K blocking N) (pad N f),
    rect (K blocking N) (Y blocking N) (pad N g)⟩) hY hK h.y1 h.k1 (holds_rect _ _ _)
  refine ⟨_, At, Bp, _, setup_ok h hA hB, eA, eB, policy_ok _, ?_⟩
  have hXY : 2 ≤ ceilDiv (X blocking N) blocking.L3_X * ceilDiv (Y blocking N) blocking.L3_Y := by
    rw [X, Y, ceilDiv_mul _ _ h.x3, ceilDiv_mul _ _ h.y3]
    have h1 : 0 < ceilDiv N blocking.L3_X := lt_ceilDiv' h.x3 (by omega)
    have h2 : 1 < ceilDiv N blocking.L3_Y := lt_ceilDiv' h.y3 (by show 1 * 256 < N; omega)
    exact Nat.mul_le_mul h1 h2
  have hK0 : 0 < K blocking N := Nat.lt_of_lt_of_le (by omega) (le_padded h.k3)
  rw [hX, hY] at hXY
  rw [hK] at hK0
  simp only [hX, hY, hK]
  exact race h dX dY dK hK0 hXY hAt hBp _ rfl

/-- **C36.** In no interleaving of a repetition two tasks are about to access the same element of
`C_padded` with one of them writing; the flag is the only shared mutable data that races. -/
theorem C36_elements_disjoint (b : Blocking) (hb : b.Valid) (N : Nat) (A B : Array α)
    (f g : Nat → Nat → α) (hA : Holds A N N f) (hB : Holds B N N g) {p At Bp pl}
    (h1 : setup b N A B = .ok p) (h2 : tileA b p = .ok At) (h3 : tileB b p = .ok Bp)
    (h4 : policy b = .ok pl) (m m' : Mem α) (t : Tree α)
    (hs : PSteps m (tree b pl p.X_size p.Y_size p.K_size At Bp) m' t) (i : Nat) :
    ¬ RaceOn (.cell i) t := by
  obtain ⟨QX, hX⟩ := X_eq hb N
  obtain ⟨QY, hY⟩ := Y_eq hb N
  obtain ⟨QK, hK⟩ := K_eq hb N
  have dX : b.L3_X ∣ QX * b.L1_X := hX ▸ Dvd.intro_left _ rfl
  have dY : b.L3_Y ∣ QY * b.L1_Y := hY ▸ Dvd.intro_left _ rfl
  have dK : b.L3_K_STEP ∣ QK * b.L1_K_STEP := hK ▸ Dvd.intro_left _ rfl
  rw [setup_ok hb hA hB] at h1
  injection h1 with h1
  subst h1
  obtain ⟨At', eA, _, hAt⟩ := tileA_ok (b := b) (p := ⟨X b N, Y b N, K b N,
    rect (X b N) (K b N) (pad N f), rect (K b N) (Y b N) (pad N g)⟩) hX hK hb.x1 hb.k1
    (holds_rect _ _ _)
  obtain ⟨Bp', eB, _, hBp⟩ := tileB_ok (b := b) (p := ⟨X b N, Y b N, K b N,
    rect (X b N) (K b N) (pad N f), rect (K b N) (Y b N) (pad N g)⟩) hY hK hb.y1 hb.k1
    (holds_rect _ _ _)
  rw [eA] at h2
  rw [eB] at h3
  rw [policy_ok] at h4
  injection h2 with h2
  injection h3 with h3
  injection h4 with h4
  subst h2 h3 h4
  simp only [hX, hY, hK] at hs
  exact race_only_flag hb dX dY dK hAt hBp hs i

/-- **C36**, the other side: for `N ≤ 256` there is no data race at all. -/
theorem C36_small_raceFree (N : Nat) (hN : N ≤ 256) (A B : Array α) {p : Padded α} {At Bp pl}
    (h1 : setup blocking N A B = .ok p) (h4 : policy blocking = .ok pl) (m : Mem α) :
    RaceFree m (tree blocking pl p.X_size p.Y_size p.K_size At Bp) := by
  have h := valid
  have hp : p.X_size = X blocking N ∧ p.Y_size = Y blocking N := by
    unfold setup at h1
    rw [verify_ok h, M_bind_ok] at h1
    obtain ⟨a, ha, h1⟩ := Semi.bind_ok h1
    obtain ⟨b, hb, h1⟩ := Semi.bind_ok h1
    injection h1 with h1
    rw [← h1]
    exact ⟨padOf_eq h.x3, padOf_eq h.y3⟩
  rw [policy_ok] at h4
  injection h4 with h4
  subst h4
  rw [tree_eq]
  refine Tree.Serial.raceFree (Calls.Serial.toTree (calls_serial h ?_) _) m
  rw [hp.1, hp.2, X, Y, ceilDiv_mul _ _ h.x3, ceilDiv_mul _ _ h.y3]
  have e1 : ceilDiv N blocking.L3_X ≤ 1 := by
    show (N + 420 - 1) / 420 ≤ 1
    omega
  have e2 : ceilDiv N blocking.L3_Y ≤ 1 := by
    show (N + 256 - 1) / 256 ≤ 1
    omega
  exact Nat.mul_le_mul e1 e2

section Examples
attribute [local instance] exact

/-- a size that needs padding in all directions and several parallel blocks -/
example : matrix_multiply blocking 1000 (rowMajor 1000 fun i j => i + j)
    (rowMajor 1000 fun i j => i * j) 1 =
    ND.pure (rowMajor 1000 (matProd 1000 (fun i j => i + j) fun i j => i * j)) :=
  C34_combined 1000 _ _ _ _ (holds_rect _ _ _) (holds_rect _ _ _)

/-- two repetitions double the 1×1 product `3 * 5` -/
example : matrix_multiply blocking 1 #[3] #[5] 2 = ND.pure #[30] :=
  C35_combined_exact 1 #[3] #[5] (fun _ _ => 3) (fun _ _ => 5)
    (fun i hi j hj => by simp [show i = 0 by omega, show j = 0 by omega])
    (fun i hi j hj => by simp [show i = 0 by omega, show j = 0 by omega]) 2

/-- … so it is not the product -/
example : ¬ ∀ i, i < 1 → ∀ j, j < 1 →
    2 • matProd 1 (fun _ _ => 3) (fun _ _ => 5) i j = matProd 1 (fun _ _ => 3) (fun _ _ => 5) i j := by
  intro h
  exact absurd (h 0 (by decide) 0 (by decide)) (by decide)

/-- the commented-out block sizes of combined.cpp:27–35 -/
example : Blocking.Valid ⟨5, 8, 8, 5, 8, 8, 5, 8, 8⟩ := by constructor <;> decide

example : ∃ p At Bp pl, setup blocking 300 (rowMajor 300 fun i _ => i) (rowMajor 300 fun _ j => j) =
      .ok p ∧ tileA blocking p = .ok At ∧ tileB blocking p = .ok Bp ∧ policy blocking = .ok pl ∧
      ∃ m t, PSteps (Mem.ofArray #[]) (tree blocking pl p.X_size p.Y_size p.K_size At Bp) m t ∧
        RaceOn (.flag 0) t :=
  C36_race 300 (by decide) _ _ _ _ (holds_rect _ _ _) (holds_rect _ _ _) #[]
end Examples

end Verif.Props
