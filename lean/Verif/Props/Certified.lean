import Verif.Props.Plan
/-
C134: an entry of a product of doubles is within the error bound or visibly not finite.
-/
namespace Verif.Props
open Kernel IEEE

/-- The entry `(i, j)` of the product of the numbers meant. -/
def entrySum (N : Nat) (a b : Nat → Nat → Double) (i j : Nat) : ℚ :=
  ∑ k ∈ Finset.range N, (a i k).value * (b k j).value

/-- The absolute values of its products, added. -/
def entryAbs (N : Nat) (a b : Nat → Nat → Double) (i j : Nat) : ℚ :=
  ∑ k ∈ Finset.range N, |(a i k).value * (b k j).value|

/-- A multiplication of matrices of doubles (`c`: that takes every product `c` times) shows its failures:
it has one result, for all matrices.
An entry that is finite comes from finite elements and has the error of a sum of `m` products with at
most `n` roundings each.  An entry that is not finite comes from an element that is not finite or from
products that are too large, including their roundings. -/
def ShowsFailure (c N n m : Nat) (t : Bool) (f : Array Double → Array Double → ND (Array Double)) : Prop :=
  ∀ (A B : Array Double) (a b : Nat → Nat → Double), Holds A N N a →
    Holds B N N (if t then tr b else b) → ∃ C, f A B = ND.pure C ∧
    ∀ i j, i < N → j < N → ∃ x, C[i * N + j]? = some x ∧
      (x.finite → (∀ k, k < N → (a i k).finite ∧ (b k j).finite) ∧
        |x.value - c * entrySum N a b i j| ≤ ((1 + 2 ^ (-53 : ℤ)) ^ n - 1) * (c * entryAbs N a b i j) +
          (1 + 2 ^ (-53 : ℤ)) ^ n * (m * 2 ^ (-1075 : ℤ))) ∧
      (¬ x.finite → (∃ k, k < N ∧ ¬ ((a i k).finite ∧ (b k j).finite)) ∨
        maxDouble < (1 + 2 ^ (-53 : ℤ)) ^ n * (c * entryAbs N a b i j + m * 2 ^ (-1075 : ℤ)))

/-! ### operations with a finite result -/

private theorem ext_add_fin {x y : Ext} (h : (x.add y).finite) : x.finite ∧ y.finite := by
  cases x <;> cases y <;> first | exact ⟨trivial, trivial⟩ | exact absurd h id | skip
  rename_i s t
  by_cases e : s = t
  · rw [show Ext.add (.inf s) (.inf t) = .inf s from if_pos e] at h
    exact absurd h id
  · rw [show Ext.add (.inf s) (.inf t) = .nan from if_neg e] at h
    exact absurd h id

private theorem ext_mul_fin {x y : Ext} (h : (x.mul y).finite) : x.finite ∧ y.finite := by
  cases x <;> cases y <;> first | exact ⟨trivial, trivial⟩ | exact absurd h id

private theorem ofExt_fin {x : Ext} (h : (Double.ofExt x).finite) :
    x.finite ∧ (Double.ofExt x).value = roundNum x.value := by
  rw [Double.finite_iff] at h
  rw [Double.value_eq]
  change x.round.finite at h
  change _ ∧ x.round.value = _
  cases x with
  | nan => exact absurd h id
  | inf => exact absurd h id
  | zero => exact ⟨trivial, roundNum_zero.symm⟩
  | num q =>
    refine ⟨trivial, ?_⟩
    by_cases h1 : 2 ^ (1024 : ℤ) ≤ |roundNum q|
    · rw [show Ext.round (.num q) = .inf (decide (q < 0)) from if_pos h1] at h
      exact absurd h id
    · by_cases h2 : roundNum q = 0
      · rw [show Ext.round (.num q) = .zero (decide (q < 0)) from (if_neg h1).trans (if_pos h2)]
        exact h2.symm
      · rw [show Ext.round (.num q) = .num (roundNum q) from (if_neg h1).trans (if_neg h2)]
        rfl

theorem add_fin {x y : Double} (h : (x.add y).finite) :
    x.finite ∧ y.finite ∧ (x.add y).value = roundNum (x.value + y.value) := by
  obtain ⟨h1, h2⟩ := ofExt_fin h
  obtain ⟨h3, h4⟩ := ext_add_fin h1
  refine ⟨(Double.finite_iff x).2 h3, (Double.finite_iff y).2 h4, h2.trans ?_⟩
  rw [(Ext.finite_add h3 h4).2, Double.value_eq x, Double.value_eq y]

theorem mul_fin {x y : Double} (h : (x.mul y).finite) :
    x.finite ∧ y.finite ∧ (x.mul y).value = roundNum (x.value * y.value) := by
  obtain ⟨h1, h2⟩ := ofExt_fin h
  obtain ⟨h3, h4⟩ := ext_mul_fin h1
  refine ⟨(Double.finite_iff x).2 h3, (Double.finite_iff y).2 h4, h2.trans ?_⟩
  rw [(Ext.finite_mul h3 h4).2, Double.value_eq x, Double.value_eq y]

theorem fma_fin {c x y : Double} (h : (Double.fma c x y).finite) :
    c.finite ∧ x.finite ∧ y.finite ∧
      (Double.fma c x y).value = roundNum (c.value + x.value * y.value) := by
  obtain ⟨h1, h2⟩ := ofExt_fin h
  obtain ⟨h3, h4⟩ := ext_add_fin h1
  obtain ⟨h5, h6⟩ := ext_mul_fin h4
  refine ⟨(Double.finite_iff c).2 h3, (Double.finite_iff x).2 h5, (Double.finite_iff y).2 h6, h2.trans ?_⟩
  rw [(Ext.finite_add h3 h4).2, (Ext.finite_mul h5 h6).2, Double.value_eq x, Double.value_eq y,
    Double.value_eq c]

private theorem mac_fin {fuse : Double → Double → Double → Bool} {c x y : Double}
    (h : ((Double.arith fuse).mac c x y).finite) : c.finite ∧ x.finite ∧ y.finite := by
  change (if fuse c x y then Double.fma c x y else Double.add c (Double.mul x y)).finite at h
  split at h
  · exact ⟨(fma_fin h).1, (fma_fin h).2.1, (fma_fin h).2.2.1⟩
  · exact ⟨(add_fin h).1, (mul_fin (add_fin h).2.1).1, (mul_fin (add_fin h).2.1).2.1⟩

/-! ### doubles beside numbers without overflow -/

/-- A double, and a number rounded in the same way but without overflow. -/
abbrev Shadow : Type := Double × ℚ

/-- The operations on both; which products are fused is decided by the doubles. -/
@[reducible] def shadow (fuse : Double → Double → Double → Bool) : Arith Shadow where
  zero := (Double.zero, 0)
  add x y := (x.1.add y.1, roundNum (x.2 + y.2))
  mac c x y := ((Double.arith fuse).mac c.1 x.1 y.1,
    if fuse c.1 x.1 y.1 then roundNum (c.2 + x.2 * y.2) else roundNum (c.2 + roundNum (x.2 * y.2)))

/-- They satisfy the standard model with every limit. -/
def shadowRounding (fuse : Double → Double → Double → Bool) (Ω : ℚ) :
    @Rounding ℚ _ _ _ Shadow (shadow fuse) := by
  refine @Rounding.mk ℚ _ _ _ Shadow (shadow fuse) (fun x => x.2)
    (fun x => ∃ n : ℤ, x.2 = n * 2 ^ (-1074 : ℤ)) (2 ^ (-53 : ℤ)) (2 ^ (-1075 : ℤ)) Ω
    (two_zpow_pos _).le (two_zpow_pos _).le ⟨0, ?_⟩ rfl ?_ ?_
  · show (0 : ℚ) = _
    rw [Int.cast_zero, zero_mul]
  · rintro ⟨x, p⟩ ⟨y, q⟩ ⟨m, rfl⟩ ⟨n, rfl⟩ -
    exact ⟨roundNum_tiny _, roundNum_multiples m n⟩
  · rintro ⟨c, o⟩ ⟨x, p⟩ ⟨y, q⟩ ⟨l, rfl⟩ - - -
    have hu := two_zpow_pos (-53)
    have hη := two_zpow_pos (-1075)
    show (∃ n : ℤ, (if fuse c x y then _ else _) = _) ∧ ∃ δ ε δ', _ ∧ _ ∧ _ ∧
      (if fuse c x y then _ else _) = _
    split
    · refine ⟨roundNum_tiny _, ?_⟩
      rcases roundNum_law (l * 2 ^ (-1074 : ℤ) + p * q) with ⟨δ, h3, h4⟩ | ⟨-, ε, h3, h4⟩
      · exact ⟨0, 0, δ, by rw [abs_zero]; exact hu.le, by rw [abs_zero]; exact hη.le, h3,
          h4.trans (by ring)⟩
      · exact ⟨0, ε, 0, by rw [abs_zero]; exact hu.le, h3, by rw [abs_zero]; exact hu.le,
          h4.trans (by ring)⟩
    · refine ⟨roundNum_tiny _, ?_⟩
      have key : ∃ δ ε, |δ| ≤ 2 ^ (-53 : ℤ) ∧ |ε| ≤ 2 ^ (-1075 : ℤ) ∧
          roundNum (p * q) = p * q * (1 + δ) + ε := by
        rcases roundNum_law (p * q) with ⟨δ, h3, h4⟩ | ⟨-, ε, h3, h4⟩
        · exact ⟨δ, 0, h3, by rw [abs_zero]; exact hη.le, h4.trans (by ring)⟩
        · exact ⟨0, ε, by rw [abs_zero]; exact hu.le, h3, h4.trans (by ring)⟩
      obtain ⟨δ, ε, h3, h4, h5⟩ := key
      obtain ⟨n, hn⟩ := roundNum_tiny (p * q)
      obtain ⟨δ', h6, h7⟩ := roundNum_multiples l n
      refine ⟨δ, ε, δ', h3, h4, h6, ?_⟩
      rw [← h5, hn]
      exact h7

private theorem shadow_eval (fuse : Double → Double → Double → Bool) (f g : Nat → Double) (q : Plan) :
    (@Plan.eval Shadow (shadow fuse) (fun k => (f k, (f k).value)) (fun k => (g k, (g k).value)) q).1 =
        @Plan.eval Double (Double.arith fuse) f g q ∧
      ((@Plan.eval Double (Double.arith fuse) f g q).finite →
        (@Plan.eval Double (Double.arith fuse) f g q).value =
          (@Plan.eval Shadow (shadow fuse) (fun k => (f k, (f k).value))
            (fun k => (g k, (g k).value)) q).2) := by
  let _ := Double.arith fuse
  let _ := shadow fuse
  have hmac : ∀ (s : Shadow) (c x y : Double), s.1 = c → (c.finite → c.value = s.2) →
      (Arith.mac s (x, x.value) (y, y.value) : Shadow).1 = Arith.mac c x y ∧
      ((Arith.mac c x y : Double).finite → (Arith.mac c x y : Double).value =
        (Arith.mac s (x, x.value) (y, y.value) : Shadow).2) := by
    rintro ⟨_, o⟩ c x y rfl hc
    refine ⟨rfl, ?_⟩
    show (if fuse _ x y then Double.fma _ x y else Double.add _ (Double.mul x y)).finite →
      (if fuse _ x y then Double.fma _ x y else Double.add _ (Double.mul x y)).value =
        if fuse _ x y then _ else _
    split
    · intro h
      obtain ⟨h1, -, -, h4⟩ := fma_fin h
      rw [h4, hc h1]
    · intro h
      obtain ⟨h1, h2, h3⟩ := add_fin h
      rw [h3, hc h1, (mul_fin h2).2.2]
  induction q with
  | zero => exact ⟨rfl, fun _ => rfl⟩
  | mac s k ih => exact hmac _ _ _ _ ih.1 ih.2
  | pad s ih => exact hmac _ _ Double.zero Double.zero ih.1 ih.2
  | add s t ih ih' =>
    refine ⟨?_, fun h => ?_⟩
    · show Double.add _ _ = Double.add _ _
      rw [ih.1, ih'.1]
    · obtain ⟨h1, h2, h3⟩ := add_fin h
      refine h3.trans ?_
      rw [ih.2 h1, ih'.2 h2]
      rfl

private theorem eval_finite (fuse : Double → Double → Double → Bool) (f g : Nat → Double) (q : Plan)
    (k : Nat) (hk : k ∈ q.terms) (h : (@Plan.eval Double (Double.arith fuse) f g q).finite) :
    (f k).finite ∧ (g k).finite := by
  by_contra hn
  let _ := Double.arith fuse
  exact Plan.eval_bad (f := f) (g := g) (fun x => ¬ x.finite)
    (fun x y hxy h => hxy.elim (fun h' => h' (add_fin h).1) fun h' => h' (add_fin h).2.1)
    (fun c x y hc h => hc (mac_fin (fuse := fuse) h).1) q k hk
    (fun c h => hn ⟨(mac_fin (fuse := fuse) h).2.1, (mac_fin (fuse := fuse) h).2.2⟩) h

variable {c N n m : Nat} {t : Bool} {P : Plan → Prop}
  {run : (α : Type) → [Arith α] → Array α → Array α → ND (Array α)}

private theorem map_holds {β : Type} {D : Array Double} {d : Nat → Nat → Double} (φ : Double → β)
    (hD : Holds D N N d) : Holds (D.map φ) N N fun i j => φ (d i j) := by
  intro i hi j hj
  rw [Array.getElem?_map, hD i hi j hj]
  rfl

private theorem rect_eq {β : Type} {G H : Nat → Nat → β} (h : ND.pure (rowMajor N G) =
    ND.pure (rowMajor N H)) {i j : Nat} (hi : i < N) (hj : j < N) : G i j = H i j := by
  have h1 : rowMajor N G = rowMajor N H := by
    have : ND.pure (rowMajor N G) (.ok (rowMajor N H)) := by rw [h]; rfl
    exact (Except.ok.inj this).symm
  have h2 := holds_rect N N G i hi j hj
  have h3 := holds_rect N N H i hi j hj
  change (rowMajor N G)[_]? = _ at h2
  change (rowMajor N H)[_]? = _ at h3
  rw [h1, h3] at h2
  exact (Option.some.inj h2).symm

/-- A program that computes by formulas and has the error bounds of C85 for all arithmetics shows its
failures. -/
theorem C134_of (h : ComputesBy N t P run) (hP : ∀ q, P q → Takes N q)
    (h85 : ∀ (α : Type) [Arith α] (r : Rounding ℚ α) (A B : Array α) (a b : Nat → Nat → α),
      Holds A N N a → Holds B N N (if t then tr b else b) →
      (∀ i, i < N → ∀ j, j < N → r.finite (a i j) ∧ r.finite (b i j)) →
      (∀ i, i < N → ∀ j, j < N → r.Fits n m (c * absEntry r N a b i j)) →
      ∃ G : Nat → Nat → α, run α A B = ND.pure (rowMajor N G) ∧ ∀ i, i < N → ∀ j, j < N →
        r.finite (G i j) ∧
        |r.value (G i j) - c * exactEntry r N a b i j| ≤ r.bound n m (c * absEntry r N a b i j))
    (fuse : Double → Double → Double → Bool) :
    ShowsFailure c N n m t (@run Double (Double.arith fuse)) := by
  obtain ⟨plan, hp, hrun⟩ := h
  intro A B a b hA hB
  refine ⟨_, @hrun Double (Double.arith fuse) A B a b hA hB, fun i j hi hj => ⟨_,
    holds_rect N N _ i hi j hj, fun hf => ?_, fun hf => ?_⟩⟩
  · obtain ⟨r, hr, hc⟩ := hP _ (hp i hi j hj)
    refine ⟨fun k hk => eval_finite fuse _ _ _ k (hc.all hr hk) hf, ?_⟩
    let a' : Nat → Nat → Shadow := fun i j => (a i j, (a i j).value)
    let b' : Nat → Nat → Shadow := fun i j => (b i j, (b i j).value)
    let W : Nat → Nat → ℚ := fun i j => c * entryAbs N a b i j
    let fit : Nat → Nat → ℚ := fun i j => (1 + 2 ^ (-53 : ℤ)) ^ n * (W i j + m * 2 ^ (-1075 : ℤ))
    have hW : ∀ i j, 0 ≤ W i j := fun i j =>
      mul_nonneg (Nat.cast_nonneg c) (Finset.sum_nonneg fun _ _ => abs_nonneg _)
    have hfit : ∀ i j, 0 ≤ fit i j := fun i j => by
      have h1 := two_zpow_pos (-53)
      have h2 := two_zpow_pos (-1075)
      exact mul_nonneg (pow_nonneg (by linarith) _)
        (add_nonneg (hW i j) (mul_nonneg (Nat.cast_nonneg m) h2.le))
    let Ω : ℚ := ∑ i ∈ Finset.range N, ∑ j ∈ Finset.range N, fit i j
    have hΩ : ∀ i, i < N → ∀ j, j < N → fit i j ≤ Ω := fun i hi j hj =>
      (Finset.single_le_sum (f := fun j => fit i j) (fun j _ => hfit i j) (Finset.mem_range.2 hj)).trans
        (Finset.single_le_sum (f := fun i => ∑ j ∈ Finset.range N, fit i j)
          (fun i _ => Finset.sum_nonneg fun j _ => hfit i j) (Finset.mem_range.2 hi))
    let _ := shadow fuse
    let r := shadowRounding fuse Ω
    have hA' : Holds (A.map fun x => ((x, x.value) : Shadow)) N N a' := map_holds _ hA
    have hB' : Holds (B.map fun x => ((x, x.value) : Shadow)) N N (if t then tr b' else b') := by
      have := map_holds (fun x => ((x, x.value) : Shadow)) hB
      cases t
      · exact this
      · exact this
    obtain ⟨G, hG, happ⟩ := h85 Shadow r _ _ a' b' hA' hB' (fun i _ j _ =>
      ⟨(a i j).isDouble_value.multiple, (b i j).isDouble_value.multiple⟩) hΩ
    have hv := hrun Shadow _ _ a' b' hA' hB'
    rw [hG] at hv
    have h1 := (happ i hi j hj).2
    rw [rect_eq hv hi hj] at h1
    rw [(shadow_eval fuse _ _ _).2 hf]
    exact h1
  · by_contra hc
    rw [not_or] at hc
    obtain ⟨h1, h2⟩ := hc
    rw [not_lt] at h2
    have h3 : ∀ k, k < N → (a i k).finite ∧ (b k j).finite := fun k hk => by
      by_contra hk'
      exact h1 ⟨k, hk, hk'⟩
    let _ := Double.arith fuse
    let a' : Nat → Nat → Double := fun _ k => a i k
    let b' : Nat → Nat → Double := fun k _ => b k j
    have hA' : Holds (rowMajor N a') N N a' := holds_rect N N a'
    have hB' : Holds (rowMajor N (if t then tr b' else b')) N N (if t then tr b' else b') :=
      holds_rect N N _
    obtain ⟨G, hG, happ⟩ := h85 Double (Double.rounding fuse) _ _ a' b' hA' hB'
      (fun i hi j hj => ⟨(h3 j hj).1, (h3 i hi).2⟩) fun _ _ _ _ => h2
    have hv := hrun Double _ _ a' b' hA' hB'
    rw [hG] at hv
    have h4 := (happ i hi j hj).1
    rw [rect_eq hv hi hj] at h4
    exact hf h4

/-- The bounds of C85, for the factor one. -/
private theorem once {α : Type} [Arith α] {r : Rounding ℚ α} {a b : Nat → Nat → α}
    {Q : ND (Array α)} (h : NoOverflow r N n m a b → ApproxProduct r N n m a b Q)
    (hfin : ∀ i, i < N → ∀ j, j < N → r.finite (a i j) ∧ r.finite (b i j))
    (hfits : ∀ i, i < N → ∀ j, j < N → r.Fits n m ((1 : Nat) * absEntry r N a b i j)) :
    ∃ G : Nat → Nat → α, Q = ND.pure (rowMajor N G) ∧ ∀ i, i < N → ∀ j, j < N →
      r.finite (G i j) ∧
      |r.value (G i j) - (1 : Nat) * exactEntry r N a b i j| ≤
        r.bound n m ((1 : Nat) * absEntry r N a b i j) := by
  simp only [Nat.cast_one, one_mul] at hfits ⊢
  exact h ⟨hfin, hfits⟩

/-! ### the multiplications -/

variable (fuse : Double → Double → Double → Bool)

/-- **C134.** The naive multiplication. -/
theorem C134_naive (N : Nat) : ShowsFailure 1 N (N + 1) N false fun A B =>
    @Naive.naive_matrix_multiply Double (Double.arith fuse) N A B :=
  C134_of (C126_naive N).by (fun _ h => h.takes)
    (fun _ _ _ A B _ _ hA hB => once (C85_naive A B hA hB)) fuse

/-- **C134.** The naive multiplication with `B` transposed. -/
theorem C134_naive_transposed (N : Nat) : ShowsFailure 1 N (N + 1) N true fun A B =>
    @Naive.naive_matrix_multiply_transposed Double (Double.arith fuse) N A B :=
  C134_of (C126_naive_transposed N).by (fun _ h => h.takes)
    (fun _ _ _ A B _ _ hA hB => once (C85_naive_transposed A B hA hB)) fuse

/-- **C134.** `single`. -/
theorem C134_single (N e s : Nat) (transposed : Bool) (br bi reps : Nat) (hN : N = 2 ^ e * s)
    (hs : s ≤ br) (he : ∀ d, d < e → br < 2 ^ (d + 1) * s)
    (hdiv : transposed = true → bi ≠ 0 → 4 ≤ s → 4 ∣ s ∧ bi ∣ N) (hr : 0 < reps) :
    ShowsFailure 1 N (N + 2) N transposed fun A B =>
      @Recursive.single_matrix_multiply Double (Double.arith fuse) N A B transposed br bi reps :=
  C134_of (C126_single N e s transposed br bi reps hN hs he hdiv hr).by (fun _ h => h.takes)
    (fun _ _ _ A B _ _ hA hB => once (C85_single e s A B transposed br bi reps hA hB hN hs he hdiv hr)) fuse

open StaticImproved in
/-- **C134.** `pseudodynamic` (with the sizes of C22). -/
theorem C134_pseudodynamic (p : Params) (N e q : Nat) (transposed : Bool) (br bi reps L : Nat)
    (hN : N = 2 ^ e * q) (hq : q ≤ p.min_work_size) (hbr : q ≤ br) (hL : 0 < L) (hr : 0 < reps)
    (hdiv : transposed = true → bi ≠ 0 → bi ∣ N ∧ ∀ d, d ≤ e → 4 ≤ 2 ^ d * q → 4 ∣ 2 ^ d * q) :
    ShowsFailure 1 N (N + 2) N transposed fun A B =>
      @pseudodynamic_matrix_multiply Double (Double.arith fuse) p N A B transposed br bi reps L := by
  have hcl : 0 < if 1 < L then L - 1 else L := by split <;> omega
  obtain ⟨⟨aw, haw, _⟩, _⟩ := C15_schedule_terminates p N _ hcl
  obtain ⟨h1, h2⟩ := (C107_pseudodynamic_iff (R := ℤ) p N transposed br bi reps L aw haw hr).1
    fun A B a b hA hB _ _ =>
      C22_pseudodynamic_exact p N e q A B a b transposed br bi reps L hA hB hN hq hbr hL hr hdiv
  exact C134_of (C126_pseudodynamic p N transposed br bi reps L aw haw h1 h2 hr)
    (fun _ ⟨_, h, _⟩ => h.takes)
    (fun _ _ _ A B _ _ hA hB => once (C85_pseudodynamic p e q A B transposed br bi reps L hA hB
      hN hq hbr hL hr hdiv)) fuse

/-- **C134.** `algorithms`. -/
theorem C134_algorithms (N bi br : Nat) (hbi : 0 < bi) (hbr : 0 < br) (hdi : bi ∣ N) (hdr : br ∣ N) :
    ShowsFailure 1 N (bi + 1 + N / bi) N true fun A B =>
      @Algorithms.matrix_multiply Double (Double.arith fuse) N A B bi br :=
  C134_of (C126_algorithms N bi br hbi hbr hdi hdr).by (fun _ h => h.takes)
    (fun _ _ _ A B _ _ hA hB => once (C85_algorithms A B hA hB bi br hbi hbr hdi hdr)) fuse

/-- **C134.** `looped`. -/
theorem C134_looped (N br bi : Nat) (hbr : 0 < br) (hbi : 0 < bi) (hdr : br ∣ N) (hdi : bi ∣ N) :
    ShowsFailure 1 N (N + 1) N true fun A B =>
      ND.ofM (@Looped.matrix_multiply Double (Double.arith fuse) N A B br bi) :=
  C134_of (C126_looped N br bi hbr hbi hdr hdi).by (fun _ h => h.takes)
    (fun _ _ _ A B _ _ hA hB => once (C85_looped A B hA hB br bi hbr hbi hdr hdi)) fuse

/-- **C134.** `semi`. -/
theorem C134_semi (N bi : Nat) (h4 : 4 ∣ N) (hbi : 0 < bi) (hd : bi ∣ N) :
    ShowsFailure 1 N (bi + 1 + N / bi) N true fun A B =>
      @Semi.matrix_multiply Double (Double.arith fuse) N A B bi :=
  C134_of (C126_semi N bi h4 hbi hd).by (fun _ h => h.takes)
    (fun _ _ _ A B _ _ hA hB => once (C85_semi A B hA hB bi h4 hbi hd)) fuse

/-- **C134.** `combined`, for every size and every number of repetitions but 0. -/
theorem C134_combined (N reps : Nat) (hr : 1 ≤ reps) :
    ShowsFailure reps N (65 + reps * paddedBlocks N) (reps * (paddedBlocks N * 64)) false fun A B =>
      @Combined.matrix_multiply Double (Double.arith fuse) Combined.blocking N A B reps :=
  C134_of (C126_combined N reps).by (fun _ h => h.takes hr)
    (fun _ _ _ A B _ _ hA hB => C85_combined_repeated reps A B hA hB) fuse

/-- **C134.** `kernel_tiled`, for every size. -/
theorem C134_kernel_tiled (N : Nat) (t : Bool) (reps : Nat) (hr : 1 ≤ reps) :
    ShowsFailure 1 N (65 + paddedBlocks N) (paddedBlocks N * 64) false fun A B =>
      @KernelTiled.matrix_multiply Double (Double.arith fuse) KernelTiled.blocking N A B t reps :=
  C134_of (C126_kernel_tiled N t reps hr).by (fun _ h => h.takes (Nat.le_refl _))
    (fun _ _ _ A B _ _ hA hB => once (C85_kernel_tiled A B hA hB t reps hr)) fuse

/-- **C134.** `kernel_test`, for its safe sizes. -/
theorem C134_kernel_test (N : Nat) (hN : SafeSize N) (t : Bool) (reps : Nat) (hr : 1 ≤ reps) :
    ShowsFailure 1 N (17 + ceilDiv N 512 * 32) (ceilDiv N 512 * 512) false fun A B =>
      @KernelTest.matrix_multiply Double (Double.arith fuse) N A B t reps :=
  C134_of (C126_kernel_test N hN t reps hr).by (fun _ h => h.takes (Nat.le_refl _))
    (fun _ _ _ A B _ _ hA hB => once (C85_kernel_test hN A B hA hB t reps hr)) fuse

section Examples

/-- `2^1023, 2^1023` in the first row, `1, 2` in the second one. -/
private def large (i j : Nat) : Double :=
  if i = 0 then Double.ofInt 970 (2 ^ 53) else Double.ofInt 0 (j + 1)

/-- `2, NaN` in the first row, `2, 2` in the second one. -/
private def holed (i j : Nat) : Double :=
  if i = 0 ∧ j = 1 then notANumber else Double.ofInt 0 2

/-- An entry overflows: the claim that it is not finite has a case, and the elements are finite. -/
example : ¬ ((Double.arith fun _ _ _ => false).mac ((Double.arith fun _ _ _ => false).mac Double.zero
    (large 0 0) (holed 0 0)) (large 0 1) (holed 1 0)).finite ∧
    ∀ k, k < 2 → (large 0 k).finite ∧ (holed k 0).finite := by
  decide +kernel

/-- The first entry of the second row is finite, beside an overflow and a NaN, and almost 6. -/
example : ∃ C, @Naive.naive_matrix_multiply Double (Double.arith fuse) 2 (rowMajor 2 large)
      (rowMajor 2 holed) = ND.pure C ∧
    ∃ x, C[2]? = some x ∧ x.finite ∧ |x.value - 6| ≤ 1 / 2 ^ 48 := by
  obtain ⟨C, h1, h2⟩ := C134_naive fuse 2 _ _ large holed (holds_rect 2 2 _) (holds_rect 2 2 _)
  obtain ⟨x, h3, h4, h5⟩ := h2 1 0 (by decide) (by decide)
  have e1 : entrySum 2 large holed 1 0 = 6 := by decide +kernel
  have e2 : entryAbs 2 large holed 1 0 = 6 := by decide +kernel
  rw [e1, e2, Nat.cast_one, one_mul] at h4
  rw [e2, Nat.cast_one, one_mul] at h5
  have hf : x.finite := by
    by_contra hf
    rcases h5 hf with ⟨k, hk, h⟩ | h
    · exact absurd h (not_not.2 ((by decide +kernel :
        ∀ k, k < 2 → (large 1 k).finite ∧ (holed k 0).finite) k hk))
    · exact absurd h (by decide +kernel)
  exact ⟨C, h1, x, h3, hf, (h4 hf).2.trans (by decide +kernel)⟩

/-- The hypotheses of the other cases. -/
example : ShowsFailure 1 12 14 12 true fun A B =>
    @Recursive.single_matrix_multiply Double (Double.arith fuse) 12 A B true 4 3 1 :=
  C134_single fuse 12 2 3 true 4 3 1 (by decide) (by decide)
    (fun d hd => by have : d = 0 ∨ d = 1 := by omega
                    rcases this with rfl | rfl <;> decide) (fun _ _ h => absurd h (by decide)) (by decide)

example : ShowsFailure 1 24 26 24 true fun A B =>
    @StaticImproved.pseudodynamic_matrix_multiply Double (Double.arith fuse) ⟨12, 1, fun _ _ => false⟩ 24
      A B true 12 6 1 3 :=
  C134_pseudodynamic fuse ⟨12, 1, fun _ _ => false⟩ 24 1 12 true 12 6 1 3 (by decide) (by decide)
    (by decide) (by decide) (by decide) fun _ _ => ⟨by decide, fun d _ _ =>
      Dvd.dvd.mul_left (by decide : 4 ∣ 12) _⟩

/-- `combined` with three repetitions. -/
example : ShowsFailure 3 5 77 768 false fun A B =>
    @Combined.matrix_multiply Double (Double.arith fuse) Combined.blocking 5 A B 3 :=
  C134_combined fuse 5 3 (by decide)

example : ShowsFailure 1 8 7 8 true fun A B => @Semi.matrix_multiply Double (Double.arith fuse) 8 A B 4 :=
  C134_semi fuse 8 4 (by decide) (by decide) (by decide)

end Examples

end Verif.Props
