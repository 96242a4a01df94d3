import Verif.Proof.Double
import Verif.SpecTiled
import Verif.Core.Mat
/-
Sums of products of doubles: where blocks change nothing, and an example where they do.
-/
namespace Verif.SameBits
open IEEE

/-! ### An example where they do -/

/-- Row of the first matrix: `2^53` in front, two ones at the beginning of the second block. -/
def xRow (bs k : Nat) : Double :=
  Double.ofInt 0 (if k = 0 then 2 ^ 53 else if k = bs ∨ k = bs + 1 then 1 else 0)

/-- The number one. -/
def one : Double := Double.ofInt 0 1

/-- A column of ones; zeros are possible where the row has zeros. -/
def Ones (bs : Nat) (y : Nat → Double) : Prop :=
  ∀ k, y k = one ∨ y k = Double.zero ∧ k ≠ 0 ∧ k ≠ bs ∧ k ≠ bs + 1

variable (fuse : Double → Double → Double → Bool)

private theorem mac_int (c x z : Int) (y : Double)
    (h1 : (Double.fma (Double.ofInt 0 c) (Double.ofInt 0 x) y).1 = (Double.ofInt 0 z).1)
    (h2 : (Double.add (Double.ofInt 0 c) (Double.mul (Double.ofInt 0 x) y)).1 =
      (Double.ofInt 0 z).1) :
    @Arith.mac Double (Double.arith fuse) (Double.ofInt 0 c) (Double.ofInt 0 x) y =
      Double.ofInt 0 z := by
  show (if fuse _ _ _ then _ else _) = _
  split
  · exact Subtype.ext h1
  · exact Subtype.ext h2

private theorem mac_none (c : Int) (hc : c = 2 ^ 53 ∨ c = 2 ∨ c = 0) (y : Double)
    (hy : y = one ∨ y = Double.zero) :
    @Arith.mac Double (Double.arith fuse) (Double.ofInt 0 c) (Double.ofInt 0 0) y =
      Double.ofInt 0 c := by
  rcases hc with rfl | rfl | rfl <;> rcases hy with rfl | rfl <;>
    exact mac_int fuse _ _ _ _ (by decide +kernel) (by decide +kernel)

theorem dot_x (bs n : Nat) (hn : 0 < n) (y : Nat → Double) (hy : Ones bs y) :
    @dot Double (Double.arith fuse) n (xRow bs) y = Double.ofInt 0 (2 ^ 53) := by
  let _ := Double.arith fuse
  unfold dot dotFrom
  induction n with
  | zero => omega
  | succ n ih =>
    rw [List.range_succ, List.foldl_append, List.foldl_cons, List.foldl_nil]
    rcases Nat.eq_zero_or_pos n with rfl | h0
    · rw [List.range_zero, List.foldl_nil, show Arith.zero = Double.ofInt 0 0 from
        (Double.ofInt_zero 0).symm, (hy 0).resolve_right fun h => h.2.1 rfl]
      exact mac_int fuse 0 (2 ^ 53) (2 ^ 53) _ (by decide +kernel) (by decide +kernel)
    · rw [ih h0]
      unfold xRow
      rw [if_neg (by omega)]
      split
      · rename_i h
        rw [(hy n).resolve_right fun h' => by omega]
        exact mac_int fuse (2 ^ 53) 1 (2 ^ 53) _ (by decide +kernel) (by decide +kernel)
      · exact mac_none fuse _ (.inl rfl) _ ((hy n).imp_right (·.1))

private theorem dot_zero (n : Nat) (y : Nat → Double) (hy : ∀ k, y k = one ∨ y k = Double.zero) :
    @dot Double (Double.arith fuse) n (fun _ => Double.ofInt 0 0) y = Double.zero := by
  let _ := Double.arith fuse
  rw [← Double.ofInt_zero 0]
  unfold dot dotFrom
  induction n with
  | zero => exact (Double.ofInt_zero 0).symm
  | succ n ih =>
    rw [List.range_succ, List.foldl_append, List.foldl_cons, List.foldl_nil, ih]
    exact mac_none fuse 0 (.inr (.inr rfl)) _ (hy n)

private theorem dot_two (n : Nat) (hn : 2 ≤ n) (y : Nat → Double)
    (hy : ∀ k, y k = one ∨ y k = Double.zero ∧ k ≠ 0 ∧ k ≠ 1) :
    @dot Double (Double.arith fuse) n (fun k => Double.ofInt 0 (if k = 0 ∨ k = 1 then 1 else 0))
      y = Double.ofInt 0 2 := by
  let _ := Double.arith fuse
  obtain ⟨m, rfl⟩ : ∃ m, n = m + 2 := ⟨n - 2, by omega⟩
  clear hn
  induction m with
  | zero =>
    show @Arith.mac Double (Double.arith fuse) (@Arith.mac Double (Double.arith fuse) Double.zero
      (Double.ofInt 0 1) (y 0)) (Double.ofInt 0 1) (y 1) = _
    rw [← Double.ofInt_zero 0, (hy 0).resolve_right (by simp), (hy 1).resolve_right (by simp),
      mac_int fuse 0 1 1 _ (by decide +kernel) (by decide +kernel)]
    exact mac_int fuse 1 1 2 _ (by decide +kernel) (by decide +kernel)
  | succ n ih =>
    unfold dot dotFrom at ih ⊢
    rw [show n + 1 + 2 = (n + 2) + 1 from rfl, List.range_succ, List.foldl_append, List.foldl_cons,
      List.foldl_nil, ih]
    dsimp only
    rw [if_neg (by omega)]
    exact mac_none fuse 2 (.inr (.inl rfl)) _ ((hy _).imp_right (·.1))

theorem bdot_x (bs nb : Nat) (hbs : 2 ≤ bs) (hnb : 2 ≤ nb) (y : Nat → Double) (hy : Ones bs y) :
    @bdot Double (Double.arith fuse) bs nb (xRow bs) y = Double.ofInt 0 (2 ^ 53 + 2) := by
  let _ := Double.arith fuse
  have hblock : ∀ t, dot bs (fun k => xRow bs (t * bs + k)) (fun k => y (t * bs + k)) =
      if t = 0 then Double.ofInt 0 (2 ^ 53) else if t = 1 then Double.ofInt 0 2 else Double.zero := by
    intro t
    split
    · rename_i h
      subst h
      simp only [Nat.zero_mul, Nat.zero_add]
      exact dot_x fuse bs bs (by omega) y hy
    · split
      · rename_i h
        subst h
        rw [← dot_two fuse bs hbs (fun k => y (1 * bs + k)) fun k => (hy _).imp_right fun h =>
          ⟨h.1, by omega, by omega⟩]
        congr 1
        funext k
        unfold xRow
        rw [if_neg (by omega)]
        congr 1
        exact if_congr (by omega) rfl rfl
      · rw [← dot_zero fuse bs (fun k => y (t * bs + k)) fun k => (hy _).imp_right (·.1)]
        congr 1
        funext k
        unfold xRow
        have : 2 * bs ≤ t * bs := Nat.mul_le_mul_right _ (by omega)
        rw [if_neg (by omega), if_neg (by omega)]
  obtain ⟨m, rfl⟩ : ∃ m, nb = m + 2 := ⟨nb - 2, by omega⟩
  clear hnb
  unfold bdot bdotFrom
  simp only [hblock]
  induction m with
  | zero =>
    show Double.add (Double.add Double.zero (Double.ofInt 0 (2 ^ 53))) (Double.ofInt 0 2) = _
    exact Subtype.ext (by decide +kernel)
  | succ n ih =>
    rw [show n + 1 + 2 = (n + 2) + 1 from rfl, List.range_succ, List.foldl_append, List.foldl_cons,
      List.foldl_nil, ih, if_neg (by omega), if_neg (by omega)]
    show Double.add _ _ = _
    exact Subtype.ext (by decide +kernel)

theorem x_ne : Double.ofInt 0 (2 ^ 53) ≠ Double.ofInt 0 (2 ^ 53 + 2) := by
  intro h
  have := congrArg Subtype.val h
  revert this
  decide +kernel

theorem two_blocks {N bi : Nat} (hN : 0 < N) (hd : bi ∣ N) (hlt : bi < N) : 2 ≤ N / bi := by
  obtain ⟨k, rfl⟩ := hd
  have hbi : 0 < bi := Nat.pos_of_ne_zero fun h => by rw [h, Nat.zero_mul] at hN; omega
  rw [Nat.mul_div_cancel_left _ hbi]
  rcases k with _ | _ | k
  · omega
  · omega
  · omega

/-! ### Where blocks change nothing -/

theorem not_neg_zero {x : Double} (h : x.1 ≠ .zero true) : Double.add x Double.zero = x := by
  apply Subtype.ext
  show Ext.round (Ext.add x.1 (.zero false)) = x.1
  have : Ext.add x.1 (.zero false) = x.1 := by
    obtain ⟨x, hd⟩ := x
    cases x with
    | zero t =>
      cases t with
      | true => exact absurd rfl h
      | false => rfl
    | _ => rfl
  rw [this]
  exact Ext.round_exact x.2

theorem add_not_neg_zero {x y : Double} (hx : x.1 ≠ .zero true) : (Double.add x y).1 ≠ .zero true := by
  show Ext.round (Ext.add x.1 y.1) ≠ _
  have key : ∀ p q : ℚ, IEEE.IsDouble p → IEEE.IsDouble q → p + q ≠ 0 →
      Ext.round (.num (p + q)) ≠ .zero true := by
    intro p q hp hq h0 h
    obtain ⟨δ, h1, h2⟩ := roundNum_sum hp hq
    have hr : roundNum (p + q) = 0 := by
      unfold Ext.round at h
      dsimp only at h
      split at h
      · cases h
      · split at h
        · next h' => exact h'
        · cases h
    rw [hr] at h2
    have h3 : (2 : ℚ) ^ (-53 : ℤ) ≤ 1 / 2 := by norm_num
    have h4 : 1 + δ ≠ 0 := by
      intro h5
      have : δ = -1 := by linarith
      rw [this] at h1
      norm_num at h1
    exact h0 ((mul_eq_zero.1 h2.symm).resolve_right h4)
  obtain ⟨x, hx'⟩ := x
  obtain ⟨y, hy'⟩ := y
  change x ≠ _ at hx
  show Ext.round (Ext.add x y) ≠ _
  cases x with
  | nan => exact fun h => by cases y <;> cases h
  | inf s =>
    cases y with
    | inf t =>
      show Ext.round (if s = t then .inf s else .nan) ≠ _
      split <;> exact fun h => by cases h
    | _ => exact fun h => by cases h
  | zero s =>
    cases s with
    | true => exact absurd rfl hx
    | false =>
      cases y with
      | nan => exact fun h => by cases h
      | inf t => exact fun h => by cases h
      | zero t => exact fun h => by injection h with h; cases h
      | num q =>
        show Ext.round (.num q) ≠ _
        rw [Ext.round_exact hy']
        exact fun h => by cases h
  | num p =>
    cases y with
    | nan => exact fun h => by cases h
    | inf t => exact fun h => by cases h
    | zero t =>
      show Ext.round (.num p) ≠ _
      rw [Ext.round_exact hx']
      exact fun h => by cases h
    | num q =>
      show Ext.round (if p + q = 0 then .zero false else .num (p + q)) ≠ _
      split
      · exact fun h => by injection h with h; cases h
      · next h0 => exact key p q hx'.2 hy'.2 h0

theorem zero_add' {x : Double} (h : x.1 ≠ .zero true) : Double.add Double.zero x = x := by
  apply Subtype.ext
  show Ext.round (Ext.add (.zero false) x.1) = x.1
  have : Ext.add (.zero false) x.1 = x.1 := by
    obtain ⟨x, hd⟩ := x
    cases x with
    | zero t =>
      cases t with
      | true => exact absurd rfl h
      | false => rfl
    | _ => rfl
  rw [this]
  exact Ext.round_exact x.2

/-- Whether a zero that is added has a sign does not matter. -/
theorem add_zero_add {s : Double} (h : s.1 ≠ .zero true) (p : Double) :
    Double.add s (Double.add Double.zero p) = Double.add s p := by
  by_cases hp : p.1 = .zero true
  · have : p = ⟨.zero true, trivial⟩ := Subtype.ext hp
    subst this
    rw [show Double.add Double.zero ⟨.zero true, trivial⟩ = Double.zero from Subtype.ext rfl,
      not_neg_zero h]
    apply Subtype.ext
    show s.1 = Ext.round (Ext.add s.1 (.zero true))
    have : Ext.add s.1 (.zero true) = s.1 := by
      obtain ⟨s, hd⟩ := s
      cases s with
      | zero t =>
        cases t with
        | true => exact absurd rfl h
        | false => rfl
      | _ => rfl
    rw [this]
    exact (Ext.round_exact s.2).symm
  · rw [zero_add' hp]

/-- No operation is fused. -/
def plain : Double → Double → Double → Bool := fun _ _ _ => false

section Plain

private theorem dot_succ {α : Type} [Arith α] (n : Nat) (f g : Nat → α) :
    dot (n + 1) f g = Arith.mac (dot n f g) (f n) (g n) := by
  unfold dot dotFrom
  rw [List.range_succ, List.foldl_append]
  rfl

private theorem bdot_succ {α : Type} [Arith α] (bs nb : Nat) (f g : Nat → α) :
    bdot bs (nb + 1) f g = Arith.add (bdot bs nb f g)
      (dot bs (fun k => f (nb * bs + k)) fun k => g (nb * bs + k)) := by
  unfold bdot bdotFrom
  rw [List.range_succ, List.foldl_append]
  rfl

theorem dot_not_neg (n : Nat) (f g : Nat → Double) :
    (@dot Double (Double.arith plain) n f g).1 ≠ .zero true := by
  let _ := Double.arith plain
  induction n with
  | zero => exact fun h => by injection h with h; cases h
  | succ n ih =>
    rw [dot_succ]
    exact add_not_neg_zero ih

/-- Products that are zero at the end do not matter. -/
theorem dot_tail (N n : Nat) (hn : N ≤ n) (f g : Nat → Double)
    (h : ∀ k, N ≤ k → k < n → Double.mul (f k) (g k) = Double.zero) :
    @dot Double (Double.arith plain) n f g = @dot Double (Double.arith plain) N f g := by
  let _ := Double.arith plain
  obtain ⟨d, rfl⟩ := Nat.exists_eq_add_of_le hn
  clear hn
  induction d with
  | zero => rfl
  | succ d ih =>
    rw [Nat.add_succ, dot_succ, ih fun k h1 h2 => h k h1 (by omega)]
    show Double.add _ (Double.mul _ _) = _
    rw [h (N + d) (by omega) (by omega)]
    exact not_neg_zero (dot_not_neg N f g)

/-- One block. -/
theorem bdot_one (bs : Nat) (f g : Nat → Double) :
    @bdot Double (Double.arith plain) bs 1 f g = @dot Double (Double.arith plain) bs f g := by
  let _ := Double.arith plain
  rw [bdot_succ]
  show Double.add Double.zero _ = _
  simp only [Nat.zero_mul, Nat.zero_add]
  exact zero_add' (dot_not_neg bs f g)

/-- Blocks of one element. -/
theorem bdot_ones (nb : Nat) (f g : Nat → Double) :
    @bdot Double (Double.arith plain) 1 nb f g = @dot Double (Double.arith plain) nb f g := by
  let _ := Double.arith plain
  induction nb with
  | zero => rfl
  | succ nb ih =>
    rw [bdot_succ, ih, dot_succ, dot_succ]
    show Double.add _ (Double.add Double.zero (Double.mul _ _)) = Double.add _ (Double.mul _ _)
    rw [add_zero_add (dot_not_neg nb f g)]
    simp only [Nat.mul_one, Nat.add_zero]

/-- Only the first element of the second block counts. -/
theorem bdot_first (bs nb : Nat) (hbs : 0 < bs) (f g : Nat → Double)
    (h : ∀ k, bs + 1 ≤ k → Double.mul (f k) (g k) = Double.zero) :
    @bdot Double (Double.arith plain) bs (nb + 2) f g = @dot Double (Double.arith plain) (bs + 1) f g := by
  let _ := Double.arith plain
  induction nb with
  | zero =>
    rw [bdot_succ, bdot_one, dot_succ bs, dot_tail 1 bs hbs (fun k => f (1 * bs + k))
      (fun k => g (1 * bs + k)) fun k h1 _ => h _ (by omega), dot_succ 0 fun k => f (1 * bs + k)]
    show Double.add _ (Double.add Double.zero (Double.mul _ _)) = Double.add _ (Double.mul _ _)
    rw [add_zero_add (dot_not_neg bs f g)]
    simp only [Nat.one_mul, Nat.add_zero]
  | succ nb ih =>
    rw [show nb + 1 + 2 = (nb + 2) + 1 from rfl, bdot_succ, ih,
      dot_tail 0 bs (Nat.zero_le _) (fun k => f ((nb + 2) * bs + k)) _ fun k h1 _ => h _ ?_]
    · exact not_neg_zero (dot_not_neg _ f g)
    · have : 2 * bs ≤ (nb + 2) * bs := Nat.mul_le_mul_right _ (by omega)
      omega

end Plain

/-! ### With fused operations -/

theorem add_zero_comm (x : Double) : Double.add x Double.zero = Double.add Double.zero x := by
  apply Subtype.ext
  show Ext.round (Ext.add x.1 (.zero false)) = Ext.round (Ext.add (.zero false) x.1)
  congr 1
  obtain ⟨x, hd⟩ := x
  cases x with
  | zero t => cases t <;> rfl
  | _ => rfl

theorem zero_add_not_neg (x : Double) : (Double.add Double.zero x).1 ≠ .zero true :=
  add_not_neg_zero fun h => by injection h with h; cases h

private theorem mac_zero (c : Double) :
    @Arith.mac Double (Double.arith fuse) c Double.zero Double.zero = Double.add Double.zero c := by
  rw [← add_zero_comm]
  show (if fuse _ _ _ then _ else _) = _
  split
  · rfl
  · show Double.add c (Double.mul Double.zero Double.zero) = _
    rw [show Double.mul Double.zero Double.zero = Double.zero from Subtype.ext rfl]

private theorem dot_zeros (n : Nat) :
    @dot Double (Double.arith fuse) n (fun _ => Double.zero) (fun _ => Double.zero) = Double.zero := by
  let _ := Double.arith fuse
  induction n with
  | zero => rfl
  | succ n ih => rw [dot_succ, ih, mac_zero]; exact Subtype.ext rfl

/-- All elements in the first block, the rest is padding. -/
theorem bdot_padded (N bs nb : Nat) (hN : N ≤ bs) (f g : Nat → Double)
    (h : ∀ k, N ≤ k → f k = Double.zero ∧ g k = Double.zero) :
    @bdot Double (Double.arith fuse) bs (nb + 1) f g =
      Double.add Double.zero (@dot Double (Double.arith fuse) N f g) := by
  let _ := Double.arith fuse
  induction nb with
  | zero =>
    rw [bdot_succ]
    show Double.add Double.zero _ = _
    simp only [Nat.zero_mul, Nat.zero_add]
    obtain ⟨d, rfl⟩ := Nat.exists_eq_add_of_le hN
    clear hN
    induction d with
    | zero => rfl
    | succ d ih =>
      rw [Nat.add_succ, dot_succ, (h _ (by omega)).1, (h _ (by omega)).2, mac_zero,
        zero_add' (zero_add_not_neg _), ih]
  | succ nb ih =>
    rw [bdot_succ, ih]
    have h0 : 0 < nb + 1 := by omega
    have hb : 1 * bs ≤ (nb + 1) * bs := Nat.mul_le_mul_right _ h0
    have e1 : (fun k => f ((nb + 1) * bs + k)) = fun _ => Double.zero :=
      funext fun k => (h _ (by omega)).1
    have e2 : (fun k => g ((nb + 1) * bs + k)) = fun _ => Double.zero :=
      funext fun k => (h _ (by omega)).2
    rw [e1, e2, dot_zeros]
    exact not_neg_zero (zero_add_not_neg _)

end Verif.SameBits
