import Verif.Model.Tiled64
import Verif.Proof.Variants64
import Verif.Proof.Combined
import Verif.Proof.KernelTiled
set_option linter.unusedSectionVars false
/-
The tiled kernels modulo 2^64.
-/
namespace Verif.Size64
variable {α : Type} [Arith α]

/-- Upper limit of the padded sizes. -/
local notation "S" => (2 ^ 31 + 2 ^ 11 : Nat)

theorem S_mul {a b : Nat} (ha : a ≤ S) (hb : b ≤ S) : a * b ≤ 2 ^ 62 + 2 ^ 44 :=
  Nat.le_trans (Nat.mul_le_mul ha hb) (by decide)

theorem u64_S {a b c : Nat} (ha : a ≤ S) (hb : b ≤ S) (hc : c < 2 ^ 62) : u64 (a * b + c) = a * b + c :=
  u64_eq (by have := S_mul ha hb; omega)

theorem u64_SS {a b : Nat} (ha : a ≤ S) (hb : b ≤ S) : u64 (a * b) = a * b :=
  u64_eq (by have := S_mul ha hb; omega)

/-- Index of the first element of a tile. -/
theorem base_le {p q i j Y : Nat} (hi : p * i ≤ S) (hY : Y ≤ S) (hj : q * j ≤ S) (hp : p ≤ 512) :
    (p * q) * (i * (Y / q) + j) ≤ 2 ^ 63 := by
  have h1 : (p * q) * (i * (Y / q) + j) = (p * i) * (q * (Y / q)) + p * (q * j) := by
    rw [Nat.mul_add, Nat.mul_mul_mul_comm, Nat.mul_assoc p q j]
  have h2 := S_mul hi ((Nat.mul_div_le Y q).trans hY)
  have h3 : p * (q * j) ≤ 512 * S := Nat.mul_le_mul hp hj
  omega

namespace Tiled
open _root_.Verif.Tiled (Blocking Padded V4 Acc verify_blocking_setup padOf X_REG Y_REG padOf_eq)

/-- Sizes of blocks up to 512. -/
structure Small (b : Blocking) : Prop extends b.Valid where
  x : b.L3_X ≤ 512
  y : b.L3_Y ≤ 512
  k : b.L3_K_STEP ≤ 512

theorem Small.l2 {b : Blocking} (h : Small b) : b.L2_X ≤ 512 ∧ b.L2_Y ≤ 512 ∧ b.L2_K_STEP ≤ 512 :=
  ⟨(Nat.le_of_dvd h.x3 h.x32).trans h.x, (Nat.le_of_dvd h.y3 h.y32).trans h.y,
    (Nat.le_of_dvd h.k3 h.k32).trans h.k⟩

theorem Small.l1 {b : Blocking} (h : Small b) : b.L1_X ≤ 512 ∧ b.L1_Y ≤ 512 ∧ b.L1_K_STEP ≤ 512 :=
  ⟨(Nat.le_of_dvd h.x3 (h.x21.trans h.x32)).trans h.x, (Nat.le_of_dvd h.y3 (h.y21.trans h.y32)).trans h.y,
    (Nat.le_of_dvd h.k3 (h.k21.trans h.k32)).trans h.k⟩

theorem small_tiled : Small Verif.KernelTiled.blocking := by
  constructor
  · constructor <;> decide
  all_goals decide

theorem small_combined : Small Verif.Combined.blocking := by
  constructor
  · constructor <;> decide
  all_goals decide

theorem pad_le {N L : Nat} (hL : L ≤ 512) : padOf N L ≤ 512 := by
  unfold padOf
  dsimp only
  split <;> omega

/-- What the constructors store. -/
structure Sizes (b : Blocking) (p : Padded α) : Prop where
  x : p.X_size ≤ 2 ^ 31 + 512
  y : p.Y_size ≤ 2 ^ 31 + 512
  k : p.K_size ≤ 2 ^ 31 + 512
  dx : b.L3_X ∣ p.X_size
  dy : b.L3_Y ∣ p.Y_size
  dk : b.L3_K_STEP ∣ p.K_size

theorem setup_sizes {b : Blocking} (h : Small b) {N : Nat} (hN : N < 2 ^ 31) {A B : Array α} {p : Padded α}
    (hp : Verif.Tiled.setup b N A B = .ok p) : Sizes b p := by
  have hd : ∀ L, 0 < L → L ∣ N + padOf N L := fun L hL => by
    rw [padOf_eq hL]
    exact Nat.dvd_mul_left ..
  have h1 : p.X_size = N + padOf N b.L3_X ∧ p.Y_size = N + padOf N b.L3_Y ∧
      p.K_size = N + padOf N b.L3_K_STEP := by
    unfold Verif.Tiled.setup at hp
    obtain ⟨_, _, hp⟩ := Verif.Semi.bind_ok hp
    obtain ⟨_, _, hp⟩ := Verif.Semi.bind_ok hp
    obtain ⟨_, _, hp⟩ := Verif.Semi.bind_ok hp
    obtain rfl := Except.ok.inj hp
    exact ⟨rfl, rfl, rfl⟩
  have hx := pad_le (N := N) h.x
  have hy := pad_le (N := N) h.y
  have hk := pad_le (N := N) h.k
  obtain ⟨e1, e2, e3⟩ := h1
  exact ⟨by omega, by omega, by omega, e1 ▸ hd _ h.x3, e2 ▸ hd _ h.y3, e3 ▸ hd _ h.k3⟩

theorem setup_eq {b : Blocking} (h : Small b) {N : Nat} (hN : N < 2 ^ 31) (A B : Array α) :
    setup b N A B = Verif.Tiled.setup b N A B := by
  have hx := pad_le (N := N) h.x
  have hy := pad_le (N := N) h.y
  have hk := pad_le (N := N) h.k
  unfold setup Verif.Tiled.setup
  congr 1
  funext u
  dsimp only
  rw [u64_eq (x := N + padOf N b.L3_X) (by omega), u64_eq (x := N + padOf N b.L3_Y) (by omega),
    u64_eq (x := N + padOf N b.L3_K_STEP) (by omega), u64_SS (by omega) (by omega),
    u64_SS (by omega) (by omega)]
  congr 1
  · refine forStep_congr (fun i hi s => forStep_congr (fun j hj s => ?_) _) _
    rw [u64_S (by omega) (by omega) (by omega), u64_S (by omega) (by omega) (by omega)]
  · funext A'
    congr 1
    refine forStep_congr (fun i hi s => forStep_congr (fun j hj s => ?_) _) _
    rw [u64_S (by omega) (by omega) (by omega), u64_S (by omega) (by omega) (by omega)]

theorem lt_div {i X L : Nat} (hi : i < X / L) : L * i + L ≤ X := by
  have h1 := Nat.mul_le_mul_left L hi
  have h2 := Nat.mul_div_le X L
  rw [Nat.mul_succ] at h1
  omega

theorem small_mul {a b : Nat} (ha : a ≤ 600) (hb : b ≤ 512) : a * b ≤ 2 ^ 19 :=
  Nat.le_trans (Nat.mul_le_mul ha hb) (by decide)

theorem tileA_eq {b : Blocking} (h : Small b) {p : Padded α} (hp : Sizes b p) :
    tileA b p = Verif.Tiled.tileA b p := by
  obtain ⟨hx, hy, hk, -, -, -⟩ := hp
  obtain ⟨l1, l2, l3⟩ := h.l1
  unfold tileA Verif.Tiled.tileA
  rw [u64_SS (by omega) (by omega)]
  refine forStep_congr (fun lx hlx s => forStep_congr (fun lk hlk s => ?_) _) _
  have h1 := lt_div hlx
  have h2 := lt_div hlk
  have hb : b.L1_X * b.L1_K_STEP * (lk * (p.X_size / b.L1_X) + lx) ≤ 2 ^ 63 := by
    rw [Nat.mul_comm b.L1_X]
    exact base_le (by omega) (by omega) (by omega) l3
  dsimp only
  rw [u64_eq (by omega)]
  refine forStep_congr (fun x hx s => forStep_congr (fun k hk s => ?_) _) _
  have h3 := small_mul (a := k) (b := b.L1_X) (by omega) (by omega)
  rw [Nat.mul_comm lx b.L1_X, Nat.mul_comm lk b.L1_K_STEP, u64_S (by omega) (by omega) (by omega),
    u64_eq (by omega)]

theorem tileB_eq {b : Blocking} (h : Small b) {p : Padded α} (hp : Sizes b p) :
    tileB b p = Verif.Tiled.tileB b p := by
  obtain ⟨hx, hy, hk, -, -, -⟩ := hp
  obtain ⟨l1, l2, l3⟩ := h.l1
  unfold tileB Verif.Tiled.tileB
  rw [u64_SS (by omega) (by omega)]
  refine forStep_congr (fun lx hlx s => forStep_congr (fun lk hlk s => ?_) _) _
  have h1 := lt_div hlx
  have h2 := lt_div hlk
  have hb : b.L1_Y * b.L1_K_STEP * (lk * (p.Y_size / b.L1_Y) + lx) ≤ 2 ^ 63 := by
    rw [Nat.mul_comm b.L1_Y]
    exact base_le (by omega) (by omega) (by omega) l3
  dsimp only
  rw [u64_eq (by omega)]
  refine forStep_congr (fun x hx s => forStep_congr (fun k hk s => ?_) _) _
  have h3 := small_mul (a := k) (b := b.L1_Y) (by omega) (by omega)
  rw [Nat.mul_comm lx b.L1_Y, Nat.mul_comm lk b.L1_K_STEP, u64_S (by omega) (by omega) (by omega),
    u64_eq (by omega)]

theorem inner_eq {b : Blocking} (h : Small b) {a c x y : Nat} (ha : a ≤ 2 ^ 63) (hc : c ≤ 2 ^ 63)
    (hx : x < b.L1_X) (hy : y < b.L1_Y) (At Bp : Array α) :
    inner b At Bp a c x y = Verif.Tiled.inner b At Bp a c x y := by
  obtain ⟨l1, l2, l3⟩ := h.l1
  refine forStep_congr (fun k hk s => ?_) _
  have h3 := small_mul (a := k) (b := b.L1_X) (by omega) (by omega)
  have h4 := small_mul (a := k) (b := b.L1_Y) (by omega) (by omega)
  unfold loadAligned
  rw [u64_eq (x := c + k * b.L1_Y + y) (by omega), u64_eq (x := c + k * b.L1_Y + (y + 4)) (by omega),
    u64_eq (x := a + k * b.L1_X + (x + 0)) (by omega), u64_eq (x := a + k * b.L1_X + (x + 1)) (by omega),
    u64_eq (x := a + k * b.L1_X + (x + 2)) (by omega), u64_eq (x := a + k * b.L1_X + (x + 3)) (by omega),
    u64_eq (x := a + k * b.L1_X + (x + 4)) (by omega)]

theorem block_eq {b : Blocking} (h : Small b) {X Y lx ly lk : Nat} (hX : X ≤ 2 ^ 31 + 512)
    (hY : Y ≤ 2 ^ 31 + 512) (hlx : lx ≤ S) (hly : ly ≤ S) (hlk : lk ≤ S) (At Bp : Array α) :
    block b X Y At Bp lx ly lk = Verif.Tiled.block b X Y At Bp lx ly lk := by
  obtain ⟨l1, l2, l3⟩ := h.l1
  have e1 := Nat.mul_div_le lx b.L1_X
  have e2 := Nat.mul_div_le ly b.L1_Y
  have e3 := Nat.mul_div_le lk b.L1_K_STEP
  have hc : b.L1_X * b.L1_Y * (lx / b.L1_X * (Y / b.L1_Y) + ly / b.L1_Y) ≤ 2 ^ 63 :=
    base_le (by omega) (by omega) (by omega) l1
  have ha : b.L1_X * b.L1_K_STEP * (lk / b.L1_K_STEP * (X / b.L1_X) + lx / b.L1_X) ≤ 2 ^ 63 := by
    rw [Nat.mul_comm b.L1_X]
    exact base_le (by omega) (by omega) (by omega) l3
  have hb : b.L1_Y * b.L1_K_STEP * (lk / b.L1_K_STEP * (Y / b.L1_Y) + ly / b.L1_Y) ≤ 2 ^ 63 := by
    rw [Nat.mul_comm b.L1_Y]
    exact base_le (by omega) (by omega) (by omega) l3
  unfold block Verif.Tiled.block
  dsimp only
  rw [u64_eq (Nat.lt_of_le_of_lt hc (by decide)), u64_eq (Nat.lt_of_le_of_lt ha (by decide)),
    u64_eq (Nat.lt_of_le_of_lt hb (by decide)), u64_SS (by omega) (by omega)]
  generalize b.L1_X * b.L1_Y * (lx / b.L1_X * (Y / b.L1_Y) + ly / b.L1_Y) = c0 at hc
  generalize b.L1_X * b.L1_K_STEP * (lk / b.L1_K_STEP * (X / b.L1_X) + lx / b.L1_X) = a0 at ha
  generalize b.L1_Y * b.L1_K_STEP * (lk / b.L1_K_STEP * (Y / b.L1_Y) + ly / b.L1_Y) = b0 at hb
  refine for64_eq (by decide) (by unfold X_REG; omega) (fun x _ hx _ =>
    for64_eq (by decide) (by unfold Y_REG; omega) (fun y _ hy _ => ?_) _) _
  rw [inner_eq h ha hb hx hy]
  have e : ∀ d, d < 5 → ∀ d', d' < 5 → u64 (c0 + (x + d) * b.L1_Y + (y + d')) =
      c0 + (x + d) * b.L1_Y + (y + d') := fun d hd d' hd' => by
    have := small_mul (a := x + d) (b := b.L1_Y) (by omega) (by omega)
    exact u64_eq (by omega)
  have e' : ∀ d, d < 5 → u64 (c0 + (x + d) * b.L1_Y + y) = c0 + (x + d) * b.L1_Y + y := fun d hd =>
    e d hd 0 (by decide)
  unfold addV
  simp only [e 0 (by decide) 4 (by decide), e 1 (by decide) 4 (by decide), e 2 (by decide) 4 (by decide),
    e 3 (by decide) 4 (by decide), e 4 (by decide) 4 (by decide), e' 0 (by decide), e' 1 (by decide),
    e' 2 (by decide), e' 3 (by decide), e' 4 (by decide)]

theorem extract_eq {b : Blocking} (h : Small b) {N X Y : Nat} (hN : N < 2 ^ 31) (hX : X ≤ 2 ^ 31 + 512)
    (hY : Y ≤ 2 ^ 31 + 512) (C : Array α) : extract b N X Y C = Verif.Tiled.extract b N X Y C := by
  obtain ⟨l1, l2, l3⟩ := h.l1
  unfold extract Verif.Tiled.extract
  rw [u64_SS (by omega) (by omega)]
  refine forStep_congr (fun lx hlx s => forStep_congr (fun ly hly s => ?_) _) _
  have h1 := lt_div hlx
  have h2 := lt_div hly
  have hc : b.L1_X * b.L1_Y * (lx * (Y / b.L1_Y) + ly) ≤ 2 ^ 63 :=
    base_le (by omega) (by omega) (by omega) l1
  dsimp only
  rw [u64_eq (Nat.lt_of_le_of_lt hc (by decide))]
  refine forStep_congr (fun x hx s => forStep_congr (fun y hy s => ?_) _) _
  have h3 := small_mul (a := x) (b := b.L1_Y) (by omega) (by omega)
  rw [Nat.mul_comm lx b.L1_X, Nat.mul_comm ly b.L1_Y, u64_eq (x := b.L1_X * lx + x) (by omega),
    u64_eq (x := b.L1_Y * ly + y) (by omega), u64_S (by omega) (by omega) (by omega),
    u64_eq (x := b.L1_X * b.L1_Y * (lx * (Y / b.L1_Y) + ly) + x * b.L1_Y + y) (by omega)]

end Tiled

namespace KernelTiled
open _root_.Verif.Size64.Tiled
open _root_.Verif.Tiled (Blocking)

theorem task_eq {b : Blocking} (h : Small b) {X Y K x3 y3 : Nat} (hX : X ≤ 2 ^ 31 + 512)
    (hY : Y ≤ 2 ^ 31 + 512) (hK : K ≤ 2 ^ 31 + 512) (hx : x3 < X) (hy : y3 < Y) (At Bp : Array α) :
    task b X Y K At Bp x3 y3 = Verif.KernelTiled.task b X Y K At Bp x3 y3 := by
  obtain ⟨l1, l2, l3⟩ := h.l1
  obtain ⟨m1, m2, m3⟩ := h.l2
  have n1 := h.x
  have n2 := h.y
  have n3 := h.k
  obtain ⟨p1, p2, p3⟩ := Verif.Combined.l2_pos h.toValid
  unfold task Verif.KernelTiled.task
  refine for64_eq h.k3 (by omega) (fun k3 _ hk3 _ => ?_) _
  rw [u64_eq (by omega)]
  refine for64_eq p1 (by omega) (fun x2 _ hx2 _ => ?_) _
  rw [u64_eq (by omega)]
  refine for64_eq p2 (by omega) (fun y2 _ hy2 _ => ?_) _
  rw [u64_eq (by omega)]
  refine for64_eq p3 (by omega) (fun k2 _ hk2 _ => ?_) _
  rw [u64_eq (by omega)]
  refine for64_eq h.x1 (by omega) (fun x1 _ hx1 _ => ?_) _
  rw [u64_eq (by omega)]
  refine for64_eq h.y1 (by omega) (fun y1 _ hy1 _ => ?_) _
  rw [u64_eq (by omega)]
  refine for64_eq h.k1 (by omega) (fun k1 _ hk1 _ => ?_) _
  exact block_eq h hX hY (by omega) (by omega) (by omega) At Bp

theorem tree_eq {b : Blocking} (h : Small b) {X Y K : Nat} (hX : X ≤ 2 ^ 31 + 512)
    (hY : Y ≤ 2 ^ 31 + 512) (hK : K ≤ 2 ^ 31 + 512) (At Bp : Array α) :
    tree b X Y K At Bp = Verif.KernelTiled.tree b X Y K At Bp := by
  unfold tree Verif.KernelTiled.tree
  refine congrArg Tree.par (List.map_congr_left fun q hq => congrArg Tree.act ?_)
  obtain ⟨x, hx, hq⟩ := List.mem_flatMap.1 hq
  obtain ⟨y, hy, rfl⟩ := List.mem_map.1 hq
  obtain ⟨-, -, hx⟩ := (mem_steps h.x3).1 hx
  obtain ⟨-, -, hy⟩ := (mem_steps h.y3).1 hy
  exact task_eq h hX hY hK hx hy At Bp

theorem matrix_multiply_eq {b : Blocking} (h : Small b) {N : Nat} (hN : N < 2 ^ 31) (A B : Array α)
    (t : Bool) (r : Nat) :
    matrix_multiply b N A B t r = Verif.KernelTiled.matrix_multiply b N A B t r := by
  unfold matrix_multiply Verif.KernelTiled.matrix_multiply
  rw [setup_eq h hN]
  refine StaticImproved.nd_bind_congr fun p hp => ?_
  have hs := setup_sizes h hN hp.symm
  obtain ⟨hx, hy, hk, -, -, -⟩ := id hs
  dsimp only
  rw [tileA_eq h hs, tileB_eq h hs, u64_SS (by omega) (by omega)]
  simp only [tree_eq h hx hy hk, extract_eq h hN hx hy]

end KernelTiled

namespace Combined
open _root_.Verif.Size64.Tiled
open _root_.Verif.Size64.IndexIterator (Fits iterateRev_eq width)
open _root_.Verif.Tiled (Blocking Padded)
open _root_.Verif.IndexIterator (Policy)
open _root_.Verif.Combined (clearFirst policy policy_ok pol levels final calls_spec calls)

theorem A_trans_untiled_eq {b : Blocking} {p : Padded α} (hp : Sizes b p) :
    A_trans_untiled p = Verif.Combined.A_trans_untiled p := by
  obtain ⟨hx, hy, hk, -, -, -⟩ := hp
  unfold A_trans_untiled Verif.Combined.A_trans_untiled
  rw [u64_SS (by omega) (by omega)]
  refine forStep_congr (fun i hi s => forStep_congr (fun j hj s => ?_) _) _
  rw [u64_S (by omega) (by omega) (by omega), u64_S (by omega) (by omega) (by omega)]

theorem width_le {e : Nat → Nat} {b : List Nat} {d : Nat} (h : 0 < b.getD d 0) (M : Nat) (h1 : 1 ≤ M)
    (he : e d ≤ M) : width e b d ≤ M := by
  unfold width
  refine Nat.max_le.2 ⟨h1, ?_⟩
  unfold ceilDiv
  generalize b.getD d 0 = m at h
  rcases Nat.eq_zero_or_pos (e d) with h0 | h0
  · rw [h0, Nat.div_eq_of_lt (by omega)]
    exact Nat.zero_le _
  · refine Nat.le_trans (Nat.div_le_of_le_mul ?_) he
    obtain ⟨m, rfl⟩ : ∃ k, m = k + 1 := ⟨m - 1, by omega⟩
    have := Nat.mul_le_mul_left m h0
    rw [Nat.add_mul, Nat.one_mul]
    omega

theorem getD3_lt {a b c M : Nat} (ha : a < M) (hb : b < M) (hc : c < M) (d : Nat) :
    [a, b, c].getD d 0 < M := by
  rcases d with _ | _ | _ | d
  · exact ha
  · exact hb
  · exact hc
  · exact Nat.lt_of_le_of_lt (Nat.zero_le _) ha

theorem calls_eq {b : Blocking} (h : Small b) {X Y K : Nat} (hX : X ≤ 2 ^ 31 + 512)
    (hY : Y ≤ 2 ^ 31 + 512) (hK : K ≤ 2 ^ 31 + 512) :
    IndexIterator.iterate_indices 3 (pol b) [0, 0, 0] [X, Y, K] = calls b X Y K := by
  obtain ⟨l1, l2, l3⟩ := h.l1
  obtain ⟨m1, m2, m3⟩ := h.l2
  have n1 := h.x
  have n2 := h.y
  have n3 := h.k
  obtain ⟨p1, p2, p3⟩ := Verif.Combined.l2_pos h.toValid
  have c3 : ∀ d, d < 3 → 0 < [b.L3_X, b.L3_Y, b.L3_K_STEP].getD d 0 :=
    Verif.Combined.forall_three h.x3 h.y3 h.k3
  have c2 : ∀ d, d < 3 → 0 < [b.L2_X, b.L2_Y, b.L2_K_STEP].getD d 0 :=
    Verif.Combined.forall_three p1 p2 p3
  refine iterateRev_eq (levels b ++ [(final b, [false, false, false])]) [0, 0, 0] [X, Y, K] (fun _ => S) S
    ⟨getD3_lt (by omega) (by omega) (by omega), c3, ?_, ?_,
      getD3_lt (by omega) (by omega) (by omega), c2, ?_, ?_,
      getD3_lt (by omega) (by omega) (by omega)⟩
    (show S + 3 * 2 ^ 31 < 2 ^ 53 by decide)
    (Looped.getD3_le (by omega) (by omega) (by omega)) (Looped.getD3_le (by omega) (by omega) (by omega))
    (Verif.Combined.forall_three ?_ ?_ ?_)
  · show width _ _ 0 * (width _ _ 1 * 1) < 2 ^ 64
    rw [Nat.mul_one]
    exact Nat.lt_of_le_of_lt (S_mul (width_le (c3 0 (by decide)) S (by decide) (Nat.le_refl _))
      (width_le (c3 1 (by decide)) S (by decide) (Nat.le_refl _))) (by decide)
  · show width _ _ 2 * 1 < 2 ^ 64
    rw [Nat.mul_one]
    exact Nat.lt_of_le_of_lt (width_le (c3 2 (by decide)) S (by decide) (Nat.le_refl _)) (by decide)
  · exact (by decide : (1 : Nat) < 2 ^ 64)
  · show width _ _ 0 * (width _ _ 1 * (width _ _ 2 * 1)) < 2 ^ 64
    have w : ∀ d, d < 3 → width (fun d => [b.L3_X, b.L3_Y, b.L3_K_STEP].getD d 0)
        [b.L2_X, b.L2_Y, b.L2_K_STEP] d ≤ 512 := fun d hd =>
      width_le (c2 d hd) 512 (by decide) (Looped.getD3_le n1 n2 n3 d)
    have := Nat.mul_le_mul (w 0 (by decide)) (Nat.mul_le_mul (w 1 (by decide))
      (Nat.mul_le_mul_right 1 (w 2 (by decide))))
    exact Nat.lt_of_le_of_lt this (by decide)
  · exact ⟨Nat.zero_le _, show X - 0 ≤ S by omega⟩
  · exact ⟨Nat.zero_le _, show Y - 0 ≤ S by omega⟩
  · exact ⟨Nat.zero_le _, show K - 0 ≤ S by omega⟩

theorem tree_eq {b : Blocking} (h : Small b) {p : Padded α} (hs : Sizes b p) (At Bp : Array α) :
    tree b (pol b) p.X_size p.Y_size p.K_size At Bp =
      Verif.Combined.tree b (pol b) p.X_size p.Y_size p.K_size At Bp := by
  obtain ⟨hx, hy, hk, dx, dy, dk⟩ := hs
  obtain ⟨-, -, hm⟩ := calls_spec h.toValid dx dy dk
  unfold tree
  rw [Verif.Combined.tree_eq, calls_eq h hx hy hk]
  refine toTree_congr _ fun q hq => ?_
  obtain ⟨-, g⟩ := (hm q).1 hq
  obtain ⟨_, -, g0⟩ := g 0 (by simp)
  obtain ⟨_, -, g1⟩ := g 1 (by simp)
  obtain ⟨_, -, g2⟩ := g 2 (by simp)
  change q.getD 0 0 < p.X_size at g0
  change q.getD 1 0 < p.Y_size at g1
  change q.getD 2 0 < p.K_size at g2
  unfold body Verif.Combined.body
  rw [block_eq h hx hy (by omega) (by omega) (by omega)]

theorem matrix_multiply_eq {b : Blocking} (h : Small b) {N : Nat} (hN : N < 2 ^ 31) (A B : Array α)
    (r : Nat) : matrix_multiply b N A B r = Verif.Combined.matrix_multiply b N A B r := by
  unfold matrix_multiply Verif.Combined.matrix_multiply
  rw [setup_eq h hN]
  refine StaticImproved.nd_bind_congr fun p hp => ?_
  have hs := setup_sizes h hN hp.symm
  obtain ⟨hx, hy, hk, -, -, -⟩ := id hs
  dsimp only
  have et : ∀ (At Bp C : Array α), (ND.ofM (policy b) >>= fun pol =>
      ND.runOn C (tree b pol p.X_size p.Y_size p.K_size At Bp)) = (ND.ofM (policy b) >>= fun pol =>
      ND.runOn C (Verif.Combined.tree b pol p.X_size p.Y_size p.K_size At Bp)) := fun At Bp C => by
    refine StaticImproved.nd_bind_congr fun q hq => ?_
    have hq : policy b = .ok q := hq.symm
    rw [policy_ok] at hq
    obtain rfl := Except.ok.inj hq
    rw [tree_eq h hs]
  rw [A_trans_untiled_eq hs, tileA_eq h hs, tileB_eq h hs, u64_SS (by omega) (by omega)]
  simp only [et, extract_eq h hN hx hy]

end Combined

namespace KernelTest
open _root_.Verif.Size64.Tiled
open _root_.Verif.Tiled (V4 Acc)
open _root_.Verif.KernelTest (PADDING L3_X L3_Y L3_K_STEP L2_X L2_Y L2_K_STEP L1_X L1_Y L1_K_STEP X_REG
  Y_REG)

theorem pads {N : Nat} (hN : N < 2 ^ 31) : N + PADDING ≤ 2 ^ 31 + 64 := by unfold PADDING; omega

theorem padA_eq {N : Nat} (hN : N < 2 ^ 31) (A : Array α) : padA N A = Verif.KernelTest.padA N A := by
  have hp := pads hN
  unfold padA Verif.KernelTest.padA
  rw [u64_SS (by omega) (by omega)]
  refine forStep_congr (fun i hi s => forStep_congr (fun j hj s => ?_) _) _
  rw [u64_S (by omega) (by omega) (by omega), u64_S (by omega) (by omega) (by omega)]

theorem transA_eq {N : Nat} (hN : N < 2 ^ 31) (A : Array α) : transA N A = Verif.KernelTest.transA N A := by
  have hp := pads hN
  unfold transA Verif.KernelTest.transA
  rw [u64_SS (by omega) (by omega)]
  refine forStep_congr (fun i hi s => forStep_congr (fun j hj s => ?_) _) _
  rw [u64_S (by omega) (by omega) (by omega), u64_S (by omega) (by omega) (by omega)]

theorem padB_eq {N : Nat} (hN : N < 2 ^ 31) (B : Array α) : padB N B = Verif.KernelTest.padB N B := by
  have hp := pads hN
  unfold padB Verif.KernelTest.padB
  rw [u64_SS (by omega) (by omega)]
  refine forStep_congr (fun i hi s => forStep_congr (fun j hj s => ?_) _) _
  rw [u64_S (by omega) (by omega) (by omega), u64_S (by omega) (by omega) (by omega)]

theorem extract_eq {N : Nat} (hN : N < 2 ^ 31) (C : Array α) :
    extract N C = Verif.KernelTest.extract N C := by
  have hp := pads hN
  unfold extract Verif.KernelTest.extract
  rw [u64_SS (by omega) (by omega)]
  refine forStep_congr (fun i hi s => forStep_congr (fun j hj s => ?_) _) _
  rw [u64_S (by omega) (by omega) (by omega), u64_S (by omega) (by omega) (by omega)]

theorem step_eq {N x y k : Nat} (hN : N < 2 ^ 31) (hx : x ≤ 2 ^ 31 + 1024) (hy : y ≤ 2 ^ 31 + 1024)
    (hk : k ≤ 2 ^ 31 + 1024) (At Bp : Array α) (s : Acc α × V4 α × V4 α) :
    step N At Bp x y k s = Verif.KernelTest.step N At Bp x y k s := by
  have hp := pads hN
  have e : ∀ d, d < 5 → u64 (k * (N + PADDING) + (x + d)) = k * (N + PADDING) + (x + d) := fun d hd =>
    u64_S (by omega) (by omega) (by omega)
  have e1 : u64 ((k + 1) * (N + PADDING) + y) = (k + 1) * (N + PADDING) + y :=
    u64_S (by omega) (by omega) (by omega)
  have e2 : u64 ((k + 1) * (N + PADDING) + (y + 4)) = (k + 1) * (N + PADDING) + (y + 4) :=
    u64_S (by omega) (by omega) (by omega)
  unfold step Verif.KernelTest.step loadAligned
  simp only [e 0 (by decide), e 1 (by decide), e 2 (by decide), e 3 (by decide), e 4 (by decide), e1, e2]

theorem inner_eq {N x y k : Nat} (hN : N < 2 ^ 31) (hx : x ≤ 2 ^ 31 + 1024) (hy : y ≤ 2 ^ 31 + 1024)
    (hk : k ≤ 2 ^ 31 + 1000) (At Bp : Array α) :
    inner N At Bp k x y = Verif.KernelTest.inner N At Bp k x y := by
  have hp := pads hN
  unfold inner Verif.KernelTest.inner loadAligned L1_K_STEP
  rw [u64_S (by omega) (by omega) (by omega), u64_S (by omega) (by omega) (by omega),
    u64_eq (by omega)]
  congr 1
  funext b1
  congr 1
  funext b2
  rw [for64_eq (by decide) (by omega) (fun i _ hi s => step_eq hN hx hy (by omega) At Bp s)]

theorem store_eq {N l x y : Nat} (hN : N < 2 ^ 31) (hl : l ≤ 2 ^ 31 + 1024) (hx : x ≤ 2 ^ 31 + 1024)
    (hy : y ≤ 2 ^ 31 + 1024) (s : Acc α) : store N l x y s = Verif.KernelTest.store N l x y s := by
  have hp := pads hN
  have e : ∀ d, d < 5 → ∀ d', d' < 5 → u64 ((x + d) * (N + PADDING) + (y + d')) =
      (x + d) * (N + PADDING) + (y + d') := fun d hd d' hd' =>
    u64_S (by omega) (by omega) (by omega)
  have e' : ∀ d, d < 5 → u64 ((x + d) * (N + PADDING) + y) = (x + d) * (N + PADDING) + y := fun d hd =>
    u64_S (by omega) (by omega) (by omega)
  have ex : ∀ d, d < 5 → u64 (x + d) = x + d := fun d hd => u64_eq (by omega)
  have el : u64 (l + L1_X) = l + L1_X := u64_eq (by unfold L1_X; omega)
  have en : u64 ((N + PADDING) * (N + PADDING)) = (N + PADDING) * (N + PADDING) :=
    u64_SS (by omega) (by omega)
  unfold store Verif.KernelTest.store addIf Verif.KernelTest.addIf addV
  dsimp only
  simp only [e 0 (by decide) 4 (by decide), e 1 (by decide) 4 (by decide), e 2 (by decide) 4 (by decide),
    e 3 (by decide) 4 (by decide), e 4 (by decide) 4 (by decide), e' 0 (by decide), e' 1 (by decide),
    e' 2 (by decide), e' 3 (by decide), e' 4 (by decide), ex 1 (by decide), ex 2 (by decide),
    ex 3 (by decide), ex 4 (by decide), el, en]

theorem block_eq {N lx ly lk : Nat} (hN : N < 2 ^ 31) (hx : lx ≤ 2 ^ 31 + 900) (hy : ly ≤ 2 ^ 31 + 900)
    (hk : lk ≤ 2 ^ 31 + 1000) (At Bp : Array α) :
    block N At Bp lx ly lk = Verif.KernelTest.block N At Bp lx ly lk := by
  unfold block Verif.KernelTest.block L1_X L1_Y X_REG Y_REG
  rw [u64_eq (by omega), u64_eq (x := lx + 64) (by omega), u64_eq (x := ly + 0) (by omega),
    u64_eq (x := ly + 32) (by omega)]
  refine for64_eq (by decide) (by omega) (fun x _ hx' _ =>
    for64_eq (by decide) (by omega) (fun y _ hy' _ => ?_) _) _
  rw [inner_eq hN (by omega) (by omega) hk]
  congr 1
  funext s
  exact store_eq hN (by omega) (by omega) (by omega) s

theorem task_eq {N x3 y3 : Nat} (hN : N < 2 ^ 31) (hx : x3 < N) (hy : y3 < N) (At Bp : Array α) :
    task N At Bp x3 y3 = Verif.KernelTest.task N At Bp x3 y3 := by
  unfold task Verif.KernelTest.task L3_K_STEP L3_X L3_Y L2_X L2_Y L2_K_STEP
  refine for64_eq (by decide) (by omega) (fun k3 _ hk3 _ => ?_) _
  rw [u64_eq (by omega)]
  refine for64_eq (by decide) (by omega) (fun x2 _ hx2 _ => ?_) _
  rw [u64_eq (by omega)]
  refine for64_eq (by decide) (by omega) (fun y2 _ hy2 _ => ?_) _
  rw [u64_eq (by omega)]
  refine for64_eq (by decide) (by omega) (fun k2 _ hk2 _ => ?_) _
  rw [u64_eq (by omega)]
  refine for64_eq (by decide) (by unfold L1_X; omega) (fun x1 _ hx1 _ => ?_) _
  rw [u64_eq (by omega)]
  refine for64_eq (by decide) (by unfold L1_Y; omega) (fun y1 _ hy1 _ => ?_) _
  rw [u64_eq (by omega)]
  refine for64_eq (by decide) (by unfold L1_K_STEP; omega) (fun k1 _ hk1 _ => ?_) _
  exact block_eq hN (by omega) (by omega) (by omega) At Bp

theorem tree_eq {N : Nat} (hN : N < 2 ^ 31) (At Bp : Array α) :
    tree N At Bp = Verif.KernelTest.tree N At Bp := by
  unfold tree Verif.KernelTest.tree
  refine congrArg Tree.par (List.map_congr_left fun q hq => congrArg Tree.act ?_)
  obtain ⟨x, hx, hq⟩ := List.mem_flatMap.1 hq
  obtain ⟨y, hy, rfl⟩ := List.mem_map.1 hq
  obtain ⟨-, -, hx⟩ := (mem_steps (by decide)).1 hx
  obtain ⟨-, -, hy⟩ := (mem_steps (by decide)).1 hy
  exact task_eq hN hx hy At Bp

theorem matrix_multiply_eq {N : Nat} (hN : N < 2 ^ 31) (A B : Array α) (t : Bool) (r : Nat) :
    matrix_multiply N A B t r = Verif.KernelTest.matrix_multiply N A B t r := by
  have hp := pads hN
  unfold matrix_multiply Verif.KernelTest.matrix_multiply
  rw [padA_eq hN, transA_eq hN, padB_eq hN, u64_SS (by omega) (by omega)]
  simp only [tree_eq hN, extract_eq hN]

end KernelTest
end Verif.Size64
