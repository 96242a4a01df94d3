import Verif.Model.KernelTiled
import Verif.Proof.Combined
import Verif.Proof.Nest
/-
Helper lemmas about kernel_tiled.cpp.
-/
set_option linter.unusedSectionVars false
namespace Verif.KernelTiled
open Tiled IndexIterator Nest
variable {α : Type} [Arith α]

theorem valid : blocking.Valid := by
  constructor <;> decide

/-- The loops of the three directions. -/
def dX (b : Blocking) (X : Nat) : Dir := ⟨X, b.L3_X, b.L2_X, b.L1_X⟩
def dY (b : Blocking) (Y : Nat) : Dir := ⟨Y, b.L3_Y, b.L2_Y, b.L1_Y⟩
def dK (b : Blocking) (K : Nat) : Dir := ⟨K, b.L3_K_STEP, b.L2_K_STEP, b.L1_K_STEP⟩

theorem tree_eq (b : Blocking) (X Y K : Nat) (At Bp : Array α) :
    tree b X Y K At Bp = Nest.tree (dX b X) (dY b Y) (dK b K) (block b X Y At Bp) := rfl

theorem okX {b : Blocking} (h : b.Valid) (X : Nat) : (dX b X).Ok := ⟨h.x3, h.x32, h.x21⟩
theorem okY {b : Blocking} (h : b.Valid) (Y : Nat) : (dY b Y).Ok := ⟨h.y3, h.y32, h.y21⟩
theorem okK {b : Blocking} (h : b.Valid) (K : Nat) : (dK b K).Ok := ⟨h.k3, h.k32, h.k21⟩

theorem top_eq {d : Dir} (h : d.Ok) (hd : d.L3 ∣ d.n) : d.top = d.n := by
  obtain ⟨q, e⟩ := hd
  rw [Nat.mul_comm] at e
  rw [Dir.top, e, ceilDiv_mul _ _ h.pos]

/-- Updates of the block at `(x, y, k)`. -/
def upd (b : Blocking) (QY : Nat) (f g : Nat → Nat → α) (x y k : Nat) : List (Upd α) :=
  Combined.upd b QY f g [x, y, k]

theorem onGrid {b : Blocking} {X Y K x y k : Nat} (hx : b.L1_X ∣ x) (hx' : x < X)
    (hy : b.L1_Y ∣ y) (hy' : y < Y) (hk : b.L1_K_STEP ∣ k) (hk' : k < K) :
    OnGrid [0, 0, 0] [X, Y, K] (Combined.final b) [x, y, k] := by
  obtain ⟨a, rfl⟩ := hx
  obtain ⟨c, rfl⟩ := hy
  obtain ⟨d, rfl⟩ := hk
  exact onGrid_three.2 ⟨rfl, ⟨a, Nat.mul_comm _ _, hx'⟩, ⟨c, Nat.mul_comm _ _, hy'⟩,
    ⟨d, Nat.mul_comm _ _, hk'⟩⟩

theorem tree_does {A} {b : Blocking} (h : b.Valid) {QX QY QK : Nat} {At Bp : Array α}
    {f g : Nat → Nat → α} (hX : b.L3_X ∣ QX * b.L1_X) (hY : b.L3_Y ∣ QY * b.L1_Y)
    (hK : b.L3_K_STEP ∣ QK * b.L1_K_STEP)
    (hA : HoldsTiled At QK QX b.L1_K_STEP b.L1_X (fun k i => f i k))
    (hB : HoldsTiled Bp QK QY b.L1_K_STEP b.L1_Y g) :
    Tree.Does A (tree b (QX * b.L1_X) (QY * b.L1_Y) (QK * b.L1_K_STEP) At Bp)
      (tiles (dX b (QX * b.L1_X)) (dY b (QY * b.L1_Y)) (dK b (QK * b.L1_K_STEP))
        (upd b QY f g)) := by
  have eX : (dX b (QX * b.L1_X)).top = QX * b.L1_X := top_eq (okX h _) hX
  have eY : (dY b (QY * b.L1_Y)).top = QY * b.L1_Y := top_eq (okY h _) hY
  have eK : (dK b (QK * b.L1_K_STEP)).top = QK * b.L1_K_STEP := top_eq (okK h _) hK
  rw [tree_eq]
  refine Nest.tree_does (okX h _) (okY h _) (okK h _) ?_ ?_
  · rw [eX, eY, eK]
    intro x hx hx' y hy hy' k hk hk'
    have := Combined.call_does (A := A) h hA hB (p := [x, y, k]) (onGrid hx hx' hy hy' hk hk')
    simp only [List.getD_cons_zero, List.getD_cons_succ] at this
    exact this
  · rw [eX, eY, eK]
    intro x hx hx' y hy hy' k hk hk' x1 hx1 hx1' y1 hy1 hy1' k1 hk1 hk1' u hu u' hu' he
    have := Combined.upd_disjoint h (p := [x, y, k]) (q := [x1, y1, k1])
      (onGrid hx hx' hy hy' hk hk') (onGrid hx1 hx1' hy1 hy1' hk1 hk1') hu hu' he
    simp only [List.getD_cons_zero, List.getD_cons_succ] at this
    exact this

theorem tree_cell {b : Blocking} (h : b.Valid) {QX QY QK : Nat}
    {f g : Nat → Nat → α} (hX : b.L3_X ∣ QX * b.L1_X) (hY : b.L3_Y ∣ QY * b.L1_Y)
    (hK : b.L3_K_STEP ∣ QK * b.L1_K_STEP) {bx by' r c : Nat} (hbx : bx < QX) (hby : by' < QY)
    (hr : r < b.L1_X) (hc : c < b.L1_Y) (v : α) :
    cellFold (tiles (dX b (QX * b.L1_X)) (dY b (QY * b.L1_Y)) (dK b (QK * b.L1_K_STEP))
        (upd b QY f g)) (cbase b QY bx by' + r * b.L1_Y + c) v =
      bdotFrom v b.L1_K_STEP QK (fun k => f (bx * b.L1_X + r) k)
        (fun k => g k (by' * b.L1_Y + c)) := by
  have eX : (dX b (QX * b.L1_X)).top = QX * b.L1_X := top_eq (okX h _) hX
  have eY : (dY b (QY * b.L1_Y)).top = QY * b.L1_Y := top_eq (okY h _) hY
  have eK : (dK b (QK * b.L1_K_STEP)).top = QK * b.L1_K_STEP := top_eq (okK h _) hK
  rw [tiles_cell (okX h _) (okY h _) (okK h _) (x0 := bx * b.L1_X) (y0 := by' * b.L1_Y)
    (Nat.dvd_mul_left _ _) (by rw [eX]; exact Nat.mul_lt_mul_of_pos_right hbx h.x1)
    (Nat.dvd_mul_left _ _) (by rw [eY]; exact Nat.mul_lt_mul_of_pos_right hby h.y1)]
  · rw [eK]
    show (steps 0 (QK * b.L1_K_STEP) b.L1_K_STEP).foldl _ _ = _
    rw [steps_mul _ _ h.k1, List.foldl_map]
    unfold bdotFrom
    refine foldl_congr' (fun t _ s => ?_) _
    unfold upd Combined.upd
    simp only [List.getD_cons_zero, List.getD_cons_succ, Nat.mul_div_cancel _ h.x1,
      Nat.mul_div_cancel _ h.y1, Nat.mul_div_cancel _ h.k1]
    rw [tileUpd_cell h hr hc]
    rfl
  · rw [eX, eY, eK]
    intro x hx hx' y hy hy' k hk hk' u hu he
    obtain ⟨bx', by'', bk', e0, e1, e2, h0, h1, h2⟩ :=
      Combined.grid_tile (onGrid hx hx' hy hy' hk hk')
    unfold upd Combined.upd at hu
    rw [e0, e1, Nat.mul_div_cancel _ h.x1, Nat.mul_div_cancel _ h.y1] at hu
    obtain ⟨r', c', hr', hc', eu⟩ := mem_tileUpd h hu
    rw [eu] at he
    obtain ⟨h3, h4, _, _⟩ := tpos_inj rfl h1 hr' hc' hby hr hc he
    exact ⟨e0.trans (by rw [h3]), e1.trans (by rw [h4])⟩

theorem rep_ok {b : Blocking} (h : b.Valid) {QX QY QK : Nat} {At Bp C : Array α}
    {f g d : Nat → Nat → α} (hX : b.L3_X ∣ QX * b.L1_X) (hY : b.L3_Y ∣ QY * b.L1_Y)
    (hK : b.L3_K_STEP ∣ QK * b.L1_K_STEP)
    (hA : HoldsTiled At QK QX b.L1_K_STEP b.L1_X (fun k i => f i k))
    (hB : HoldsTiled Bp QK QY b.L1_K_STEP b.L1_Y g) (hC : HoldsTiled C QX QY b.L1_X b.L1_Y d) :
    ∃ C', ND.runOn C (tree b (QX * b.L1_X) (QY * b.L1_Y) (QK * b.L1_K_STEP) At Bp) =
        ND.pure C' ∧ C'.size = C.size ∧ HoldsTiled C' QX QY b.L1_X b.L1_Y
        (fun i j => bdotFrom (d i j) b.L1_K_STEP QK (fun k => f i k) (fun k => g k j)) := by
  refine ⟨_, (tree_does (A := false) h hX hY hK hA hB).runOn C, by simp,
    fun bx hbx by' hby r hr c hc => ?_⟩
  rw [applyA_get, hC bx hbx by' hby r hr c hc, Option.map_some]
  exact congrArg some (tree_cell h hX hY hK hbx hby hr hc _)

theorem mm_ok {b : Blocking} (h : b.Valid) {N : Nat} {A B : Array α} {f g : Nat → Nat → α}
    (hA : Holds A N N f) (hB : Holds B N N g) (tr : Bool) (r : Nat) :
    matrix_multiply b N A B tr r = ND.pure (rowMajor N fun i j =>
      if r = 0 then Arith.zero else
      bdot b.L1_K_STEP (K b N / b.L1_K_STEP) (fun k => pad N f i k) (fun k => pad N g k j)) := by
  obtain ⟨QX, hX⟩ := X_eq h N
  obtain ⟨QY, hY⟩ := Y_eq h N
  obtain ⟨QK, hK⟩ := K_eq h N
  have dX : b.L3_X ∣ QX * b.L1_X := hX ▸ Nat.dvd_mul_left _ _
  have dY : b.L3_Y ∣ QY * b.L1_Y := hY ▸ Nat.dvd_mul_left _ _
  have dK : b.L3_K_STEP ∣ QK * b.L1_K_STEP := hK ▸ Nat.dvd_mul_left _ _
  unfold matrix_multiply
  rw [setup_ok h hA hB, ND.ofM_ok, ND.pure_bind']
  obtain ⟨At, eA, _, hAt⟩ := tileA_ok (b := b) (p := ⟨X b N, Y b N, K b N,
    rect (X b N) (K b N) (pad N f), rect (K b N) (Y b N) (pad N g)⟩) hX hK h.x1 h.k1
    (holds_rect _ _ _)
  obtain ⟨Bp, eB, _, hBp⟩ := tileB_ok (b := b) (p := ⟨X b N, Y b N, K b N,
    rect (X b N) (K b N) (pad N f), rect (K b N) (Y b N) (pad N g)⟩) hY hK h.y1 h.k1
    (holds_rect _ _ _)
  rw [eA, eB, ND.ofM_ok, ND.ofM_ok, ND.pure_bind', ND.pure_bind']
  obtain ⟨C, eC, _, hC⟩ := Combined.foldlM_pure (ι := Nat)
    (P := fun n (C : Array α) => C.size = X b N * Y b N ∧
      HoldsTiled C QX QY b.L1_X b.L1_Y fun i j => if n = 0 then Arith.zero else
        bdot b.L1_K_STEP QK (fun k => pad N f i k) (fun k => pad N g k j))
    (f := fun C _ => ND.runOn (zeros C.size) (tree b (X b N) (Y b N) (K b N) At Bp))
    (fun n C _ hC => by
      obtain ⟨C', e, hs, hC'⟩ := rep_ok h dX dY dK hAt hBp
        (Combined.zeros_tiled (P := QX) (Q := QY) (R := b.L1_X) (L := b.L1_Y)
          (n := X b N * Y b N) (by rw [hX, hY]))
      refine ⟨C', by rw [hC.1, hX, hY, hK]; rw [hX, hY] at e; exact e, ?_, ?_⟩
      · rw [hs, zeros_size]
      · simp only [if_neg (Nat.succ_ne_zero n)]
        exact hC') (List.range r) 0 (zeros (X b N * Y b N))
        ⟨zeros_size _, by simpa using Combined.zeros_tiled (by rw [hX, hY])⟩
  rw [eC]
  refine (ND.pure_bind _ _).trans ?_
  rw [List.length_range, Nat.zero_add] at hC
  rw [extract_ok h.x1 h.y1 hX hY (le_padded h.x3) (le_padded h.y3) hC, hK,
    Nat.mul_div_cancel _ h.k1]
  rfl

end Verif.KernelTiled
