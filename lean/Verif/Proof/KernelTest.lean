import Verif.Model.KernelTest
import Verif.Core.Errs
import Verif.Proof.Combined
import Verif.Proof.Nest
/-
Helper lemmas about kernel_test.cpp.
-/
set_option linter.unusedSectionVars false
namespace Verif.KernelTest
open Tiled Nest
variable {α : Type} [Arith α]

/-- The loops of the three directions. -/
def dX (N : Nat) : Dir := ⟨N, 256, 128, 64⟩
def dY (N : Nat) : Dir := ⟨N, 256, 128, 32⟩
def dK (N : Nat) : Dir := ⟨N, 512, 64, 16⟩

theorem okX (N : Nat) : (dX N).Ok := by constructor <;> simp [dX]
theorem okY (N : Nat) : (dY N).Ok := by constructor <;> simp [dY]
theorem okK (N : Nat) : (dK N).Ok := by constructor <;> simp [dK]

theorem tree_eq (N : Nat) (At Bp : Array α) :
    tree N At Bp = Nest.tree (dX N) (dY N) (dK N) (block N At Bp) := rfl

/-- End of the last block of the summation index. -/
def KT (N : Nat) : Nat := ceilDiv N 512 * 512
/-- End of the last block of rows and columns. -/
def XT (N : Nat) : Nat := ceilDiv N 256 * 256

theorem XT_le (N : Nat) : XT N ≤ KT N := by unfold XT KT ceilDiv; omega
theorem le_XT (N : Nat) : N ≤ XT N := by unfold XT ceilDiv; omega

/-! ### padding -/

theorem padA_ok {N : Nat} {A : Array α} {f : Nat → Nat → α} (hA : Holds A N N f) :
    padA N A = .ok (rect (N + 64) (N + 64) (pad N f)) :=
  fill_ok (N := N) (R := N + 64) (C := N + 64) (f := f) (pos := fun i j => (i, j))
    (body := fun i j v => rd A (i * N + j) >>= fun w => wr v (i * (N + 64) + j) w)
    (by omega) (by omega) (fun _ _ h h' => ⟨h, h'⟩) (fun _ _ _ _ => rfl)
    (fun i hi j hj => MDoes.read (hA.rd hi hj) MDoes.wr)

theorem transA_ok {N : Nat} {A : Array α} {f : Nat → Nat → α} (hA : Holds A N N f) :
    transA N A = .ok (rect (N + 64) (N + 64) (pad N (tr f))) :=
  fill_ok (N := N) (R := N + 64) (C := N + 64) (f := tr f) (pos := fun i j => (i, j))
    (body := fun i j v => rd A (j * N + i) >>= fun w => wr v (i * (N + 64) + j) w)
    (by omega) (by omega) (fun _ _ h h' => ⟨h, h'⟩) (fun _ _ _ _ => rfl)
    (fun i hi j hj => MDoes.read (hA.rd hj hi) MDoes.wr)

theorem padB_ok {N : Nat} {B : Array α} {g : Nat → Nat → α} (hB : Holds B N N g) :
    padB N B = .ok (rect (N + 64) (N + 64) (pad N g)) := padA_ok hB

/-! ### the register kernel -/

theorem inner_ok {N : Nat} {At Bp : Array α} {f g : Nat → Nat → α} {l1_k x y : Nat}
    (hA : Holds At (N + 64) (N + 64) (fun k i => f i k)) (hB : Holds Bp (N + 64) (N + 64) g)
    (hk : l1_k + 16 < N + 64) (hx : x + 4 < N + 64) (hy : y + 7 < N + 64) (h4 : 4 ∣ N)
    (hy4 : y % 4 = 0) :
    inner N At Bp l1_k x y =
      .ok (accs (fun i j => dot 16 (fun k => f i (l1_k + k)) (fun k => g (l1_k + k) j)) x y) := by
  have hal : ∀ k, (k * (N + 64) + y) % 4 = 0 := by
    intro k
    obtain ⟨q, hq⟩ := h4
    have : k * (N + 64) = 4 * (k * (q + 16)) := by
      rw [hq, show 4 * q + 64 = 4 * (q + 16) by omega]; ac_rfl
    rw [this]; omega
  have hld1 : ∀ k, k < N + 64 → loadAligned Bp (k * (N + 64) + y) = .ok (vec g k y) := by
    intro k hk
    refine loadAligned_ok (f := fun l => g k (y + l)) (hal k) fun l hl => ?_
    rw [Nat.add_assoc]; exact hB k hk _ (by omega)
  have hld2 : ∀ k, k < N + 64 →
      loadAligned Bp (k * (N + 64) + (y + 4)) = .ok (vec g k (y + 4)) := by
    intro k hk
    refine loadAligned_ok (f := fun l => g k (y + 4 + l)) ?_ fun l hl => ?_
    · have := hal k; omega
    · rw [Nat.add_assoc]; exact hB k hk _ (by omega)
  have hra : ∀ k, k < N + 64 → ∀ i, i < 5 → rd At (k * (N + 64) + (x + i)) = .ok (f (x + i) k) :=
    fun k hk i hi => rd_ok (hA k hk _ (by omega))
  have hstep : ∀ k, k + 1 < N + 64 → ∀ acc : Acc α,
      step N At Bp x y k (acc, vec g k y, vec g k (y + 4)) = .ok (⟨
        acc.acc_11.mac (V4.splat (f x k)) (vec g k y),
        acc.acc_21.mac (V4.splat (f (x + 1) k)) (vec g k y),
        acc.acc_31.mac (V4.splat (f (x + 2) k)) (vec g k y),
        acc.acc_41.mac (V4.splat (f (x + 3) k)) (vec g k y),
        acc.acc_51.mac (V4.splat (f (x + 4) k)) (vec g k y),
        acc.acc_12.mac (V4.splat (f x k)) (vec g k (y + 4)),
        acc.acc_22.mac (V4.splat (f (x + 1) k)) (vec g k (y + 4)),
        acc.acc_32.mac (V4.splat (f (x + 2) k)) (vec g k (y + 4)),
        acc.acc_42.mac (V4.splat (f (x + 3) k)) (vec g k (y + 4)),
        acc.acc_52.mac (V4.splat (f (x + 4) k)) (vec g k (y + 4))⟩,
        vec g (k + 1) y, vec g (k + 1) (y + 4)) := by
    intro k hk acc
    unfold step
    rw [show PADDING = 64 from rfl, hra k (by omega) 0 (by decide), hra k (by omega) 1 (by decide),
      hra k (by omega) 2 (by decide), hra k (by omega) 3 (by decide), hra k (by omega) 4 (by decide),
      hld1 _ hk, hld2 _ hk]
    rfl
  have hgo : ∀ n, n ≤ 16 →
      (List.range n).foldlM (fun s i => step N At Bp x y (l1_k + i) s)
        ((Acc.init : Acc α), vec g l1_k y, vec g l1_k (y + 4)) =
      Except.ok (accs (fun i j => dot n (fun k => f i (l1_k + k)) (fun k => g (l1_k + k) j)) x y,
        vec g (l1_k + n) y, vec g (l1_k + n) (y + 4)) := by
    intro n
    induction n with
    | zero => intro _; rfl
    | succ n ih =>
      intro hn
      rw [List.range_succ, List.foldlM_append, ih (by omega)]
      simp only [M_bind_ok, List.foldlM_cons, List.foldlM_nil]
      rw [hstep _ (by omega)]
      have hd : ∀ i j, dot (n + 1) (fun k => f i (l1_k + k)) (fun k => g (l1_k + k) j) =
          Arith.mac (dot n (fun k => f i (l1_k + k)) (fun k => g (l1_k + k) j)) (f i (l1_k + n))
            (g (l1_k + n) j) := by
        intro i j
        simp [dot, dotFrom, List.range_succ]
      simp only [hd]
      rfl
  unfold inner
  rw [show PADDING = 64 from rfl, hld1 _ (by omega), hld2 _ (by omega), M_bind_ok, M_bind_ok,
    forStep_eq (by decide)]
  have es : steps l1_k (l1_k + L1_K_STEP) 1 = (List.range 16).map (l1_k + ·) := by
    rw [steps, Nat.add_sub_cancel_left]
    simp [ceilDiv, L1_K_STEP]
  rw [es, List.foldlM_map, hgo 16 (by decide)]
  rfl

/-! ### updates -/

/-- Updates of one register block; rows from `lim` on are skipped. -/
def regUpd (S lim : Nat) (d : Nat → Nat → α) (x y : Nat) : List (Upd α) :=
  regs.flatMap fun q => if x + q.1 < lim then (List.range 4).map fun l =>
    ((x + q.1) * S + (y + q.2) + l, fun v => Arith.add v (d (x + q.1) (y + q.2 + l))) else []

theorem store_does {A} {N l1_x x y : Nat} {d : Nat → Nat → α} (hx : x < l1_x + 64)
    (hl : l1_x + 64 ≤ N + 64) (hy : y + 7 < N + 64) :
    Act.Does A (store N l1_x x y (accs d x y)) () (regUpd (N + 64) (l1_x + 64) d x y) := by
  have key : ∀ i h, x + i < l1_x + 64 → h ≤ 4 → ∀ acc : V4 α,
      Act.Does A (addV ((N + 64) * (N + 64)) ((x + i) * (N + 64) + (y + h)) acc) ()
        (updV ((x + i) * (N + 64) + (y + h)) acc) := by
    intro i h hi hh acc
    refine addV_does ?_ acc
    have := idx_lt (m := N + 64) (n := N + 64) (i := x + i) (j := y + h + 3) (by omega) (by omega)
    omega
  have key' : ∀ i h, h ≤ 4 → ∀ acc : V4 α,
      Act.Does A (addIf (x + i < l1_x + 64)
          ((N + 64) * (N + 64)) ((x + i) * (N + 64) + (y + h)) acc) ()
        (if x + i < l1_x + 64 then updV ((x + i) * (N + 64) + (y + h)) acc else []) := by
    intro i h hh acc
    unfold addIf
    split
    · exact key i h ‹_› hh acc
    · exact .pure
  have hv : ∀ i h, (List.range 4).map (fun l => ((x + i) * (N + 64) + (y + h) + l,
      fun v => Arith.add v (d (x + i) (y + h + l)))) =
      updV ((x + i) * (N + 64) + (y + h)) (vec d (x + i) (y + h)) := fun _ _ => rfl
  have e : regUpd (N + 64) (l1_x + 64) d x y =
      updV ((x + 0) * (N + 64) + (y + 0)) (vec d (x + 0) (y + 0)) ++
      ((if x + 1 < l1_x + 64 then updV ((x + 1) * (N + 64) + (y + 0)) (vec d (x + 1) (y + 0)) else []) ++
      ((if x + 2 < l1_x + 64 then updV ((x + 2) * (N + 64) + (y + 0)) (vec d (x + 2) (y + 0)) else []) ++
      ((if x + 3 < l1_x + 64 then updV ((x + 3) * (N + 64) + (y + 0)) (vec d (x + 3) (y + 0)) else []) ++
      ((if x + 4 < l1_x + 64 then updV ((x + 4) * (N + 64) + (y + 0)) (vec d (x + 4) (y + 0)) else []) ++
      (updV ((x + 0) * (N + 64) + (y + 4)) (vec d (x + 0) (y + 4)) ++
      ((if x + 1 < l1_x + 64 then updV ((x + 1) * (N + 64) + (y + 4)) (vec d (x + 1) (y + 4)) else []) ++
      ((if x + 2 < l1_x + 64 then updV ((x + 2) * (N + 64) + (y + 4)) (vec d (x + 2) (y + 4)) else []) ++
      ((if x + 3 < l1_x + 64 then updV ((x + 3) * (N + 64) + (y + 4)) (vec d (x + 3) (y + 4)) else []) ++
      (if x + 4 < l1_x + 64 then updV ((x + 4) * (N + 64) + (y + 4)) (vec d (x + 4) (y + 4)) else [])
      )))))))) := by
    unfold regUpd regs
    simp only [List.flatMap_cons, List.flatMap_nil, List.append_nil]
    rw [if_pos (show x + 0 < l1_x + 64 from hx)]
    simp only [hv, if_pos (show x + 0 < l1_x + 64 from hx)]
  rw [e]
  unfold store
  rw [show PADDING = 64 from rfl, show L1_X = 64 from rfl]
  exact (key 0 0 (by omega) (by decide) _).bind
    ((key' 1 0 (by decide) _).bind
    ((key' 2 0 (by decide) _).bind
    ((key' 3 0 (by decide) _).bind
    ((key' 4 0 (by decide) _).bind
    ((key 0 4 (by omega) (by decide) _).bind
    ((key' 1 4 (by decide) _).bind
    ((key' 2 4 (by decide) _).bind
    ((key' 3 4 (by decide) _).bind
    (key' 4 4 (by decide) _)))))))))

theorem mem_regUpd {S lim x y : Nat} {d : Nat → Nat → α} {u : Upd α} (h : u ∈ regUpd S lim d x y) :
    ∃ i j, i < 5 ∧ j < 8 ∧ x + i < lim ∧ u.1 = (x + i) * S + (y + j) := by
  obtain ⟨q, hq, hu⟩ := List.mem_flatMap.1 h
  have hq' : q.1 < 5 ∧ q.2 ≤ 4 := (by decide : ∀ q ∈ regs, q.1 < 5 ∧ q.2 ≤ 4) q hq
  split at hu
  · obtain ⟨l, hl, rfl⟩ := List.mem_map.1 hu
    have := List.mem_range.1 hl
    exact ⟨q.1, q.2 + l, hq'.1, by omega, by omega, by rw [Nat.add_assoc, Nat.add_assoc]⟩
  · cases hu

theorem regUpd_cell {S lim x y r c : Nat} {d : Nat → Nat → α} (hy : y + 7 < S) (hr : x ≤ r)
    (hr' : r < x + 5) (hlim : r < lim) (hc : y ≤ c) (hc' : c < y + 8) (v : α) :
    cellFold (regUpd S lim d x y) (r * S + c) v = Arith.add v (d r c) := by
  unfold regUpd
  have hmem : ∀ q ∈ regs, q.1 < 5 ∧ (q.2 = 0 ∨ q.2 = 4) := by decide
  have hin : ∀ i h, i < 5 → (h = 0 ∨ h = 4) → (i, h) ∈ regs := by
    intro i h hi hh
    rcases hh with rfl | rfl <;> (revert i; decide)
  have hpos : ∀ q ∈ regs, ∀ l, l < 4 → (x + q.1) * S + (y + q.2) + l = r * S + c →
      x + q.1 = r ∧ y + q.2 + l = c := by
    intro q hq l hl he
    have := hmem q hq
    refine idx_inj (n := S) (i := x + q.1) (j := y + q.2 + l) (by omega) (by omega) ?_
    omega
  rw [cellFold_flatMap_unique (i0 := (r - x, if c < y + 4 then 0 else 4)) (by decide)
    (hin _ _ (by omega) (by split <;> simp)),
    if_pos (show x + (r - x) < lim by omega),
    cellFold_map_unique (i0 := c - y - if c < y + 4 then 0 else 4) List.nodup_range
    (List.mem_range.2 (by split <;> omega))]
  · show Arith.add v (d (x + (r - x)) _) = _
    congr 2
    · omega
    · show y + (if c < y + 4 then 0 else 4) + _ = _
      split <;> omega
  · have e1 : x + (r - x) = r := by omega
    have e2 : y + (if c < y + 4 then 0 else 4) + (c - y - if c < y + 4 then 0 else 4) = c := by
      split <;> omega
    show (x + (r - x)) * S + (y + if c < y + 4 then 0 else 4) + _ = _
    rw [e1]; omega
  · intro l hl hne he
    have := (hpos _ (hin (r - x) (if c < y + 4 then 0 else 4) (by omega) (by split <;> simp)) l
      (List.mem_range.1 hl) he).2
    omega
  · rintro ⟨i, h⟩ hq hne u hu he
    split at hu
    · obtain ⟨l, hl, rfl⟩ := List.mem_map.1 hu
      have hl := List.mem_range.1 hl
      have := hpos _ hq l hl he
      have hm := hmem _ hq
      simp only at this hm
      apply hne
      have e1 : i = r - x := by omega
      have e2 : h = if c < y + 4 then 0 else 4 := by split <;> omega
      rw [e1, e2]
    · cases hu

/-- Updates of the L1 block at `(l1_x, l1_y)`. -/
def tileUpd (S l1_x l1_y : Nat) (d : Nat → Nat → α) : List (Upd α) :=
  (steps l1_x (l1_x + 64) 5).flatMap fun x => (steps l1_y (l1_y + 32) 8).flatMap fun y =>
    regUpd S (l1_x + 64) d x y

theorem mem_tileUpd {S l1_x l1_y : Nat} {d : Nat → Nat → α} {u : Upd α}
    (h : u ∈ tileUpd S l1_x l1_y d) : ∃ r c, l1_x ≤ r ∧ r < l1_x + 64 ∧ l1_y ≤ c ∧ c < l1_y + 32 ∧
      u.1 = r * S + c := by
  obtain ⟨x, hx, h⟩ := List.mem_flatMap.1 h
  obtain ⟨y, hy, h⟩ := List.mem_flatMap.1 h
  obtain ⟨i, j, hi, hj, hl, e⟩ := mem_regUpd h
  obtain ⟨t, ht, hx⟩ := (mem_steps (by decide)).1 hx
  obtain ⟨s, hs, hy⟩ := (mem_steps (by decide)).1 hy
  exact ⟨x + i, y + j, by omega, by omega, by omega, by omega, e⟩

theorem tileUpd_cell {S l1_x l1_y r c : Nat} {d : Nat → Nat → α} (hS : l1_y + 32 ≤ S)
    (hr : l1_x ≤ r) (hr' : r < l1_x + 64) (hc : l1_y ≤ c) (hc' : c < l1_y + 32) (v : α) :
    cellFold (tileUpd S l1_x l1_y d) (r * S + c) v = Arith.add v (d r c) := by
  have hin : ∀ x ∈ steps l1_x (l1_x + 64) 5, ∀ y ∈ steps l1_y (l1_y + 32) 8, ∀ i j, i < 5 → j < 8 →
      (x + i) * S + (y + j) = r * S + c →
      x = l1_x + (r - l1_x) / 5 * 5 ∧ y = l1_y + (c - l1_y) / 8 * 8 := by
    intro x hx y hy i j hi hj he
    obtain ⟨t, ht, hx⟩ := (mem_steps (by decide)).1 hx
    obtain ⟨s, hs, hy⟩ := (mem_steps (by decide)).1 hy
    obtain ⟨e1, e2⟩ := idx_inj (n := S) (i := x + i) (j := y + j) (i' := r) (j' := c)
      (by omega) (by omega) he
    omega
  have hx0 : l1_x + (r - l1_x) / 5 * 5 ∈ steps l1_x (l1_x + 64) 5 :=
    (mem_steps (by decide)).2 ⟨(r - l1_x) / 5, rfl, by omega⟩
  have hy0 : l1_y + (c - l1_y) / 8 * 8 ∈ steps l1_y (l1_y + 32) 8 :=
    (mem_steps (by decide)).2 ⟨(c - l1_y) / 8, rfl, by omega⟩
  unfold tileUpd
  rw [cellFold_flatMap_unique (steps_nodup (by decide)) hx0,
    cellFold_flatMap_unique (steps_nodup (by decide)) hy0,
    regUpd_cell (by omega) (by omega) (by omega) (by omega) (by omega) (by omega)]
  · intro y hy hne u hu he
    obtain ⟨i, j, hi, hj, _, e⟩ := mem_regUpd hu
    exact hne (hin _ hx0 y hy i j hi hj (e ▸ he)).2
  · intro x hx hne u hu he
    obtain ⟨y, hy, hu⟩ := List.mem_flatMap.1 hu
    obtain ⟨i, j, hi, hj, _, e⟩ := mem_regUpd hu
    exact hne (hin x hx y hy i j hi hj (e ▸ he)).1

/-- Updates of the block at `(x, y, k)`. -/
def upd (N : Nat) (f g : Nat → Nat → α) (x y k : Nat) : List (Upd α) :=
  tileUpd (N + 64) x y fun r c => dot 16 (fun l => f r (k + l)) (fun l => g (k + l) c)

theorem block_does {A} {N : Nat} {At Bp : Array α} {f g : Nat → Nat → α} {x y k : Nat}
    (hA : Holds At (N + 64) (N + 64) (fun k i => f i k)) (hB : Holds Bp (N + 64) (N + 64) g)
    (hk : k + 16 < N + 64) (hx : x + 64 < N + 64) (hy : y + 32 ≤ N + 64) (h4 : 4 ∣ N)
    (hy4 : 32 ∣ y) : Act.Does A (block N At Bp x y k) () (upd N f g x y k) := by
  refine Act.Does.forStep (by decide) fun x' hx' => Act.Does.forStep (by decide) fun y' hy' => ?_
  obtain ⟨t, ht, hx'⟩ := (mem_steps (by decide)).1 hx'
  obtain ⟨s, hs, hy'⟩ := (mem_steps (by decide)).1 hy'
  simp only [X_REG, Y_REG, L1_X, L1_Y] at ht hs hx' hy'
  exact Act.Does.ofM_bind (inner_ok hA hB hk (by omega) (by omega) h4 (by omega))
    (store_does hx' (by omega) (by omega))

/-! ### the parallel loop -/

theorem block_end {a b x : Nat} (h : b ∣ x) (h' : b ∣ a) (hlt : x < a) : x + b ≤ a := by
  obtain ⟨q, rfl⟩ := h
  obtain ⟨t, rfl⟩ := h'
  have : q < t := Nat.lt_of_mul_lt_mul_left hlt
  calc b * q + b = b * (q + 1) := by rw [Nat.mul_add, Nat.mul_one]
    _ ≤ b * t := Nat.mul_le_mul_left _ this

theorem upd_disjoint {N : Nat} {f g : Nat → Nat → α} {x y k x' y' k' : Nat} (hx : 64 ∣ x)
    (hx' : 64 ∣ x') (hy : 32 ∣ y) (hy' : 32 ∣ y') (hS : y + 32 ≤ N + 64) (hS' : y' + 32 ≤ N + 64)
    {u u' : Upd α} (hu : u ∈ upd N f g x y k) (hu' : u' ∈ upd N f g x' y' k') (he : u.1 = u'.1) :
    x = x' ∧ y = y' := by
  obtain ⟨r, c, h1, h2, h3, h4, e⟩ := mem_tileUpd hu
  obtain ⟨r', c', h1', h2', h3', h4', e'⟩ := mem_tileUpd hu'
  rw [e, e'] at he
  obtain ⟨rfl, rfl⟩ := idx_inj (show c < N + 64 by omega) (show c' < N + 64 by omega) he
  omega

theorem tree_does {A} {N : Nat} {At Bp : Array α} {f g : Nat → Nat → α}
    (hA : Holds At (N + 64) (N + 64) (fun k i => f i k)) (hB : Holds Bp (N + 64) (N + 64) g)
    (h4 : 4 ∣ N) (hN : KT N < N + 64) :
    Tree.Does A (tree N At Bp) (tiles (dX N) (dY N) (dK N) (upd N f g)) := by
  have hXK := XT_le N
  rw [tree_eq]
  have eX : ∀ x, 64 ∣ x → x < XT N → x + 64 ≤ XT N := fun x h h' =>
    block_end h (by unfold XT ceilDiv; omega) h'
  have eY : ∀ x, 32 ∣ x → x < XT N → x + 32 ≤ XT N := fun x h h' =>
    block_end h (by unfold XT ceilDiv; omega) h'
  have eK : ∀ x, 16 ∣ x → x < KT N → x + 16 ≤ KT N := fun x h h' =>
    block_end h (by unfold KT ceilDiv; omega) h'
  refine Nest.tree_does (okX N) (okY N) (okK N) ?_ ?_
  · intro x hx hx' y hy hy' k hk hk'
    have := eX x hx hx'
    have := eY y hy hy'
    have := eK k hk hk'
    exact block_does hA hB (by omega) (by omega) (by omega) h4 hy
  · intro x hx hx' y hy hy' k hk hk' x1 hx1 hx1' y1 hy1 hy1' k1 hk1 hk1' u hu u' hu' he
    have := eY y hy hy'
    have := eY y1 hy1 hy1'
    exact upd_disjoint hx hx1 hy hy1 (by omega) (by omega) hu hu' he

theorem tree_cell {N : Nat} {f g : Nat → Nat → α} (hN : KT N < N + 64) {i j : Nat} (hi : i < XT N)
    (hj : j < XT N) (v : α) :
    cellFold (tiles (dX N) (dY N) (dK N) (upd N f g)) (i * (N + 64) + j) v =
      bdotFrom v 16 (KT N / 16) (fun k => f i k) (fun k => g k j) := by
  have hXK := XT_le N
  have eY : ∀ x, 32 ∣ x → x < XT N → x + 32 ≤ XT N := fun x h h' =>
    block_end h (by unfold XT ceilDiv; omega) h'
  have eKT : KT N = KT N / 16 * 16 := by unfold KT ceilDiv; omega
  have hj0 : j / 32 * 32 < XT N := by omega
  have hj1 := eY _ (Nat.dvd_mul_left 32 (j / 32)) hj0
  rw [tiles_cell (okX N) (okY N) (okK N) (x0 := i / 64 * 64) (y0 := j / 32 * 32)
    (Nat.dvd_mul_left _ _) (show i / 64 * 64 < XT N by omega) (Nat.dvd_mul_left _ _) hj0]
  · show (steps 0 (KT N) 16).foldl _ _ = _
    rw [eKT, steps_mul _ _ (by decide), List.foldl_map, Nat.mul_div_cancel _ (by decide)]
    unfold bdotFrom
    refine foldl_congr' (fun t _ s => ?_) _
    exact tileUpd_cell (by omega) (by omega) (by omega) (by omega) (by omega) _
  · intro x hx hx' y hy hy' k hk hk' u hu he
    have hx : 64 ∣ x := hx
    have hy : 32 ∣ y := hy
    have := eY y hy hy'
    obtain ⟨r, c, h1, h2, h3, h4, e⟩ := mem_tileUpd hu
    rw [e] at he
    obtain ⟨rfl, rfl⟩ := idx_inj (show c < N + 64 by omega) (show j < N + 64 by omega) he
    omega

theorem extract_ok {N : Nat} {C : Array α} {f : Nat → Nat → α}
    (hC : ∀ i, i < N → ∀ j, j < N → C[i * (N + 64) + j]? = some (f i j)) :
    extract N C = .ok (rowMajor N f) := by
  have hd := nest2_does (m := N) (n := N)
    (body := fun i j v => rd C (i * (N + 64) + j) >>= fun w => wr v (i * N + j) w)
    (us := fun i j => [(i * N + j, fun _ => f i j)])
    (fun i hi j hj => MDoes.read (rd_ok (hC i hi j hj)) MDoes.wr) (zeros (N * N))
    (fun u hu => by
      obtain ⟨i, hi, j, hj, hu⟩ := mem_nest2.1 hu
      rw [List.mem_singleton] at hu
      subst hu
      rw [zeros_size]
      exact idx_lt hi hj)
  refine hd.trans (congrArg Except.ok ?_)
  refine applyA_rect (by simp) (zeros_holds N N) fun i hi j hj => ?_
  rw [nest2_cell hi hj]
  · simp
  · intro i' hi' j' hj' u hu he
    rw [List.mem_singleton] at hu
    subst hu
    exact idx_inj hj' hj he

theorem mm_ok {N : Nat} {A B : Array α} {f g : Nat → Nat → α} (hA : Holds A N N f)
    (hB : Holds B N N g) (tr : Bool) (r : Nat) (hN : r = 0 ∨ (4 ∣ N ∧ KT N < N + 64)) :
    matrix_multiply N A B tr r = ND.pure (rowMajor N fun i j =>
      if r = 0 then Arith.zero else
      bdot 16 (KT N / 16) (fun k => pad N f i k) (fun k => pad N g k j)) := by
  unfold matrix_multiply
  rw [padA_ok hA, transA_ok hA, padB_ok hB, ND.ofM_ok, ND.ofM_ok, ND.ofM_ok, ND.pure_bind',
    ND.pure_bind', ND.pure_bind']
  have hAt : Holds (rect (N + 64) (N + 64) (pad N (Verif.tr f))) (N + 64) (N + 64)
      (fun k i => pad N f i k) := by
    intro i hi j hj
    rw [holds_rect _ _ _ i hi j hj]
    unfold pad Verif.tr
    simp only [and_comm]
  have hBp := holds_rect (N + 64) (N + 64) (pad N g)
  have hle := le_XT N
  rcases hN with rfl | ⟨h4, hN⟩
  · show ND.bind (ND.pure _) _ = _
    refine (ND.pure_bind _ _).trans ?_
    rw [extract_ok (f := fun _ _ => Arith.zero)]
    · rfl
    · intro i hi j hj
      exact zeros_holds (N + 64) (N + 64) i (by omega) j (by omega)
  have hKX := XT_le N
  obtain ⟨C, eC, _, hC⟩ := Combined.foldlM_pure (ι := Nat)
    (P := fun n (C : Array α) => C.size = (N + 64) * (N + 64) ∧
      ∀ i, i < N → ∀ j, j < N → C[i * (N + 64) + j]? = some (if n = 0 then Arith.zero else
        bdot 16 (KT N / 16) (fun k => pad N f i k) (fun k => pad N g k j)))
    (f := fun C _ => ND.runOn (zeros C.size) (tree N
      (rect (N + 64) (N + 64) (pad N (Verif.tr f))) (rect (N + 64) (N + 64) (pad N g))))
    (fun n C _ hC => by
      refine ⟨_, (tree_does (A := false) hAt hBp h4 hN).runOn _, by simp [hC.1], ?_⟩
      intro i hi j hj
      rw [applyA_get, hC.1, zeros_holds (N + 64) (N + 64) i (by omega) j (by omega), Option.map_some,
        tree_cell hN (by omega) (by omega), if_neg (Nat.succ_ne_zero n)]
      rfl) (List.range r) 0 (zeros ((N + 64) * (N + 64)))
        ⟨zeros_size _, fun i hi j hj => zeros_holds (N + 64) (N + 64) i (by omega) j (by omega)⟩
  refine (congrArg (fun x => x >>= _) eC).trans ?_
  refine (ND.pure_bind _ _).trans ?_
  rw [List.length_range, Nat.zero_add] at hC
  rw [extract_ok hC]
  rfl

/-! ### outside the domain -/

/-- Undefined behaviour. -/
def UB (e : Err) : Prop := e = .oob ∨ e = .misaligned

theorem loadAligned_errs (v : Array α) (i : Nat) : MErrs UB (loadAligned v i) := by
  unfold loadAligned
  refine MErrs.ite (MErrs.throw (Or.inr rfl)) ?_
  refine MErrs.bind (MErrs.rd (.inl rfl) _ _) fun _ => MErrs.bind (MErrs.rd (.inl rfl) _ _) fun _ =>
    MErrs.bind (MErrs.rd (.inl rfl) _ _) fun _ => MErrs.bind (MErrs.rd (.inl rfl) _ _) fun _ =>
    MErrs.pure

theorem step_errs (N : Nat) (At Bp : Array α) (x y k : Nat) (s) : MErrs UB (step N At Bp x y k s) :=
  MErrs.bind (MErrs.rd (.inl rfl) _ _) fun _ => MErrs.bind (MErrs.rd (.inl rfl) _ _) fun _ =>
    MErrs.bind (MErrs.rd (.inl rfl) _ _) fun _ => MErrs.bind (MErrs.rd (.inl rfl) _ _) fun _ =>
    MErrs.bind (MErrs.rd (.inl rfl) _ _) fun _ => MErrs.bind (loadAligned_errs _ _) fun _ =>
    MErrs.bind (loadAligned_errs _ _) fun _ => MErrs.pure

theorem inner_errs (N : Nat) (At Bp : Array α) (k x y : Nat) : MErrs UB (inner N At Bp k x y) :=
  MErrs.bind (loadAligned_errs _ _) fun _ => MErrs.bind (loadAligned_errs _ _) fun _ =>
    MErrs.bind (MErrs.forStep (by decide) (fun _ _ => step_errs _ _ _ _ _ _ _) _) fun _ =>
    MErrs.pure

theorem addV_errs (n i : Nat) (acc : V4 α) : (addV n i acc).Errs UB :=
  Act.Errs.bind (.read (.inl rfl) _ _) fun _ => Act.Errs.bind (.read (.inl rfl) _ _) fun _ =>
    Act.Errs.bind (.read (.inl rfl) _ _) fun _ => Act.Errs.bind (.read (.inl rfl) _ _) fun _ =>
    Act.Errs.bind (.write (.inl rfl) _ _ _) fun _ => Act.Errs.bind (.write (.inl rfl) _ _ _) fun _ =>
    Act.Errs.bind (.write (.inl rfl) _ _ _) fun _ => .write (.inl rfl) _ _ _

theorem store_errs (N l1_x x y : Nat) (s : Acc α) : (store N l1_x x y s).Errs UB := by
  have h : ∀ (c : Prop) [Decidable c] (n i : Nat) (acc : V4 α), (addIf c n i acc).Errs UB :=
    fun c _ n i acc => Act.Errs.ite (addV_errs _ _ _) Act.Errs.pure
  exact Act.Errs.bind (addV_errs _ _ _) fun _ =>
    Act.Errs.bind (h _ _ _ _) fun _ => Act.Errs.bind (h _ _ _ _) fun _ =>
    Act.Errs.bind (h _ _ _ _) fun _ => Act.Errs.bind (h _ _ _ _) fun _ =>
    Act.Errs.bind (addV_errs _ _ _) fun _ =>
    Act.Errs.bind (h _ _ _ _) fun _ => Act.Errs.bind (h _ _ _ _) fun _ =>
    Act.Errs.bind (h _ _ _ _) fun _ => h _ _ _ _

theorem task_errs (N : Nat) (At Bp : Array α) (x y : Nat) : (task N At Bp x y).Errs UB := by
  unfold task
  repeat' (refine Act.Errs.forStep (by decide) (fun _ _ => ?_) _)
  exact Act.Errs.bind (.ofM (inner_errs _ _ _ _ _ _)) fun _ => store_errs _ _ _ _ _

theorem tree_errs (N : Nat) (At Bp : Array α) : (tree N At Bp).Errs UB := by
  refine .par fun t ht => ?_
  obtain ⟨q, _, rfl⟩ := List.mem_map.1 ht
  exact .act (task_errs _ _ _ _ _)

theorem loadAligned_not_ok {v : Array α} {i : Nat} (h : i % 4 ≠ 0 ∨ v.size ≤ i) (r : V4 α) :
    loadAligned v i ≠ .ok r := by
  unfold loadAligned
  intro hr
  rcases h with h | h
  · rw [if_pos h] at hr
    cases hr
  · split at hr
    · cases hr
    · rw [rd_oob h] at hr
      cases hr

theorem inner_not_ok {N : Nat} {At Bp : Array α} {k x y l : Nat} (hl : l < 16)
    (h : ((k + l + 1) * (N + 64) + y) % 4 ≠ 0 ∨ Bp.size ≤ (k + l + 1) * (N + 64) + y) (r : Acc α) :
    inner N At Bp k x y ≠ .ok r := by
  intro hr
  obtain ⟨_, _, hr⟩ := Semi.bind_ok hr
  obtain ⟨_, _, hr⟩ := Semi.bind_ok hr
  obtain ⟨s, hs, hr⟩ := Semi.bind_ok hr
  rw [forStep_eq (by decide)] at hs
  refine foldlM_not_ok (i0 := k + l) ?_ (fun s s' hk => ?_) _ _ hs
  · exact (mem_steps (by decide)).2 ⟨l, by omega, by simp only [L1_K_STEP]; omega⟩
  · obtain ⟨_, _, hk⟩ := Semi.bind_ok hk
    obtain ⟨_, _, hk⟩ := Semi.bind_ok hk
    obtain ⟨_, _, hk⟩ := Semi.bind_ok hk
    obtain ⟨_, _, hk⟩ := Semi.bind_ok hk
    obtain ⟨_, _, hk⟩ := Semi.bind_ok hk
    obtain ⟨_, h', hk⟩ := Semi.bind_ok hk
    exact loadAligned_not_ok h _ h'

/-- The first task of the parallel loop gets stuck. -/
theorem task_noRet {N : Nat} (hN : 0 < N) {At Bp : Array α} (hB : Bp.size = (N + 64) * (N + 64))
    (h : ¬ 4 ∣ N ∨ N + 64 ≤ KT N) : (task N At Bp 0 0).NoRet := by
  obtain ⟨k, l, hk, hk', hl, hb⟩ : ∃ k l, 16 ∣ k ∧ k < KT N ∧ l < 16 ∧
      (((k + l + 1) * (N + 64) + 0) % 4 ≠ 0 ∨ Bp.size ≤ (k + l + 1) * (N + 64) + 0) := by
    rcases h with h | h
    · exact ⟨0, 0, by simp, by unfold KT ceilDiv; omega, by decide, .inl (by simp; omega)⟩
    · refine ⟨KT N - 16, 15, by unfold KT ceilDiv; omega, by unfold KT ceilDiv; omega, by decide, .inr ?_⟩
      rw [show KT N - 16 + 15 + 1 = KT N by unfold KT ceilDiv; omega, hB, Nat.add_zero]
      generalize KT N = K at h ⊢
      generalize N + 64 = S at h ⊢
      exact Nat.mul_le_mul_right S h
  obtain ⟨k3, k2, k1⟩ := (okK N).loops.2 ⟨hk, hk', rfl, rfl⟩
  have hz : ∀ {hi st}, 0 < st → 0 < hi → 0 ∈ steps 0 hi st := fun h h' =>
    (mem_steps h).2 ⟨0, by simp, h'⟩
  refine Act.NoRet.forStep (okK N).pos k3 (fun _ => ?_) _
  refine Act.NoRet.forStep (i0 := 0) (by decide) (hz (by decide) (by decide)) (fun _ => ?_) _
  refine Act.NoRet.forStep (i0 := 0) (by decide) (hz (by decide) (by decide)) (fun _ => ?_) _
  refine Act.NoRet.forStep (okK N).pos2 k2 (fun _ => ?_) _
  refine Act.NoRet.forStep (i0 := 0) (by decide) (hz (by decide) (by decide)) (fun _ => ?_) _
  refine Act.NoRet.forStep (i0 := 0) (by decide) (hz (by decide) (by decide)) (fun _ => ?_) _
  refine Act.NoRet.forStep (okK N).pos1 k1 (fun _ => ?_) _
  refine Act.NoRet.forStep (i0 := 0) (by decide) (hz (by decide) (by decide)) (fun _ => ?_) _
  refine Act.NoRet.forStep (i0 := 0) (by decide) (hz (by decide) (by decide)) (fun _ => ?_) _
  exact Act.NoRet.bind_left (Act.NoRet.ofM (inner_not_ok hl hb))

theorem tree_stuck {N : Nat} (hN : 0 < N) {At Bp : Array α} (hB : Bp.size = (N + 64) * (N + 64))
    (h : ¬ 4 ∣ N ∨ N + 64 ≤ KT N) : (tree N At Bp).Stuck := by
  refine .par (t := .act (task N At Bp 0 0)) (List.mem_map.2 ⟨(0, 0), ?_, rfl⟩)
    (.act (task_noRet hN hB h))
  refine List.mem_flatMap.2 ⟨0, (mem_steps (by decide)).2 ⟨0, rfl, hN⟩, List.mem_map.2 ⟨0,
    (mem_steps (by decide)).2 ⟨0, rfl, hN⟩, rfl⟩⟩

theorem copy_errs (N : Nat) (src : Array α) (p q : Nat → Nat → Nat) (n : Nat) :
    MErrs UB (forStep 0 N 1 (zeros n) fun i v => forStep 0 N 1 v fun j v =>
      rd src (p i j) >>= fun w => wr v (q i j) w) :=
  MErrs.forStep (by decide) (fun _ _ => MErrs.forStep (by decide) (fun _ _ =>
    MErrs.bind (MErrs.rd (.inl rfl) _ _) fun _ => MErrs.wr (.inl rfl) _ _ _) _) _

theorem padB_size {N : Nat} {B v : Array α} (h : padB N B = .ok v) :
    v.size = (N + 64) * (N + 64) := by
  have hw : ∀ {a b : Array α} {i : Nat} {x : α}, wr a i x = .ok b → b.size = a.size := by
    intro a b i x h
    unfold wr at h
    split at h
    · cases h; simp
    · cases h
  have key : ∀ (l : List Nat) (f : Array α → Nat → M (Array α)),
      (∀ i s s', f s i = .ok s' → s'.size = s.size) → ∀ s s', l.foldlM f s = .ok s' →
      s'.size = s.size := by
    intro l f hf
    induction l with
    | nil => intro s s' h; cases h; rfl
    | cons i l ih =>
      intro s s' h
      rw [List.foldlM_cons] at h
      obtain ⟨s1, h1, h2⟩ := Semi.bind_ok h
      rw [ih _ _ h2, hf _ _ _ h1]
  unfold padB at h
  rw [forStep_eq (by decide)] at h
  rw [key _ _ (fun i s s' h => ?_) _ _ h, zeros_size]
  · rfl
  · rw [forStep_eq (by decide)] at h
    refine key _ _ (fun j s s' h => ?_) _ _ h
    obtain ⟨w, _, h⟩ := Semi.bind_ok h
    exact hw h

theorem mm_ub {N : Nat} (hN : 0 < N) (A B : Array α) (tr : Bool) (r : Nat) (hr : 1 ≤ r)
    (h : ¬ 4 ∣ N ∨ N + 64 ≤ KT N) : (matrix_multiply N A B tr r).All (fun _ => False) UB := by
  refine ND.All.bind (P := fun _ => True)
    (ND.All.ofM (fun _ _ => trivial) (copy_errs _ _ _ _ _)) fun _ _ => ?_
  refine ND.All.bind (P := fun _ => True)
    (ND.All.ofM (fun _ _ => trivial) (copy_errs _ _ _ _ _)) fun At _ => ?_
  refine ND.All.bind (P := fun Bp => Bp.size = (N + 64) * (N + 64))
    (ND.All.ofM (fun _ h => padB_size h) (copy_errs _ _ _ _ _)) fun Bp hB => ?_
  refine ND.All.bind (P := fun _ => False) ?_ fun _ h => h.elim
  obtain ⟨n, rfl⟩ := Nat.exists_eq_add_of_le' hr
  rw [List.range_succ_eq_map, List.foldlM_cons]
  exact ND.All.bind (P := fun _ => False) (ND.All.runOn_stuck (tree_errs _ _ _)
    (tree_stuck hN hB h)) fun _ h => h.elim

theorem mm_total (N : Nat) (A B : Array α) (tr : Bool) (r : Nat) :
    (matrix_multiply N A B tr r).Total :=
  ND.Total.bind (.ofM _) fun _ => ND.Total.bind (.ofM _) fun _ => ND.Total.bind (.ofM _) fun _ =>
    ND.Total.bind (ND.Total.foldlM (fun _ _ => .runOn _ _) _) fun _ => .ofM _

end Verif.KernelTest
