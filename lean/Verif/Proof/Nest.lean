import Verif.Core.Upd
import Mathlib.Data.List.Nodup
/-
Three levels of blocked loops.
-/
namespace Verif.Nest
variable {α : Type}

/-- Updates of three nested loops. -/
def nest3 (xs ys ks : List Nat) (W : Nat → Nat → Nat → List (Upd α)) : List (Upd α) :=
  xs.flatMap fun x => ys.flatMap fun y => ks.flatMap fun k => W x y k

theorem mem_nest3 {xs ys ks : List Nat} {W : Nat → Nat → Nat → List (Upd α)} {u : Upd α} :
    u ∈ nest3 xs ys ks W ↔ ∃ x ∈ xs, ∃ y ∈ ys, ∃ k ∈ ks, u ∈ W x y k := by
  simp [nest3, List.mem_flatMap]

/-- If only `(x0, y0)` contributes to cell `p`, only the `k` loop remains. -/
theorem nest3_cell {xs ys ks : List Nat} {W : Nat → Nat → Nat → List (Upd α)} {p x0 y0 : Nat}
    (hxs : xs.Nodup) (hys : ys.Nodup) (hx : x0 ∈ xs) (hy : y0 ∈ ys)
    (h : ∀ x ∈ xs, ∀ y ∈ ys, ∀ k ∈ ks, ∀ u ∈ W x y k, u.1 = p → x = x0 ∧ y = y0) (v : α) :
    cellFold (nest3 xs ys ks W) p v = ks.foldl (fun v k => cellFold (W x0 y0 k) p v) v := by
  unfold nest3
  rw [cellFold_flatMap_unique hxs hx, cellFold_flatMap_unique hys hy, cellFold_flatMap]
  · intro y hy' hne u hu he
    obtain ⟨k, hk, hu⟩ := List.mem_flatMap.1 hu
    exact hne (h x0 hx y hy' k hk u hu he).2
  · intro x hx' hne u hu he
    obtain ⟨y, hy', hu⟩ := List.mem_flatMap.1 hu
    obtain ⟨k, hk, hu⟩ := List.mem_flatMap.1 hu
    exact hne (h x hx' y hy' k hk u hu he).1

/-- A loop of blocks of `q` steps of width `d`. -/
theorem steps_blocks (n q d : Nat) (hd : 0 < d) :
    (steps 0 n (q * d)).flatMap (fun x => steps x (x + q * d) d) =
      steps 0 (ceilDiv n (q * d) * (q * d)) d := by
  have e1 : steps 0 n (q * d) = (List.range (ceilDiv n (q * d))).map (· * (q * d)) := by
    simp [steps]
  have e2 : ∀ x, steps x (x + q * d) d = (List.range q).map (x + · * d) := by
    intro x
    rw [steps, Nat.add_sub_cancel_left, ceilDiv_mul _ _ hd]
  rw [e1, List.flatMap_map]
  simp only [e2]
  generalize ceilDiv n (q * d) = m
  rw [← Nat.mul_assoc, steps_mul _ _ hd]
  induction m with
  | zero => simp
  | succ m ih =>
    rw [List.range_succ, List.flatMap_append, ih, Nat.succ_mul, List.range_add, List.map_append]
    congr 1
    simp [List.map_map, Function.comp_def, Nat.add_mul, Nat.mul_assoc]

/-- The iterations of an inner loop of a block. -/
theorem mem_block {a q d x : Nat} (hd : 0 < d) (hq : 0 < q) (ha : q * d ∣ a) :
    x ∈ steps a (a + q * d) d ↔ d ∣ x ∧ x / (q * d) * (q * d) = a := by
  rw [mem_steps hd]
  obtain ⟨c, rfl⟩ := ha
  constructor
  · rintro ⟨t, rfl, h⟩
    refine ⟨⟨q * c + t, ?_⟩, ?_⟩
    · rw [Nat.mul_add, Nat.mul_comm q d, Nat.mul_assoc, Nat.mul_comm d t]
    · have h1 : t * d < q * d := by omega
      rw [Nat.add_comm, Nat.add_mul_div_left _ _ (by omega), Nat.div_eq_of_lt h1, Nat.zero_add,
        Nat.mul_comm]
  · rintro ⟨⟨t, rfl⟩, h⟩
    have h1 := Nat.div_add_mod (d * t) (q * d)
    have h2 := Nat.mod_lt (d * t) (Nat.mul_pos hq hd)
    have h3 : d * t % (q * d) = t % q * d := by rw [Nat.mul_comm d t, Nat.mul_mod_mul_right]
    rw [Nat.mul_comm (q * d)] at h1
    exact ⟨t % q, by omega, by omega⟩

/-- One direction of three blocked loops with bound `n` and block sizes `L1 ∣ L2 ∣ L3`. -/
structure Dir where
  n : Nat
  L3 : Nat
  L2 : Nat
  L1 : Nat

/-- Block sizes are nested. -/
structure Dir.Ok (d : Dir) : Prop where
  pos : 0 < d.L3
  d32 : d.L2 ∣ d.L3
  d21 : d.L1 ∣ d.L2

/-- End of the last block. -/
def Dir.top (d : Dir) : Nat := ceilDiv d.n d.L3 * d.L3

theorem Dir.Ok.pos2 {d : Dir} (h : d.Ok) : 0 < d.L2 := Nat.pos_of_dvd_of_pos h.d32 h.pos
theorem Dir.Ok.pos1 {d : Dir} (h : d.Ok) : 0 < d.L1 := Nat.pos_of_dvd_of_pos h.d21 h.pos2

/-- Loop variables of the three loops. -/
theorem Dir.Ok.loops {d : Dir} (h : d.Ok) {x3 x2 x1 : Nat} :
    (x3 ∈ steps 0 d.n d.L3 ∧ x2 ∈ steps x3 (x3 + d.L3) d.L2 ∧ x1 ∈ steps x2 (x2 + d.L2) d.L1) ↔
      d.L1 ∣ x1 ∧ x1 < d.top ∧ x3 = x1 / d.L3 * d.L3 ∧ x2 = x1 / d.L2 * d.L2 := by
  have p3 := h.pos
  have p2 := h.pos2
  have p1 := h.pos1
  obtain ⟨q3, e3⟩ := h.d32
  obtain ⟨q2, e2⟩ := h.d21
  rw [Nat.mul_comm] at e3 e2
  have hq3 : 0 < q3 := Nat.pos_of_ne_zero fun e => by rw [e] at e3; omega
  have hq2 : 0 < q2 := Nat.pos_of_ne_zero fun e => by rw [e] at e2; omega
  have key : ∀ x, x / d.L3 * d.L3 < d.n ↔ x < d.top := by
    intro x
    rw [← lt_ceilDiv p3]
    unfold Dir.top
    rw [Nat.div_lt_iff_lt_mul p3]
  have div : ∀ x, x / d.L2 * d.L2 / d.L3 = x / d.L3 := by
    intro x
    rw [e3, Nat.mul_comm q3, ← Nat.div_div_eq_div_mul, ← Nat.div_div_eq_div_mul,
      Nat.mul_div_cancel _ p2]
  have m3 : ∀ {a x}, d.L3 ∣ a → (x ∈ steps a (a + d.L3) d.L2 ↔ d.L2 ∣ x ∧ x / d.L3 * d.L3 = a) := by
    rw [e3]; exact mem_block p2 hq3
  have m2 : ∀ {a x}, d.L2 ∣ a → (x ∈ steps a (a + d.L2) d.L1 ↔ d.L1 ∣ x ∧ x / d.L2 * d.L2 = a) := by
    rw [e2]; exact mem_block p1 hq2
  constructor
  · rintro ⟨h3, h2, h1⟩
    obtain ⟨t, rfl, ht⟩ := (mem_steps p3).1 h3
    rw [Nat.zero_add] at *
    obtain ⟨a2, b2⟩ := (m3 (Nat.dvd_mul_left _ _)).1 h2
    obtain ⟨a1, b1⟩ := (m2 a2).1 h1
    have : x1 / d.L3 * d.L3 = t * d.L3 := by rw [← div, b1, b2]
    exact ⟨a1, (key x1).1 (this ▸ ht), this.symm, b1.symm⟩
  · rintro ⟨h1, h2, rfl, rfl⟩
    refine ⟨(mem_steps p3).2 ⟨x1 / d.L3, (Nat.zero_add _).symm, (key _).2 h2⟩,
      (m3 (Nat.dvd_mul_left _ _)).2 ⟨Nat.dvd_mul_left _ _, by rw [div]⟩,
      (m2 (Nat.dvd_mul_left _ _)).2 ⟨h1, rfl⟩⟩

/-- All iterations of the three loops of a direction, in order. -/
theorem Dir.Ok.flat {d : Dir} (h : d.Ok) {σ : Type} (f : σ → Nat → σ) (s : σ) :
    (steps 0 d.n d.L3).foldl (fun s x3 => (steps x3 (x3 + d.L3) d.L2).foldl (fun s x2 =>
      (steps x2 (x2 + d.L2) d.L1).foldl f s) s) s = (steps 0 d.top d.L1).foldl f s := by
  have p3 := h.pos
  have p2 := h.pos2
  have p1 := h.pos1
  obtain ⟨q3, e3⟩ := h.d32
  obtain ⟨q2, e2⟩ := h.d21
  rw [Nat.mul_comm] at e3 e2
  have b3 := steps_blocks d.n q3 d.L2 p2
  have b2 := steps_blocks d.top q2 d.L1 p1
  rw [← e3] at b3
  rw [← e2] at b2
  have e : ceilDiv d.top d.L2 * d.L2 = d.top := by
    unfold Dir.top
    rw [e3, ← Nat.mul_assoc, ceilDiv_mul _ _ p2]
  rw [e] at b2
  rw [← b2, foldl_flatMap', show d.top = ceilDiv d.n d.L3 * d.L3 from rfl, ← b3, foldl_flatMap']

/-- Updates of the nine loops. -/
def tiles (dx dy dk : Dir) (U : Nat → Nat → Nat → List (Upd α)) : List (Upd α) :=
  nest3 (steps 0 dx.n dx.L3) (steps 0 dy.n dy.L3) (steps 0 dk.n dk.L3) fun x3 y3 k3 =>
    nest3 (steps x3 (x3 + dx.L3) dx.L2) (steps y3 (y3 + dy.L3) dy.L2)
      (steps k3 (k3 + dk.L3) dk.L2) fun x2 y2 k2 =>
        nest3 (steps x2 (x2 + dx.L2) dx.L1) (steps y2 (y2 + dy.L2) dy.L1)
          (steps k2 (k2 + dk.L2) dk.L1) U

/-- If only the tile at `(x0, y0)` contributes to cell `p`, only the `k` loops remain. -/
theorem tiles_cell {dx dy dk : Dir} (hx : dx.Ok) (hy : dy.Ok) (hk : dk.Ok)
    {U : Nat → Nat → Nat → List (Upd α)} {p x0 y0 : Nat} (hx0 : dx.L1 ∣ x0) (hx1 : x0 < dx.top)
    (hy0 : dy.L1 ∣ y0) (hy1 : y0 < dy.top)
    (h : ∀ x, dx.L1 ∣ x → x < dx.top → ∀ y, dy.L1 ∣ y → y < dy.top → ∀ k, dk.L1 ∣ k → k < dk.top →
      ∀ u ∈ U x y k, u.1 = p → x = x0 ∧ y = y0) (v : α) :
    cellFold (tiles dx dy dk U) p v =
      (steps 0 dk.top dk.L1).foldl (fun v k => cellFold (U x0 y0 k) p v) v := by
  obtain ⟨x3, x2, x1⟩ := (hx.loops (x1 := x0)).2 ⟨hx0, hx1, rfl, rfl⟩
  obtain ⟨y3, y2, y1⟩ := (hy.loops (x1 := y0)).2 ⟨hy0, hy1, rfl, rfl⟩
  rw [← hk.flat]
  unfold tiles
  rw [nest3_cell (steps_nodup hx.pos) (steps_nodup hy.pos) x3 y3]
  · refine foldl_congr' (fun k3 hk3 v => ?_) _
    rw [nest3_cell (steps_nodup hx.pos2) (steps_nodup hy.pos2) x2 y2]
    · refine foldl_congr' (fun k2 hk2 v => ?_) _
      rw [nest3_cell (steps_nodup hx.pos1) (steps_nodup hy.pos1) x1 y1]
      intro a ha b hb k hk1 u hu he
      obtain ⟨a0, a1, -, -⟩ := hx.loops.1 ⟨x3, x2, ha⟩
      obtain ⟨b0, b1, -, -⟩ := hy.loops.1 ⟨y3, y2, hb⟩
      obtain ⟨c0, c1, -, -⟩ := hk.loops.1 ⟨hk3, hk2, hk1⟩
      exact h a a0 a1 b b0 b1 k c0 c1 u hu he
    · intro a ha b hb k hk2 u hu he
      obtain ⟨a', ha', b', hb', k', hk', hu⟩ := mem_nest3.1 hu
      obtain ⟨a0, a1, -, ea⟩ := hx.loops.1 ⟨x3, ha, ha'⟩
      obtain ⟨b0, b1, -, eb⟩ := hy.loops.1 ⟨y3, hb, hb'⟩
      obtain ⟨c0, c1, -, -⟩ := hk.loops.1 ⟨hk3, hk2, hk'⟩
      obtain ⟨rfl, rfl⟩ := h a' a0 a1 b' b0 b1 k' c0 c1 u hu he
      exact ⟨ea, eb⟩
  · intro a ha b hb k hk3 u hu he
    obtain ⟨a', ha', b', hb', k', hk', hu⟩ := mem_nest3.1 hu
    obtain ⟨a'', ha'', b'', hb'', k'', hk'', hu⟩ := mem_nest3.1 hu
    obtain ⟨a0, a1, ea, -⟩ := hx.loops.1 ⟨ha, ha', ha''⟩
    obtain ⟨b0, b1, eb, -⟩ := hy.loops.1 ⟨hb, hb', hb''⟩
    obtain ⟨c0, c1, -, -⟩ := hk.loops.1 ⟨hk3, hk', hk''⟩
    obtain ⟨rfl, rfl⟩ := h a'' a0 a1 b'' b0 b1 k'' c0 c1 u hu he
    exact ⟨ea, eb⟩

/-! ### a parallel loop over the outer blocks -/

/-- One iteration of the two parallel loops. -/
def task (dx dy dk : Dir) (body : Nat → Nat → Nat → Act α Unit) (x3 y3 : Nat) : Act α Unit :=
  forStep 0 dk.n dk.L3 () fun k3 _ =>
    forStep x3 (x3 + dx.L3) dx.L2 () fun x2 _ =>
      forStep y3 (y3 + dy.L3) dy.L2 () fun y2 _ =>
        forStep k3 (k3 + dk.L3) dk.L2 () fun k2 _ =>
          forStep x2 (x2 + dx.L2) dx.L1 () fun x1 _ =>
            forStep y2 (y2 + dy.L2) dy.L1 () fun y1 _ =>
              forStep k2 (k2 + dk.L2) dk.L1 () fun k1 _ => body x1 y1 k1

/-- The parallel loops. -/
def tree (dx dy dk : Dir) (body : Nat → Nat → Nat → Act α Unit) : Tree α :=
  .par (((steps 0 dx.n dx.L3).flatMap fun x3 => (steps 0 dy.n dy.L3).map fun y3 =>
    (x3, y3)).map fun q => .act (task dx dy dk body q.1 q.2))

theorem forStep3 {A} {lx hx sx ly hy sy lk hk sk : Nat} (px : 0 < sx) (py : 0 < sy) (pk : 0 < sk)
    {body : Nat → Nat → Nat → Act α Unit} {W : Nat → Nat → Nat → List (Upd α)}
    (h : ∀ x ∈ steps lx hx sx, ∀ y ∈ steps ly hy sy, ∀ k ∈ steps lk hk sk,
      Act.Does A (body x y k) () (W x y k)) :
    Act.Does A (forStep lx hx sx () fun x _ => forStep ly hy sy () fun y _ =>
      forStep lk hk sk () fun k _ => body x y k) ()
      (nest3 (steps lx hx sx) (steps ly hy sy) (steps lk hk sk) W) :=
  Act.Does.forStep px fun x hx => Act.Does.forStep py fun y hy => Act.Does.forStep pk fun k hk =>
    h x hx y hy k hk

theorem tree_does {A} {dx dy dk : Dir} (hx : dx.Ok) (hy : dy.Ok) (hk : dk.Ok)
    {body : Nat → Nat → Nat → Act α Unit} {U : Nat → Nat → Nat → List (Upd α)}
    (hd : ∀ x, dx.L1 ∣ x → x < dx.top → ∀ y, dy.L1 ∣ y → y < dy.top → ∀ k, dk.L1 ∣ k → k < dk.top →
      Act.Does A (body x y k) () (U x y k))
    (h : ∀ x, dx.L1 ∣ x → x < dx.top → ∀ y, dy.L1 ∣ y → y < dy.top → ∀ k, dk.L1 ∣ k → k < dk.top →
      ∀ x', dx.L1 ∣ x' → x' < dx.top → ∀ y', dy.L1 ∣ y' → y' < dy.top →
      ∀ k', dk.L1 ∣ k' → k' < dk.top →
      ∀ u ∈ U x y k, ∀ u' ∈ U x' y' k', u.1 = u'.1 → x = x' ∧ y = y') :
    Tree.Does A (tree dx dy dk body) (tiles dx dy dk U) := by
  have e : tiles dx dy dk U =
      (((steps 0 dx.n dx.L3).flatMap fun x3 => (steps 0 dy.n dy.L3).map fun y3 => (x3, y3)).flatMap
        fun q => (steps 0 dk.n dk.L3).flatMap fun k3 =>
          nest3 (steps q.1 (q.1 + dx.L3) dx.L2) (steps q.2 (q.2 + dy.L3) dy.L2)
            (steps k3 (k3 + dk.L3) dk.L2) fun x2 y2 k2 =>
              nest3 (steps x2 (x2 + dx.L2) dx.L1) (steps y2 (y2 + dy.L2) dy.L1)
                (steps k2 (k2 + dk.L2) dk.L1) U) := by
    rw [List.flatMap_assoc]
    simp only [List.flatMap_map]
    rfl
  rw [e]
  have mem : ∀ q : Nat × Nat, q ∈ ((steps 0 dx.n dx.L3).flatMap fun x3 =>
      (steps 0 dy.n dy.L3).map fun y3 => (x3, y3)) →
      q.1 ∈ steps 0 dx.n dx.L3 ∧ q.2 ∈ steps 0 dy.n dy.L3 := by
    rintro ⟨a, b⟩ hq
    simp only [List.mem_flatMap, List.mem_map, Prod.mk.injEq] at hq
    obtain ⟨x, hx, y, hy, rfl, rfl⟩ := hq
    exact ⟨hx, hy⟩
  refine Tree.Does.par (fun q hq => ?_) ?_
  · obtain ⟨x3, y3⟩ := mem q hq
    refine .act (Act.Does.forStep hk.pos fun k3 hk3 => forStep3 hx.pos2 hy.pos2 hk.pos2
      fun x2 hx2 y2 hy2 k2 hk2 => forStep3 hx.pos1 hy.pos1 hk.pos1 fun x1 hx1 y1 hy1 k1 hk1 => ?_)
    obtain ⟨a0, a1, -, -⟩ := hx.loops.1 ⟨x3, hx2, hx1⟩
    obtain ⟨b0, b1, -, -⟩ := hy.loops.1 ⟨y3, hy2, hy1⟩
    obtain ⟨c0, c1, -, -⟩ := hk.loops.1 ⟨hk3, hk2, hk1⟩
    exact hd _ a0 a1 _ b0 b1 _ c0 c1
  · have hn : ((steps 0 dx.n dx.L3).flatMap fun x3 =>
        (steps 0 dy.n dy.L3).map fun y3 => (x3, y3)).Nodup := by
      rw [List.nodup_flatMap]
      refine ⟨fun x _ => ?_, ?_⟩
      · refine (List.nodup_map_iff_inj_on (steps_nodup hy.pos)).2 fun a _ b _ hab => ?_
        exact (Prod.mk.inj hab).2
      · refine (steps_nodup hx.pos).imp fun {a b} hab q hq hq' => ?_
        obtain ⟨y, _, rfl⟩ := List.mem_map.1 hq
        obtain ⟨y', _, e⟩ := List.mem_map.1 hq'
        exact hab (Prod.mk.inj e).1.symm
    refine (List.Pairwise.and_mem.1 hn).imp ?_
    rintro q q' ⟨hq, hq', hne⟩ u hu u' hu' he
    obtain ⟨x3, y3⟩ := mem q hq
    obtain ⟨x3', y3'⟩ := mem q' hq'
    obtain ⟨k3, hk3, hu⟩ := List.mem_flatMap.1 hu
    obtain ⟨k3', hk3', hu'⟩ := List.mem_flatMap.1 hu'
    obtain ⟨x2, hx2, y2, hy2, k2, hk2, hu⟩ := mem_nest3.1 hu
    obtain ⟨x2', hx2', y2', hy2', k2', hk2', hu'⟩ := mem_nest3.1 hu'
    obtain ⟨x1, hx1, y1, hy1, k1, hk1, hu⟩ := mem_nest3.1 hu
    obtain ⟨x1', hx1', y1', hy1', k1', hk1', hu'⟩ := mem_nest3.1 hu'
    obtain ⟨a0, a1, ea, -⟩ := hx.loops.1 ⟨x3, hx2, hx1⟩
    obtain ⟨b0, b1, eb, -⟩ := hy.loops.1 ⟨y3, hy2, hy1⟩
    obtain ⟨c0, c1, -, -⟩ := hk.loops.1 ⟨hk3, hk2, hk1⟩
    obtain ⟨a0', a1', ea', -⟩ := hx.loops.1 ⟨x3', hx2', hx1'⟩
    obtain ⟨b0', b1', eb', -⟩ := hy.loops.1 ⟨y3', hy2', hy1'⟩
    obtain ⟨c0', c1', -, -⟩ := hk.loops.1 ⟨hk3', hk2', hk1'⟩
    obtain ⟨rfl, rfl⟩ := h _ a0 a1 _ b0 b1 _ c0 c1 _ a0' a1' _ b0' b1' _ c0' c1' u hu u' hu' he
    exact hne (Prod.ext (ea.trans ea'.symm) (eb.trans eb'.symm))

end Verif.Nest
