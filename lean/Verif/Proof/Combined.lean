import Verif.Model.Combined
import Verif.Proof.Tiled
import Verif.Proof.Semi
/-
Helper lemmas about combined.cpp.
-/
set_option linter.unusedSectionVars false
namespace Verif.Combined
open IndexIterator Tiled
variable {α : Type} [Arith α]

theorem valid : blocking.Valid := by
  constructor <;> decide

/-! ### the grid of L1 blocks -/

/-- The blocking levels, outermost first. -/
def levels (b : Blocking) : List (List Nat × List Bool) :=
  [([b.L3_X, b.L3_Y, b.L3_K_STEP], [true, true, false]),
    ([b.L2_X, b.L2_Y, b.L2_K_STEP], [false, false, false])]

/-- The steps of the innermost loops. -/
def final (b : Blocking) : List Nat := [b.L1_X, b.L1_Y, b.L1_K_STEP]

/-- The policy built by the code. -/
def pol (b : Blocking) : Policy := ⟨3, [(final b, [false, false, false]),
  ([b.L2_X, b.L2_Y, b.L2_K_STEP], [false, false, false]),
  ([b.L3_X, b.L3_Y, b.L3_K_STEP], [true, true, false])]⟩

theorem policy_ok (b : Blocking) : policy b = .ok (pol b) := rfl

theorem forall_three {P : Nat → Prop} (h0 : P 0) (h1 : P 1) (h2 : P 2) : ∀ d, d < 3 → P d
  | 0, _ => h0
  | 1, _ => h1
  | 2, _ => h2

theorem l2_pos {b : Blocking} (h : b.Valid) : 0 < b.L2_X ∧ 0 < b.L2_Y ∧ 0 < b.L2_K_STEP :=
  ⟨Nat.pos_of_dvd_of_pos h.x32 h.x3, Nat.pos_of_dvd_of_pos h.y32 h.y3,
    Nat.pos_of_dvd_of_pos h.k32 h.k3⟩

theorem lvOk {b : Blocking} (h : b.Valid) : LvOk 3 (final b) (levels b) := by
  have hp := l2_pos h
  refine .cons rfl rfl (forall_three h.x3 h.y3 h.k3)
    (forall_three (h.x21.trans h.x32) (h.y21.trans h.y32) (h.k21.trans h.k32)) ?_
    (.cons rfl rfl (forall_three hp.1 hp.2.1 hp.2.2) (forall_three h.x21 h.y21 h.k21) ?_ .nil)
  · intro lv hlv
    rw [List.mem_singleton] at hlv
    subst hlv
    exact forall_three h.x32 h.y32 h.k32
  · intro lv hlv
    cases hlv

/-- The calls of one repetition. -/
def calls (b : Blocking) (X Y K : Nat) : Calls (List Nat) :=
  iterateRev 3 (levels b ++ [(final b, [false, false, false])]) [0, 0, 0] [X, Y, K]

theorem tree_eq (b : Blocking) (X Y K : Nat) (At Bp : Array α) :
    tree b (pol b) X Y K At Bp = (calls b X Y K).toTree (body b X Y At Bp) := rfl

theorem calls_spec {b : Blocking} (h : b.Valid) {X Y K : Nat} (hX : b.L3_X ∣ X) (hY : b.L3_Y ∣ Y)
    (hK : b.L3_K_STEP ∣ K) :
    (calls b X Y K).Good (SepBy (levels b)) ∧ (calls b X Y K).leaves.Pairwise SomeLt ∧
      ∀ p, p ∈ (calls b X Y K).leaves ↔ OnGrid [0, 0, 0] [X, Y, K] (final b) p := by
  obtain ⟨h1, h2, h3⟩ := iterateRev_spec (f0 := [false, false, false])
    (forall_three (P := fun d => 0 < (final b).getD d 0) h.x1 h.y1 h.k1) rfl (levels b) (lvOk h)
    [0, 0, 0] [X, Y, K] rfl rfl
    (forall_three (P := fun d => [0, 0, 0].getD d 0 ≤ [X, Y, K].getD d 0) (Nat.zero_le _)
      (Nat.zero_le _) (Nat.zero_le _))
  have hb : bound 3 (levels b) [0, 0, 0] [X, Y, K] = [X, Y, K] := by
    obtain ⟨x, rfl⟩ := hX
    obtain ⟨y, rfl⟩ := hY
    obtain ⟨k, rfl⟩ := hK
    simp [bound, levels, List.range_succ, Nat.mul_comm, ceilDiv_mul _ _ h.x3, ceilDiv_mul _ _ h.y3,
      ceilDiv_mul _ _ h.k3]
  rw [hb] at h3
  exact ⟨h1, h2, h3⟩

/-! ### one repetition -/

/-- Updates of one call. -/
def upd (b : Blocking) (QY : Nat) (f g : Nat → Nat → α) (p : List Nat) : List (Upd α) :=
  tileUpd b (cbase b QY (p.getD 0 0 / b.L1_X) (p.getD 1 0 / b.L1_Y))
    (fun r c => bsum b f g (p.getD 2 0 / b.L1_K_STEP) (p.getD 0 0 + r) (p.getD 1 0 + c))

/-- Point `p` of the grid, in terms of tile numbers. -/
theorem grid_tile {b : Blocking} {QX QY QK : Nat} {p : List Nat}
    (hp : OnGrid [0, 0, 0] [QX * b.L1_X, QY * b.L1_Y, QK * b.L1_K_STEP] (final b) p) :
    ∃ bx by' bk, p.getD 0 0 = bx * b.L1_X ∧ p.getD 1 0 = by' * b.L1_Y ∧
      p.getD 2 0 = bk * b.L1_K_STEP ∧ bx < QX ∧ by' < QY ∧ bk < QK := by
  obtain ⟨_, ⟨bx, e0, h0⟩, ⟨by', e1, h1⟩, ⟨bk, e2, h2⟩⟩ := onGrid_three.1 hp
  rw [e0] at h0
  rw [e1] at h1
  rw [e2] at h2
  exact ⟨bx, by', bk, e0, e1, e2, Nat.lt_of_mul_lt_mul_right h0, Nat.lt_of_mul_lt_mul_right h1,
    Nat.lt_of_mul_lt_mul_right h2⟩

theorem clearFirst_does : Act.Does (α := α) true clearFirst () [] := by
  intro F _ c
  refine ⟨rfl, fun b => ?_⟩
  cases b
  · exact ⟨rfl, rfl⟩
  · exact ⟨rfl, rfl, rfl⟩

theorem call_does {A} {b : Blocking} (h : b.Valid) {QX QY QK : Nat} {At Bp : Array α}
    {f g : Nat → Nat → α} (hA : HoldsTiled At QK QX b.L1_K_STEP b.L1_X (fun k i => f i k))
    (hB : HoldsTiled Bp QK QY b.L1_K_STEP b.L1_Y g) {p : List Nat}
    (hp : OnGrid [0, 0, 0] [QX * b.L1_X, QY * b.L1_Y, QK * b.L1_K_STEP] (final b) p) :
    Act.Does A (block b (QX * b.L1_X) (QY * b.L1_Y) At Bp (p.getD 0 0) (p.getD 1 0) (p.getD 2 0)) ()
      (upd b QY f g p) := by
  obtain ⟨bx, by', bk, e0, e1, e2, h0, h1, h2⟩ := grid_tile hp
  unfold upd
  rw [e0, e1, e2, Nat.mul_div_cancel _ h.x1, Nat.mul_div_cancel _ h.y1, Nat.mul_div_cancel _ h.k1]
  exact block_does h rfl rfl hA hB h0 h1 h2

theorem body_does {b : Blocking} (h : b.Valid) {QX QY QK : Nat} {At Bp : Array α}
    {f g : Nat → Nat → α} (hA : HoldsTiled At QK QX b.L1_K_STEP b.L1_X (fun k i => f i k))
    (hB : HoldsTiled Bp QK QY b.L1_K_STEP b.L1_Y g) {p : List Nat}
    (hp : OnGrid [0, 0, 0] [QX * b.L1_X, QY * b.L1_Y, QK * b.L1_K_STEP] (final b) p) :
    Act.Does true (body b (QX * b.L1_X) (QY * b.L1_Y) At Bp p) () (upd b QY f g p) := by
  have := (call_does (A := true) h hA hB hp).bind (f := fun _ => clearFirst) clearFirst_does
  rw [List.append_nil] at this
  exact this

/-- Different tiles are disjoint. -/
theorem upd_disjoint {b : Blocking} (h : b.Valid) {QX QY QK : Nat} {f g : Nat → Nat → α}
    {p q : List Nat}
    (hp : OnGrid [0, 0, 0] [QX * b.L1_X, QY * b.L1_Y, QK * b.L1_K_STEP] (final b) p)
    (hq : OnGrid [0, 0, 0] [QX * b.L1_X, QY * b.L1_Y, QK * b.L1_K_STEP] (final b) q)
    {u v : Upd α} (hu : u ∈ upd b QY f g p) (hv : v ∈ upd b QY f g q) (he : u.1 = v.1) :
    p.getD 0 0 = q.getD 0 0 ∧ p.getD 1 0 = q.getD 1 0 := by
  obtain ⟨bx, by', bk, e0, e1, e2, h0, h1, h2⟩ := grid_tile hp
  obtain ⟨bx', by'', bk', e0', e1', e2', h0', h1', h2'⟩ := grid_tile hq
  unfold upd at hu hv
  rw [e0, e1, Nat.mul_div_cancel _ h.x1, Nat.mul_div_cancel _ h.y1] at hu
  rw [e0', e1', Nat.mul_div_cancel _ h.x1, Nat.mul_div_cancel _ h.y1] at hv
  obtain ⟨r, c, hr, hc, eu⟩ := mem_tileUpd h hu
  obtain ⟨r', c', hr', hc', ev⟩ := mem_tileUpd h hv
  rw [eu, ev] at he
  obtain ⟨h3, h4, _, _⟩ := tpos_inj rfl h1 hr hc h1' hr' hc' he
  rw [e0, e1, e0', e1', h3, h4]
  exact ⟨rfl, rfl⟩

theorem tree_does {b : Blocking} (h : b.Valid) {QX QY QK : Nat} {At Bp : Array α}
    {f g : Nat → Nat → α} (hX : b.L3_X ∣ QX * b.L1_X) (hY : b.L3_Y ∣ QY * b.L1_Y)
    (hK : b.L3_K_STEP ∣ QK * b.L1_K_STEP)
    (hA : HoldsTiled At QK QX b.L1_K_STEP b.L1_X (fun k i => f i k))
    (hB : HoldsTiled Bp QK QY b.L1_K_STEP b.L1_Y g) :
    Tree.Does true (tree b (pol b) (QX * b.L1_X) (QY * b.L1_Y) (QK * b.L1_K_STEP) At Bp)
      ((calls b (QX * b.L1_X) (QY * b.L1_Y) (QK * b.L1_K_STEP)).leaves.flatMap (upd b QY f g)) := by
  obtain ⟨hg, hp, hm⟩ := calls_spec h hX hY hK
  rw [tree_eq]
  have hg' : (calls b (QX * b.L1_X) (QY * b.L1_Y) (QK * b.L1_K_STEP)).Good (fun p q =>
      p ∈ (calls b (QX * b.L1_X) (QY * b.L1_Y) (QK * b.L1_K_STEP)).leaves ∧
      q ∈ (calls b (QX * b.L1_X) (QY * b.L1_Y) (QK * b.L1_K_STEP)).leaves ∧
      SepBy (levels b) p q) := hg.mono_mem
  refine hg'.does (fun p q hpq u hu v hv he => ?_) fun p hp => body_does h hA hB ((hm p).1 hp)
  obtain ⟨hp, hq, d, ⟨lv, hlv, ht⟩, hne⟩ := hpq
  have := upd_disjoint h ((hm p).1 hp) ((hm q).1 hq) hu hv he
  match d with
  | 0 => exact hne this.1
  | 1 => exact hne this.2
  | d + 2 =>
    revert ht
    unfold levels at hlv
    rw [List.mem_cons, List.mem_singleton] at hlv
    rcases hlv with rfl | rfl <;> match d with
      | 0 => simp
      | d + 1 => simp

theorem tree_cell {b : Blocking} (h : b.Valid) {QX QY QK : Nat}
    {f g : Nat → Nat → α} (hX : b.L3_X ∣ QX * b.L1_X) (hY : b.L3_Y ∣ QY * b.L1_Y)
    (hK : b.L3_K_STEP ∣ QK * b.L1_K_STEP) {bx by' r c : Nat} (hbx : bx < QX) (hby : by' < QY)
    (hr : r < b.L1_X) (hc : c < b.L1_Y) (v : α) :
    cellFold ((calls b (QX * b.L1_X) (QY * b.L1_Y) (QK * b.L1_K_STEP)).leaves.flatMap
        (upd b QY f g)) (cbase b QY bx by' + r * b.L1_Y + c) v =
      bdotFrom v b.L1_K_STEP QK (fun k => f (bx * b.L1_X + r) k)
        (fun k => g k (by' * b.L1_Y + c)) := by
  obtain ⟨hg, hp, hm⟩ := calls_spec h hX hY hK
  rw [cellFold_filter (fun p => decide (p.getD 0 0 = bx * b.L1_X ∧ p.getD 1 0 = by' * b.L1_Y))]
  · rw [filter_k hp hm h.k1 ⟨bx, rfl, Nat.mul_lt_mul_of_pos_right hbx h.x1⟩
      ⟨by', rfl, Nat.mul_lt_mul_of_pos_right hby h.y1⟩, List.flatMap_map, cellFold_flatMap,
      steps_mul _ _ h.k1, List.foldl_map]
    unfold bdotFrom
    refine foldl_congr' (fun t _ s => ?_) _
    unfold upd
    simp only [List.getD_cons_zero, List.getD_cons_succ, Nat.mul_div_cancel _ h.x1,
      Nat.mul_div_cancel _ h.y1, Nat.mul_div_cancel _ h.k1]
    rw [tileUpd_cell h hr hc]
    rfl
  · intro p hp' hq' u hu he
    have hq' := of_decide_eq_false hq'
    obtain ⟨bx', by'', bk', e0, e1, e2, h0, h1, h2⟩ := grid_tile ((hm p).1 hp')
    unfold upd at hu
    rw [e0, e1, Nat.mul_div_cancel _ h.x1, Nat.mul_div_cancel _ h.y1] at hu
    obtain ⟨r', c', hr', hc', eu⟩ := mem_tileUpd h hu
    rw [eu] at he
    obtain ⟨h3, h4, _, _⟩ := tpos_inj rfl h1 hr' hc' hby hr hc he
    exact hq' ⟨by rw [e0, h3], by rw [e1, h4]⟩

theorem rep_ok {b : Blocking} (h : b.Valid) {QX QY QK : Nat} {At Bp C : Array α}
    {f g d : Nat → Nat → α} (hX : b.L3_X ∣ QX * b.L1_X) (hY : b.L3_Y ∣ QY * b.L1_Y)
    (hK : b.L3_K_STEP ∣ QK * b.L1_K_STEP)
    (hA : HoldsTiled At QK QX b.L1_K_STEP b.L1_X (fun k i => f i k))
    (hB : HoldsTiled Bp QK QY b.L1_K_STEP b.L1_Y g) (hC : HoldsTiled C QX QY b.L1_X b.L1_Y d) :
    ∃ C', ND.runOn C (tree b (pol b) (QX * b.L1_X) (QY * b.L1_Y) (QK * b.L1_K_STEP) At Bp) =
        ND.pure C' ∧ C'.size = C.size ∧ HoldsTiled C' QX QY b.L1_X b.L1_Y
        (fun i j => bdotFrom (d i j) b.L1_K_STEP QK (fun k => f i k) (fun k => g k j)) := by
  refine ⟨_, (tree_does h hX hY hK hA hB).runOn C, by simp, fun bx hbx by' hby r hr c hc => ?_⟩
  rw [applyA_get, hC bx hbx by' hby r hr c hc, Option.map_some]
  exact congrArg some (tree_cell h hX hY hK hbx hby hr hc _)

theorem A_trans_untiled_ok {p : Padded α} {f : Nat → Nat → α} (hA : Holds p.A p.X_size p.K_size f) :
    ∃ v, A_trans_untiled p = .ok v := by
  have hd := nest2_does (m := p.K_size) (n := p.X_size)
    (body := fun i j v => rd p.A (j * p.K_size + i) >>= fun x => wr v (i * p.X_size + j) x)
    (us := fun i j => [(i * p.X_size + j, fun _ => f j i)])
    (fun i hi j hj => MDoes.read (hA.rd hj hi) MDoes.wr) (zeros (p.K_size * p.X_size))
    (fun u hu => by
      obtain ⟨i, hi, j, hj, hu⟩ := mem_nest2.1 hu
      rw [List.mem_singleton] at hu
      subst hu
      rw [zeros_size]
      exact idx_lt hi hj)
  exact ⟨_, hd⟩

/-- Repeating a deterministic step. -/
theorem foldlM_pure {ι σ : Type} {P : Nat → σ → Prop} {f : σ → ι → ND σ}
    (h : ∀ n s i, P n s → ∃ s', f s i = ND.pure s' ∧ P (n + 1) s') (l : List ι) :
    ∀ n s, P n s → ∃ s', l.foldlM f s = ND.pure s' ∧ P (n + l.length) s' := by
  induction l with
  | nil => intro n s hs; exact ⟨s, rfl, hs⟩
  | cons i l ih =>
    intro n s hs
    obtain ⟨s', e, hs'⟩ := h n s i hs
    obtain ⟨s'', e', hs''⟩ := ih (n + 1) s' hs'
    refine ⟨s'', ?_, ?_⟩
    · rw [List.foldlM_cons, e]
      exact (ND.pure_bind _ _).trans e'
    · rw [List.length_cons, Nat.add_comm l.length, ← Nat.add_assoc]; exact hs''

theorem zeros_tiled {P Q R L n : Nat} (hn : n = (P * R) * (Q * L)) :
    HoldsTiled (zeros n : Array α) P Q R L fun _ _ => Arith.zero := by
  intro a ha b hb r hr c hc
  have : (R * L) * (a * Q + b) + r * L + c < n := by rw [hn]; exact tpos_lt rfl ha hb hr hc
  simp [zeros, this]

theorem mm_ok {b : Blocking} (h : b.Valid) {N : Nat} {A B : Array α} {f g : Nat → Nat → α}
    (hA : Holds A N N f) (hB : Holds B N N g) (r : Nat) :
    matrix_multiply b N A B r = ND.pure (rowMajor N fun i j =>
      repeatDot r b.L1_K_STEP (K b N / b.L1_K_STEP) (fun k => pad N f i k)
        (fun k => pad N g k j)) := by
  obtain ⟨QX, hX⟩ := X_eq h N
  obtain ⟨QY, hY⟩ := Y_eq h N
  obtain ⟨QK, hK⟩ := K_eq h N
  have dX : b.L3_X ∣ QX * b.L1_X := hX ▸ Dvd.intro_left _ rfl
  have dY : b.L3_Y ∣ QY * b.L1_Y := hY ▸ Dvd.intro_left _ rfl
  have dK : b.L3_K_STEP ∣ QK * b.L1_K_STEP := hK ▸ Dvd.intro_left _ rfl
  unfold matrix_multiply
  rw [setup_ok h hA hB, ND.ofM_ok, ND.pure_bind']
  obtain ⟨w, hw⟩ := A_trans_untiled_ok (p := ⟨X b N, Y b N, K b N,
    rect (X b N) (K b N) (pad N f), rect (K b N) (Y b N) (pad N g)⟩) (holds_rect _ _ _)
  obtain ⟨At, eA, _, hAt⟩ := tileA_ok (b := b) (p := ⟨X b N, Y b N, K b N,
    rect (X b N) (K b N) (pad N f), rect (K b N) (Y b N) (pad N g)⟩) hX hK h.x1 h.k1
    (holds_rect _ _ _)
  obtain ⟨Bp, eB, _, hBp⟩ := tileB_ok (b := b) (p := ⟨X b N, Y b N, K b N,
    rect (X b N) (K b N) (pad N f), rect (K b N) (Y b N) (pad N g)⟩) hY hK h.y1 h.k1
    (holds_rect _ _ _)
  rw [hw, eA, eB, ND.ofM_ok, ND.ofM_ok, ND.ofM_ok, ND.pure_bind', ND.pure_bind', ND.pure_bind']
  simp only [policy_ok, ND.ofM_ok, ND.pure_bind']
  obtain ⟨C, eC, hC⟩ := foldlM_pure (ι := Nat)
    (P := fun n (C : Array α) => HoldsTiled C QX QY b.L1_X b.L1_Y fun i j =>
      repeatDot n b.L1_K_STEP QK (fun k => pad N f i k) (fun k => pad N g k j))
    (f := fun C _ => ND.runOn C (tree b (pol b) (X b N) (Y b N) (K b N) At Bp))
    (fun n C _ hC => by
      obtain ⟨C', e, _, hC'⟩ := rep_ok h dX dY dK hAt hBp hC
      refine ⟨C', by rw [hX, hY, hK]; exact e, ?_⟩
      have e' : ∀ i j, repeatDot (n + 1) b.L1_K_STEP QK (fun k => pad N f i k)
          (fun k => pad N g k j) = bdotFrom (repeatDot n b.L1_K_STEP QK (fun k => pad N f i k)
          (fun k => pad N g k j)) b.L1_K_STEP QK (fun k => pad N f i k) (fun k => pad N g k j) :=
        fun i j => Function.iterate_succ_apply' _ _ _
      simp only [e']
      exact hC') (List.range r) 0 (zeros (X b N * Y b N)) (zeros_tiled (by rw [hX, hY]))
  rw [eC]
  refine (ND.pure_bind _ _).trans ?_
  rw [List.length_range, Nat.zero_add] at hC
  rw [extract_ok h.x1 h.y1 hX hY (le_padded h.x3) (le_padded h.y3) hC, hK,
    Nat.mul_div_cancel _ h.k1]
  rfl

/-! ### the race on `first` -/

theorem lt_ceilDiv' {n d t : Nat} (hd : 0 < d) (h : t * d < n) : t < ceilDiv n d := by
  unfold ceilDiv
  rw [Nat.lt_div_iff_mul_lt hd]
  omega

/-- The outermost level: concurrent parts, each of which makes calls. -/
theorem calls_par {b : Blocking} (h : b.Valid) {X Y K : Nat} (hK : 0 < K) :
    ∃ ts, calls b X Y K = .par ts ∧ ts.length = ceilDiv X b.L3_X * ceilDiv Y b.L3_Y ∧
      ∀ t ∈ ts, t.leaves ≠ [] := by
  have hlv := lvOk h
  have e := iterateRev_level (dim := 3) (b := [b.L3_X, b.L3_Y, b.L3_K_STEP])
    (f := [true, true, false]) (c := ([b.L2_X, b.L2_Y, b.L2_K_STEP], [false, false, false]))
    (rest := [(final b, [false, false, false])]) (mn := [0, 0, 0]) (mx := [X, Y, K]) rfl rfl rfl rfl
    (forall_three h.x3 h.y3 h.k3)
    (forall_three (P := fun d => [0, 0, 0].getD d 0 ≤ [X, Y, K].getD d 0) (Nat.zero_le _)
      (Nat.zero_le _) (Nat.zero_le _))
  refine ⟨_, e, ?_, ?_⟩
  · simp [redDs, lvDims, ext, List.range_succ]
  · intro t ht
    obtain ⟨n1, _, rfl⟩ := List.mem_map.1 ht
    rw [leaves_seq]
    generalize hfs : lvDims 3 [0, 0, 0] [X, Y, K] [b.L3_X, b.L3_Y, b.L3_K_STEP]
      [true, true, false] = fs
    have hlen : (blockPos fs n1 0).length = 3 := by
      unfold blockPos
      rw [pos_length]
      have := congrArg List.length (serDs_steps fs (pos (redDs fs) (min n1 (total (redDs fs) - 1))))
      rw [List.length_map, List.length_map] at this
      rw [this, ← hfs]; simp [lvDims]
    have hcnt : 0 < (((fs.filter fun f => !f.2).map (·.1)).map ext).prod := by
      rw [← hfs]
      simpa [lvDims, ext, List.range_succ] using
        lt_ceilDiv' (t := 0) h.k3 (by omega)
    have hmem : blockPos fs n1 0 ∈ (iterateRev 3
        [([b.L2_X, b.L2_Y, b.L2_K_STEP], [false, false, false]), (final b, [false, false, false])]
        (blockPos fs n1 0) ((List.range 3).map fun d => (blockPos fs n1 0).getD d 0 +
          [b.L3_X, b.L3_Y, b.L3_K_STEP].getD d 0)).leaves := by
      cases hlv with
      | cons _ _ hpos _ _ hrest =>
        refine ((iterateRev_spec (f0 := [false, false, false])
          (forall_three (P := fun d => 0 < (final b).getD d 0) h.x1 h.y1 h.k1) rfl _ hrest
          (blockPos fs n1 0) _ hlen (by simp)
          (fun d hd => by rw [getD_map_range _ _ _ hd]; omega)).2.2 _).2 ⟨rfl, fun d hd => ?_⟩
        rw [hlen] at hd
        rw [bound_block (lvOk h) d hd]
        exact ⟨0, by omega, by have := hpos d hd; omega⟩
    intro hnil
    rw [List.flatMap_map, List.flatMap_eq_nil_iff] at hnil
    have := hnil 0 (List.mem_range.2 hcnt)
    rw [this] at hmem
    cases hmem

theorem race {b : Blocking} (h : b.Valid) {QX QY QK : Nat} {At Bp : Array α}
    {f g : Nat → Nat → α} (hX : b.L3_X ∣ QX * b.L1_X) (hY : b.L3_Y ∣ QY * b.L1_Y)
    (hK : b.L3_K_STEP ∣ QK * b.L1_K_STEP) (hK0 : 0 < QK * b.L1_K_STEP)
    (h2 : 2 ≤ ceilDiv (QX * b.L1_X) b.L3_X * ceilDiv (QY * b.L1_Y) b.L3_Y)
    (hA : HoldsTiled At QK QX b.L1_K_STEP b.L1_X (fun k i => f i k))
    (hB : HoldsTiled Bp QK QY b.L1_K_STEP b.L1_Y g) (m : Mem α) (hm : m.flag 0 = true) :
    ∃ m' t', PSteps m
      (tree b (pol b) (QX * b.L1_X) (QY * b.L1_Y) (QK * b.L1_K_STEP) At Bp) m' t' ∧
        RaceOn (.flag 0) t' := by
  obtain ⟨hg, _, hmem⟩ := calls_spec h hX hY hK
  obtain ⟨ts, e, hl, hne⟩ := calls_par h hK0
  rw [tree_eq, e]
  rw [e] at hg hmem
  rw [← hl] at h2
  obtain ⟨i, hi, j, hj, hr⟩ := hg.reach_two (body b (QX * b.L1_X) (QY * b.L1_Y) At Bp)
    (show (0 : Nat) ≠ 1 by decide) (List.getElem?_eq_getElem (show 0 < ts.length by omega))
    (List.getElem?_eq_getElem (show 1 < ts.length by omega))
    (hne _ (List.getElem_mem _)) (hne _ (List.getElem_mem _))
  obtain ⟨m1, hs1, hf1⟩ := (call_does (A := false) h hA hB ((hmem i).1 hi)).reach
    (fun _ => clearFirst) m
  obtain ⟨m2, hs2, hf2⟩ := (call_does (A := false) h hA hB ((hmem j).1 hj)).reach
    (fun _ => clearFirst) m1
  have hs1' : PSteps m (.act (body b (QX * b.L1_X) (QY * b.L1_Y) At Bp i)) m1
      (.act (.wrFlag 0 false (.ret ()))) := by
    refine hs1.trans (.step .rdFlag ?_)
    rw [hf1, hm, if_pos rfl]
    exact .refl
  obtain ⟨t', hs, hrace⟩ := hr m m1 m2 _ _ hs1' hs2
  exact ⟨m2, t', hs, hrace _ _ .wrFlag .rdFlag⟩

theorem race_only_flag {b : Blocking} (h : b.Valid) {QX QY QK : Nat} {At Bp : Array α}
    {f g : Nat → Nat → α} (hX : b.L3_X ∣ QX * b.L1_X) (hY : b.L3_Y ∣ QY * b.L1_Y)
    (hK : b.L3_K_STEP ∣ QK * b.L1_K_STEP)
    (hA : HoldsTiled At QK QX b.L1_K_STEP b.L1_X (fun k i => f i k))
    (hB : HoldsTiled Bp QK QY b.L1_K_STEP b.L1_Y g) {m m' : Mem α} {t' : Tree α}
    (hs : PSteps m (tree b (pol b) (QX * b.L1_X) (QY * b.L1_Y) (QK * b.L1_K_STEP) At Bp) m' t')
    (i : Nat) : ¬ RaceOn (.cell i) t' :=
  (tree_does h hX hY hK hA hB).no_race_cell hs i

theorem calls_serial {b : Blocking} (h : b.Valid) {X Y K : Nat}
    (hc : ceilDiv X b.L3_X * ceilDiv Y b.L3_Y ≤ 1) : (calls b X Y K).Serial := by
  have e := iterateRev_level (dim := 3) (b := [b.L3_X, b.L3_Y, b.L3_K_STEP])
    (f := [true, true, false]) (c := ([b.L2_X, b.L2_Y, b.L2_K_STEP], [false, false, false]))
    (rest := [(final b, [false, false, false])]) (mn := [0, 0, 0]) (mx := [X, Y, K]) rfl rfl rfl rfl
    (forall_three h.x3 h.y3 h.k3)
    (forall_three (P := fun d => [0, 0, 0].getD d 0 ≤ [X, Y, K].getD d 0) (Nat.zero_le _)
      (Nat.zero_le _) (Nat.zero_le _))
  unfold calls levels
  rw [List.cons_append, List.singleton_append, e]
  refine .par ?_ fun t ht => ?_
  · simpa [redDs, lvDims, ext, List.range_succ] using hc
  obtain ⟨n1, _, rfl⟩ := List.mem_map.1 ht
  refine .seq fun t ht => ?_
  obtain ⟨n2, _, rfl⟩ := List.mem_map.1 ht
  have hp := l2_pos h
  generalize hfs : lvDims 3 [0, 0, 0] [X, Y, K] [b.L3_X, b.L3_Y, b.L3_K_STEP]
      [true, true, false] = fs
  have hlen : (blockPos fs n1 n2).length = 3 := by
    unfold blockPos
    rw [pos_length]
    have := congrArg List.length (serDs_steps fs (pos (redDs fs) (min n1 (total (redDs fs) - 1))))
    rw [List.length_map, List.length_map] at this
    rw [this, ← hfs]; simp [lvDims]
  rw [iterateRev_level (b := [b.L2_X, b.L2_Y, b.L2_K_STEP]) hlen (by simp) rfl rfl
    (forall_three hp.1 hp.2.1 hp.2.2)
    (fun d hd => by rw [getD_map_range _ _ _ hd]; omega)]
  refine .par ?_ fun t ht => ?_
  · simp [redDs, lvDims, List.range_succ]
  obtain ⟨n3, _, rfl⟩ := List.mem_map.1 ht
  refine .seq fun t ht => ?_
  obtain ⟨n4, _, rfl⟩ := List.mem_map.1 ht
  rw [iterateRev, iterateRevBy]
  split
  · exact .fail
  · exact execute_looped_serial _ _ _ _ _ _

end Verif.Combined
