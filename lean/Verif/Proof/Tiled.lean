import Verif.SpecTiled
import Verif.Proof.Kernel
import Verif.Proof.Points
/-
Helper lemmas about the code shared by combined.cpp and kernel_tiled.cpp.
-/
set_option linter.unusedSectionVars false
namespace Verif.Tiled
open IndexIterator
variable {α : Type} [Arith α]

/-! ### loops that fill a vector -/

omit [Arith α] in
/-- Updates of two nested loops. -/
def nest2 (m n : Nat) (us : Nat → Nat → List (Upd α)) : List (Upd α) :=
  (steps 0 m 1).flatMap fun i => (steps 0 n 1).flatMap fun j => us i j

/-- Updates of four nested loops. -/
def nest4 (m n m' n' : Nat) (us : Nat → Nat → Nat → Nat → List (Upd α)) : List (Upd α) :=
  nest2 m n fun i j => nest2 m' n' fun r c => us i j r c

omit [Arith α] in
theorem mem_nest2 {m n : Nat} {us : Nat → Nat → List (Upd α)} {u : Upd α} :
    u ∈ nest2 m n us ↔ ∃ i, i < m ∧ ∃ j, j < n ∧ u ∈ us i j := by
  simp only [nest2, List.mem_flatMap, steps_one, List.mem_range]

theorem mem_nest4 {m n m' n' : Nat} {us : Nat → Nat → Nat → Nat → List (Upd α)} {u : Upd α} :
    u ∈ nest4 m n m' n' us ↔
      ∃ i, i < m ∧ ∃ j, j < n ∧ ∃ r, r < m' ∧ ∃ c, c < n' ∧ u ∈ us i j r c := by
  simp only [nest4, mem_nest2]

omit [Arith α] in
theorem nest2_cell {m n : Nat} {us : Nat → Nat → List (Upd α)} {p i0 j0 : Nat} (hi : i0 < m)
    (hj : j0 < n) (h : ∀ i, i < m → ∀ j, j < n → ∀ u ∈ us i j, u.1 = p → i = i0 ∧ j = j0) (x : α) :
    cellFold (nest2 m n us) p x = cellFold (us i0 j0) p x := by
  unfold nest2
  rw [steps_one, steps_one,
    cellFold_flatMap_unique List.nodup_range (i0 := i0) (List.mem_range.2 hi),
    cellFold_flatMap_unique List.nodup_range (i0 := j0) (List.mem_range.2 hj)]
  · exact fun j hj hne u hu he => hne (h i0 hi j (List.mem_range.1 hj) u hu he).2
  · intro i hi hne u hu he
    obtain ⟨j, hj, hu⟩ := List.mem_flatMap.1 hu
    exact hne (h i (List.mem_range.1 hi) j (List.mem_range.1 hj) u hu he).1

theorem nest4_cell {m n m' n' : Nat} {us : Nat → Nat → Nat → Nat → List (Upd α)}
    {p i0 j0 r0 c0 : Nat} (hi : i0 < m) (hj : j0 < n) (hr : r0 < m') (hc : c0 < n')
    (h : ∀ i, i < m → ∀ j, j < n → ∀ r, r < m' → ∀ c, c < n' → ∀ u ∈ us i j r c, u.1 = p →
      i = i0 ∧ j = j0 ∧ r = r0 ∧ c = c0) (x : α) :
    cellFold (nest4 m n m' n' us) p x = cellFold (us i0 j0 r0 c0) p x := by
  unfold nest4
  rw [nest2_cell hi hj, nest2_cell hr hc]
  · exact fun r hr c hc u hu he => (h i0 hi j0 hj r hr c hc u hu he).2.2
  · intro i hi j hj u hu he
    obtain ⟨r, hr, c, hc, hu⟩ := mem_nest2.1 hu
    have := h i hi j hj r hr c hc u hu he
    exact ⟨this.1, this.2.1⟩

omit [Arith α] in
theorem nest2_does {m n : Nat} {body : Nat → Nat → Array α → M (Array α)}
    {us : Nat → Nat → List (Upd α)}
    (h : ∀ i, i < m → ∀ j, j < n → MDoes (body i j) (us i j)) :
    MDoes (fun a => forStep 0 m 1 a fun i a => forStep 0 n 1 a fun j a => body i j a)
      (nest2 m n us) := by
  refine MDoes.forStep (by decide) fun i hi => MDoes.forStep (by decide) fun j hj => ?_
  rw [steps_one, List.mem_range] at hi hj
  exact h i hi j hj

theorem nest4_does {m n m' n' : Nat} {body : Nat → Nat → Nat → Nat → Array α → M (Array α)}
    {us : Nat → Nat → Nat → Nat → List (Upd α)}
    (h : ∀ i, i < m → ∀ j, j < n → ∀ r, r < m' → ∀ c, c < n' →
      MDoes (body i j r c) (us i j r c)) :
    MDoes (fun a => forStep 0 m 1 a fun i a => forStep 0 n 1 a fun j a =>
      forStep 0 m' 1 a fun r a => forStep 0 n' 1 a fun c a => body i j r c a)
      (nest4 m n m' n' us) :=
  nest2_does fun i hi j hj => nest2_does fun r hr c hc => h i hi j hj r hr c hc

theorem MDoes.read {x : M α} {v : α} {f : α → Array α → M (Array α)} {us} (hx : x = .ok v)
    (hf : MDoes (f v) us) : MDoes (fun a => x >>= fun v => f v a) us := by
  intro a ha
  rw [hx]
  exact hf a ha

/-! ### tile layout -/

theorem tpos_eq {T R L a Q b r c : Nat} (hT : T = R * L) :
    T * (a * Q + b) + r * L + c = (a * Q + b) * (R * L) + (r * L + c) := by
  rw [hT, Nat.mul_comm (R * L), Nat.add_assoc]

theorem tpos_inj {T R L Q a b r c a' b' r' c' : Nat} (hT : T = R * L) (hb : b < Q) (hr : r < R)
    (hc : c < L) (hb' : b' < Q) (hr' : r' < R) (hc' : c' < L)
    (h : T * (a * Q + b) + r * L + c = T * (a' * Q + b') + r' * L + c') :
    a = a' ∧ b = b' ∧ r = r' ∧ c = c' := by
  rw [tpos_eq hT, tpos_eq hT] at h
  obtain ⟨h1, h2⟩ := idx_inj (idx_lt hr hc) (idx_lt hr' hc') h
  obtain ⟨h3, h4⟩ := idx_inj hb hb' h1
  obtain ⟨h5, h6⟩ := idx_inj hc hc' h2
  exact ⟨h3, h4, h5, h6⟩

theorem tpos_lt {T R L Q a b r c P : Nat} (hT : T = R * L) (ha : a < P) (hb : b < Q) (hr : r < R)
    (hc : c < L) : T * (a * Q + b) + r * L + c < (P * R) * (Q * L) := by
  rw [tpos_eq hT]
  refine Nat.lt_of_lt_of_le (idx_lt (idx_lt ha hb) (idx_lt hr hc)) (Nat.le_of_eq ?_)
  rw [Nat.mul_mul_mul_comm]

/-- `v` stores a matrix of `P × Q` tiles of `R × L` elements, tile by tile. -/
def HoldsTiled (v : Array α) (P Q R L : Nat) (f : Nat → Nat → α) : Prop :=
  ∀ a, a < P → ∀ b, b < Q → ∀ r, r < R → ∀ c, c < L →
    v[(R * L) * (a * Q + b) + r * L + c]? = some (f (a * R + r) (b * L + c))

/-! ### padding -/

theorem padOf_eq {N L : Nat} (h : 0 < L) : N + padOf N L = ceilDiv N L * L := by
  unfold padOf ceilDiv
  have h1 := Nat.mod_lt N h
  have h2 := Nat.div_add_mod N L
  rw [Nat.mul_comm] at h2
  by_cases h0 : N % L = 0
  · rw [if_pos (by omega)]
    have : (N + (L - 1)) / L = N / L := by
      conv_lhs => rw [← h2, h0, Nat.add_zero]
      rw [idx_div (by omega)]
    have e : N + L - 1 = N + (L - 1) := by omega
    rw [e, this]; omega
  · rw [if_neg (by omega)]
    have : (N + L - 1) / L = N / L + 1 := by
      have e : N + L - 1 = (N / L + 1) * L + (N % L - 1) := by
        rw [Nat.add_mul]; omega
      rw [e, idx_div (by omega)]
    rw [this, Nat.add_mul]; omega

theorem le_padded {N L : Nat} (h : 0 < L) : N ≤ ceilDiv N L * L := by
  rw [← padOf_eq h]; exact Nat.le_add_right _ _

theorem verify_ok {b : Blocking} (h : b.Valid) : verify_blocking_setup b = .ok () := by
  unfold verify_blocking_setup
  have hm : ∀ {m n : Nat}, m ∣ n → n % m = 0 := fun h => Nat.mod_eq_zero_of_dvd h
  simp [hm h.x21, hm h.y21, hm h.k21, hm h.x32, hm h.y32, hm h.k32]

/-- The padded sizes. -/
def X (b : Blocking) (N : Nat) : Nat := ceilDiv N b.L3_X * b.L3_X
def Y (b : Blocking) (N : Nat) : Nat := ceilDiv N b.L3_Y * b.L3_Y
def K (b : Blocking) (N : Nat) : Nat := ceilDiv N b.L3_K_STEP * b.L3_K_STEP

theorem fill_ok {N R C : Nat} {body : Nat → Nat → Array α → M (Array α)} {f : Nat → Nat → α}
    {pos : Nat → Nat → Nat × Nat} (hN : N ≤ R) (hN' : N ≤ C)
    (hpos : ∀ i j, i < N → j < N → (pos i j).1 < N ∧ (pos i j).2 < N)
    (hinv : ∀ i j, i < N → j < N → pos (pos i j).1 (pos i j).2 = (i, j))
    (hb : ∀ i, i < N → ∀ j, j < N →
      MDoes (body i j) [((pos i j).1 * C + (pos i j).2, fun _ => f (pos i j).1 (pos i j).2)]) :
    (forStep 0 N 1 (zeros (R * C)) fun i a => forStep 0 N 1 a fun j a => body i j a) =
      .ok (rect R C (pad N f)) := by
  have hd := nest2_does hb (zeros (R * C)) (fun u hu => by
    obtain ⟨i, hi, j, hj, hu⟩ := mem_nest2.1 hu
    rw [List.mem_singleton] at hu
    subst hu
    have := hpos i j hi hj
    rw [zeros_size]
    exact idx_lt (by omega) (by omega))
  refine hd.trans (congrArg Except.ok ?_)
  refine applyA_rect (by simp) (zeros_holds R C) fun i hi j hj => ?_
  unfold pad
  split
  · next h =>
    have hp := hpos i j h.1 h.2
    rw [nest2_cell hp.1 hp.2]
    · simp [hinv i j h.1 h.2]
    · intro i' hi' j' hj' u hu he
      rw [List.mem_singleton] at hu
      subst hu
      have hp' := hpos i' j' hi' hj'
      obtain ⟨e1, e2⟩ := idx_inj (show (pos i' j').2 < C by omega) hj he
      have := hinv i' j' hi' hj'
      rw [e1, e2] at this
      rw [this]; exact ⟨rfl, rfl⟩
  · next h =>
    refine cellFold_none fun u hu he => h ?_
    obtain ⟨i', hi', j', hj', hu⟩ := mem_nest2.1 hu
    rw [List.mem_singleton] at hu
    subst hu
    have hp' := hpos i' j' hi' hj'
    obtain ⟨e1, e2⟩ := idx_inj (show (pos i' j').2 < C by omega) hj he
    omega

theorem setup_ok {b : Blocking} (h : b.Valid) {N : Nat} {A B : Array α} {f g : Nat → Nat → α}
    (hA : Holds A N N f) (hB : Holds B N N g) :
    setup b N A B = .ok ⟨X b N, Y b N, K b N, rect (X b N) (K b N) (pad N f),
      rect (K b N) (Y b N) (pad N g)⟩ := by
  unfold setup
  simp only [padOf_eq h.x3, padOf_eq h.y3, padOf_eq h.k3]
  have e1 := fill_ok (N := N) (R := X b N) (C := K b N) (f := f) (pos := fun i j => (i, j))
    (body := fun x k A' => rdAt A (x * N + k) >>= fun v => wrAt A' (x * K b N + k) v)
    (le_padded h.x3) (le_padded h.k3) (fun _ _ h h' => ⟨h, h'⟩) (fun _ _ _ _ => rfl)
    (fun i hi j hj => MDoes.read (hA.rdAt hi hj) MDoes.wrAt)
  have e2 := fill_ok (N := N) (R := K b N) (C := Y b N) (f := g) (pos := fun i j => (j, i))
    (body := fun y k B' => rdAt B (k * N + y) >>= fun v => wrAt B' (k * Y b N + y) v)
    (le_padded h.k3) (le_padded h.y3) (fun _ _ h h' => ⟨h', h⟩) (fun _ _ _ _ => rfl)
    (fun i hi j hj => MDoes.read (hB.rdAt hj hi) MDoes.wrAt)
  rw [verify_ok h, M_bind_ok]
  refine (congrArg (fun x => x >>= _) e1).trans ?_
  rw [M_bind_ok]
  exact (congrArg (fun x => x >>= _) e2).trans rfl

/-- Four nested loops that fill a vector tile by tile. -/
theorem tile_ok {P Q R L n : Nat} {body : Nat → Nat → Nat → Nat → Array α → M (Array α)}
    {f : Nat → Nat → α} (hn : n = (P * R) * (Q * L))
    (hb : ∀ j, j < Q → ∀ i, i < P → ∀ c, c < L → ∀ r, r < R →
      MDoes (body j i c r) [((L * R) * (i * Q + j) + r * L + c, fun _ => f (i * R + r) (j * L + c))]) :
    ∃ v : Array α, (forStep 0 Q 1 (zeros n) fun j a => forStep 0 P 1 a fun i a =>
      forStep 0 L 1 a fun c a => forStep 0 R 1 a fun r a => body j i c r a) = .ok v ∧
      v.size = n ∧ HoldsTiled v P Q R L f := by
  have hT : L * R = R * L := Nat.mul_comm L R
  have hd := nest4_does hb (zeros n) (fun u hu => by
    obtain ⟨j, hj, i, hi, c, hc, r, hr, hu⟩ := mem_nest4.1 hu
    rw [List.mem_singleton] at hu
    subst hu
    rw [zeros_size, hn]
    exact tpos_lt hT hi hj hr hc)
  refine ⟨_, hd, by simp, fun i hi j hj r hr c hc => ?_⟩
  have hlt : (R * L) * (i * Q + j) + r * L + c < n := by
    rw [hn]; exact tpos_lt rfl hi hj hr hc
  have hz : (zeros n : Array α)[(R * L) * (i * Q + j) + r * L + c]? = some Arith.zero := by
    simp [zeros, hlt]
  rw [applyA_get, hz, Option.map_some, nest4_cell hj hi hc hr]
  · simp [hT]
  · intro j' hj' i' hi' c' hc' r' hr' u hu he
    rw [List.mem_singleton] at hu
    subst hu
    rw [hT] at he
    obtain ⟨h1, h2, h3, h4⟩ := tpos_inj rfl hj' hr' hc' hj hr hc he
    exact ⟨h2, h1, h4, h3⟩

theorem tileA_ok {b : Blocking} {p : Padded α} {f : Nat → Nat → α} {P Q : Nat}
    (hX : p.X_size = Q * b.L1_X) (hK : p.K_size = P * b.L1_K_STEP) (hx : 0 < b.L1_X)
    (hk : 0 < b.L1_K_STEP) (hA : Holds p.A p.X_size p.K_size f) :
    ∃ v, tileA b p = .ok v ∧ v.size = p.K_size * p.X_size ∧
      HoldsTiled v P Q b.L1_K_STEP b.L1_X (fun k i => f i k) := by
  have e1 : p.X_size / b.L1_X = Q := by rw [hX, Nat.mul_div_cancel _ hx]
  have e2 : p.K_size / b.L1_K_STEP = P := by rw [hK, Nat.mul_div_cancel _ hk]
  unfold tileA
  rw [e1, e2]
  refine tile_ok (by rw [hX, hK]) fun j hj i hi c hc r hr => ?_
  refine MDoes.read (hA.rd ?_ ?_) MDoes.wr
  · rw [hX]; exact idx_lt hj hc
  · rw [hK]; exact idx_lt hi hr

theorem tileB_ok {b : Blocking} {p : Padded α} {f : Nat → Nat → α} {P Q : Nat}
    (hY : p.Y_size = Q * b.L1_Y) (hK : p.K_size = P * b.L1_K_STEP) (hy : 0 < b.L1_Y)
    (hk : 0 < b.L1_K_STEP) (hB : Holds p.B p.K_size p.Y_size f) :
    ∃ v, tileB b p = .ok v ∧ v.size = p.K_size * p.Y_size ∧
      HoldsTiled v P Q b.L1_K_STEP b.L1_Y f := by
  have e1 : p.Y_size / b.L1_Y = Q := by rw [hY, Nat.mul_div_cancel _ hy]
  have e2 : p.K_size / b.L1_K_STEP = P := by rw [hK, Nat.mul_div_cancel _ hk]
  unfold tileB
  rw [e1, e2]
  refine tile_ok (by rw [hY, hK]) fun j hj i hi c hc r hr => ?_
  refine MDoes.read (hB.rd ?_ ?_) MDoes.wr
  · rw [hK]; exact idx_lt hi hr
  · rw [hY]; exact idx_lt hj hc

/-! ### the register kernel -/

theorem loadAligned_ok {v : Array α} {i : Nat} {f : Nat → α} (hi : i % 4 = 0)
    (h : ∀ l, l < 4 → v[i + l]? = some (f l)) :
    loadAligned v i = .ok ⟨f 0, f 1, f 2, f 3⟩ := by
  unfold loadAligned
  have h0 := rd_ok (h 0 (by decide))
  rw [Nat.add_zero] at h0
  rw [h0, rd_ok (h 1 (by decide)), rd_ok (h 2 (by decide)), rd_ok (h 3 (by decide))]
  simp [hi]

/-- Updates of `addV`. -/
def updV (i : Nat) (acc : V4 α) : List (Upd α) :=
  [(i, fun x => Arith.add x acc.l0), (i + 1, fun x => Arith.add x acc.l1),
    (i + 2, fun x => Arith.add x acc.l2), (i + 3, fun x => Arith.add x acc.l3)]

theorem addV_does {A} {n i : Nat} (h : i + 3 < n) (acc : V4 α) :
    Act.Does A (addV n i acc) () (updV i acc) := by
  intro F hF c
  have f0 : F (i) := hF (i, fun x => Arith.add x acc.l0) (by simp [updV])
  have f1 : F (i + 1) := hF (i + 1, fun x => Arith.add x acc.l1) (by simp [updV])
  have f2 : F (i + 2) := hF (i + 2, fun x => Arith.add x acc.l2) (by simp [updV])
  have f3 : F (i + 3) := hF (i + 3, fun x => Arith.add x acc.l3) (by simp [updV])
  unfold addV Act.read Act.write
  simp only [if_pos (show i < n by omega), if_pos (show i + 1 < n by omega),
    if_pos (show i + 2 < n by omega), if_pos h]
  refine ⟨f0, f1, f2, f3, f0, f1, f2, f3, trivial, ?_⟩
  funext p
  simp only [applyF, updV, cellFold_cons, cellFold_nil]
  by_cases h0 : p = i
  · subst h0; simp
  by_cases h1 : p = i + 1
  · subst h1; simp
  by_cases h2 : p = i + 2
  · subst h2; simp
  by_cases h3 : p = i + 3
  · subst h3; simp
  rw [if_neg (Ne.symm h0), if_neg (Ne.symm h1), if_neg (Ne.symm h2), if_neg (Ne.symm h3),
    if_neg h3, if_neg h2, if_neg h1, if_neg h0]

/-- Four neighbouring elements of row `r`. -/
def vec (d : Nat → Nat → α) (r c : Nat) : V4 α := ⟨d r c, d r (c + 1), d r (c + 2), d r (c + 3)⟩

theorem mac_fold (u : Nat → α) (w : Nat → Nat → α) (c : Nat) (l : List Nat) :
    l.foldl (fun acc k => V4.mac acc (V4.splat (u k)) (vec w k c)) (V4.splat Arith.zero) =
      vec (fun _ c => dotFrom Arith.zero l u fun k => w k c) 0 c := by
  generalize hF : List.foldl _ _ _ = F
  have hF' : F = ⟨F.l0, F.l1, F.l2, F.l3⟩ := rfl
  rw [hF', vec]
  congr
  · rw [← hF]; exact Kernel.foldl_proj V4.l0 (fun _ _ => rfl) _ _
  · rw [← hF]; exact Kernel.foldl_proj V4.l1 (fun _ _ => rfl) _ _
  · rw [← hF]; exact Kernel.foldl_proj V4.l2 (fun _ _ => rfl) _ _
  · rw [← hF]; exact Kernel.foldl_proj V4.l3 (fun _ _ => rfl) _ _

/-- The accumulators at the end of the loop. -/
def accs (d : Nat → Nat → α) (x y : Nat) : Acc α :=
  ⟨vec d x y,
    vec d (x + 1) y,
    vec d (x + 2) y,
    vec d (x + 3) y,
    vec d (x + 4) y,
    vec d x (y + 4),
    vec d (x + 1) (y + 4),
    vec d (x + 2) (y + 4),
    vec d (x + 3) (y + 4),
    vec d (x + 4) (y + 4)⟩

theorem inner_ok {b : Blocking} {A B : Array α} {ba bb x y : Nat} {f g : Nat → Nat → α}
    (hA : ∀ k, k < b.L1_K_STEP → ∀ i, i < b.L1_X → A[ba + k * b.L1_X + i]? = some (f i k))
    (hB : ∀ k, k < b.L1_K_STEP → ∀ j, j < b.L1_Y → B[bb + k * b.L1_Y + j]? = some (g k j))
    (hb : bb % 4 = 0) (h4 : 4 ∣ b.L1_Y) (hx : x + 4 < b.L1_X) (hy : y + 7 < b.L1_Y)
    (hy4 : y % 4 = 0) :
    inner b A B ba bb x y =
      .ok (accs (fun i j => dot b.L1_K_STEP (fun k => f i k) (fun k => g k j)) x y) := by
  have hal : ∀ k, (bb + k * b.L1_Y + y) % 4 = 0 := by
    intro k
    obtain ⟨q, hq⟩ := h4
    have : k * b.L1_Y = 4 * (k * q) := by rw [hq]; ac_rfl
    rw [this]; omega
  have hld1 : ∀ k, k < b.L1_K_STEP → loadAligned B (bb + k * b.L1_Y + y) = .ok (vec g k y) := by
    intro k hk
    refine loadAligned_ok (f := fun l => g k (y + l)) (hal k) fun l hl => ?_
    rw [Nat.add_assoc]; exact hB k hk _ (by omega)
  have hld2 : ∀ k, k < b.L1_K_STEP →
      loadAligned B (bb + k * b.L1_Y + (y + 4)) = .ok (vec g k (y + 4)) := by
    intro k hk
    refine loadAligned_ok (f := fun l => g k (y + 4 + l)) ?_ fun l hl => ?_
    · have := hal k; omega
    · rw [Nat.add_assoc]; exact hB k hk _ (by omega)
  have hra : ∀ k, k < b.L1_K_STEP → ∀ i, i < 5 →
      rd A (ba + k * b.L1_X + (x + i)) = .ok (f (x + i) k) := fun k hk i hi =>
    rd_ok (hA k hk _ (by omega))
  unfold inner
  rw [forStep_ok (g := fun s k => (⟨
      s.acc_11.mac (V4.splat (f x k)) (vec g k y),
      s.acc_21.mac (V4.splat (f (x + 1) k)) (vec g k y),
      s.acc_31.mac (V4.splat (f (x + 2) k)) (vec g k y),
      s.acc_41.mac (V4.splat (f (x + 3) k)) (vec g k y),
      s.acc_51.mac (V4.splat (f (x + 4) k)) (vec g k y),
      s.acc_12.mac (V4.splat (f x k)) (vec g k (y + 4)),
      s.acc_22.mac (V4.splat (f (x + 1) k)) (vec g k (y + 4)),
      s.acc_32.mac (V4.splat (f (x + 2) k)) (vec g k (y + 4)),
      s.acc_42.mac (V4.splat (f (x + 3) k)) (vec g k (y + 4)),
      s.acc_52.mac (V4.splat (f (x + 4) k)) (vec g k (y + 4))⟩ : Acc α))
    (by decide)]
  · refine congrArg Except.ok ?_
    rw [steps_one]
    generalize hF : List.foldl _ _ _ = F
    have hF' : F = ⟨F.acc_11, F.acc_21, F.acc_31, F.acc_41, F.acc_51, F.acc_12, F.acc_22, F.acc_32, F.acc_42, F.acc_52⟩ := rfl
    rw [hF', accs]
    congr
    · rw [← hF]; exact (Kernel.foldl_proj Acc.acc_11 (fun _ _ => rfl) _ _).trans (mac_fold _ g _ _)
    · rw [← hF]; exact (Kernel.foldl_proj Acc.acc_21 (fun _ _ => rfl) _ _).trans (mac_fold _ g _ _)
    · rw [← hF]; exact (Kernel.foldl_proj Acc.acc_31 (fun _ _ => rfl) _ _).trans (mac_fold _ g _ _)
    · rw [← hF]; exact (Kernel.foldl_proj Acc.acc_41 (fun _ _ => rfl) _ _).trans (mac_fold _ g _ _)
    · rw [← hF]; exact (Kernel.foldl_proj Acc.acc_51 (fun _ _ => rfl) _ _).trans (mac_fold _ g _ _)
    · rw [← hF]; exact (Kernel.foldl_proj Acc.acc_12 (fun _ _ => rfl) _ _).trans (mac_fold _ g _ _)
    · rw [← hF]; exact (Kernel.foldl_proj Acc.acc_22 (fun _ _ => rfl) _ _).trans (mac_fold _ g _ _)
    · rw [← hF]; exact (Kernel.foldl_proj Acc.acc_32 (fun _ _ => rfl) _ _).trans (mac_fold _ g _ _)
    · rw [← hF]; exact (Kernel.foldl_proj Acc.acc_42 (fun _ _ => rfl) _ _).trans (mac_fold _ g _ _)
    · rw [← hF]; exact (Kernel.foldl_proj Acc.acc_52 (fun _ _ => rfl) _ _).trans (mac_fold _ g _ _)
  · intro k hk s
    rw [steps_one, List.mem_range] at hk
    rw [hld1 k hk, hld2 k hk, hra k hk 0 (by decide), hra k hk 1 (by decide),
      hra k hk 2 (by decide), hra k hk 3 (by decide), hra k hk 4 (by decide)]
    rfl

/-- Positions of the register block in the order they are stored. -/
def regs : List (Nat × Nat) :=
  [(0, 0), (1, 0), (2, 0), (3, 0), (4, 0), (0, 4), (1, 4), (2, 4), (3, 4), (4, 4)]

/-- Updates of one register block of a tile starting at `base` with rows of length `L`. -/
def regUpd (L base : Nat) (d : Nat → Nat → α) (x y : Nat) : List (Upd α) :=
  regs.flatMap fun q => (List.range 4).map fun l =>
    (base + (x + q.1) * L + (y + q.2) + l, fun v => Arith.add v (d (x + q.1) (y + q.2 + l)))

/-- Updates of one tile. -/
def tileUpd (b : Blocking) (base : Nat) (d : Nat → Nat → α) : List (Upd α) :=
  (steps 0 b.L1_X X_REG).flatMap fun x => (steps 0 b.L1_Y Y_REG).flatMap fun y =>
    regUpd b.L1_Y base d x y

theorem mem_regUpd {L base x y : Nat} {d : Nat → Nat → α} {u : Upd α} (h : u ∈ regUpd L base d x y) :
    ∃ i j, i < 5 ∧ j < 8 ∧ u.1 = base + (x + i) * L + (y + j) := by
  obtain ⟨q, hq, hu⟩ := List.mem_flatMap.1 h
  obtain ⟨l, hl, rfl⟩ := List.mem_map.1 hu
  have hq' : q.1 < 5 ∧ q.2 ≤ 4 := (by decide : ∀ q ∈ regs, q.1 < 5 ∧ q.2 ≤ 4) q hq
  have := List.mem_range.1 hl
  exact ⟨q.1, q.2 + l, hq'.1, by omega, by rw [Nat.add_assoc (base + _), ← Nat.add_assoc y]⟩

theorem regUpd_cell {L base x y r c : Nat} {d : Nat → Nat → α} (hy : y + 7 < L) (hr : x ≤ r)
    (hr' : r < x + 5) (hc : y ≤ c) (hc' : c < y + 8) (v : α) :
    cellFold (regUpd L base d x y) (base + r * L + c) v = Arith.add v (d r c) := by
  unfold regUpd
  have hmem : ∀ q ∈ regs, q.1 < 5 ∧ (q.2 = 0 ∨ q.2 = 4) := by decide
  have hin : ∀ i h, i < 5 → (h = 0 ∨ h = 4) → (i, h) ∈ regs := by
    intro i h hi hh
    rcases hh with rfl | rfl <;> (revert i; decide)
  have hpos : ∀ q ∈ regs, ∀ l, l < 4 → base + (x + q.1) * L + (y + q.2) + l = base + r * L + c →
      x + q.1 = r ∧ y + q.2 + l = c := by
    intro q hq l hl he
    have := hmem q hq
    refine idx_inj (n := L) (i := x + q.1) (j := y + q.2 + l) (by omega) (by omega) ?_
    omega
  rw [cellFold_flatMap_unique (i0 := (r - x, if c < y + 4 then 0 else 4)) (by decide)
    (hin _ _ (by omega) (by split <;> simp)),
    cellFold_map_unique (i0 := c - y - if c < y + 4 then 0 else 4) List.nodup_range
    (List.mem_range.2 (by split <;> omega))]
  · show Arith.add v (d (x + (r - x)) _) = _
    congr 2
    · omega
    · show y + (if c < y + 4 then 0 else 4) + _ = _
      split <;> omega
  · have e1 : x + (r - x) = r := by omega
    have e2 : y + (if c < y + 4 then 0 else 4) + (c - y - if c < y + 4 then 0 else 4) = c := by
      split <;> omega
    show base + (x + (r - x)) * L + (y + if c < y + 4 then 0 else 4) + _ = _
    rw [e1]; omega
  · intro l hl hne he
    have := (hpos _ (hin (r - x) (if c < y + 4 then 0 else 4) (by omega) (by split <;> simp)) l
      (List.mem_range.1 hl) he).2
    omega
  · rintro ⟨i, h⟩ hq hne u hu he
    obtain ⟨l, hl, rfl⟩ := List.mem_map.1 hu
    have hl := List.mem_range.1 hl
    have := hpos _ hq l hl he
    have hm := hmem _ hq
    simp only at this hm
    apply hne
    have e1 : i = r - x := by omega
    have e2 : h = if c < y + 4 then 0 else 4 := by split <;> omega
    rw [e1, e2]

theorem mem_tileUpd {b : Blocking} (hv : b.Valid) {base : Nat} {d : Nat → Nat → α} {u : Upd α}
    (h : u ∈ tileUpd b base d) :
    ∃ r c, r < b.L1_X ∧ c < b.L1_Y ∧ u.1 = base + r * b.L1_Y + c := by
  obtain ⟨x, hx, h⟩ := List.mem_flatMap.1 h
  obtain ⟨y, hy, h⟩ := List.mem_flatMap.1 h
  obtain ⟨i, j, hi, hj, e⟩ := mem_regUpd h
  obtain ⟨t, ht, hx⟩ := (mem_steps (by decide)).1 hx
  obtain ⟨s, hs, hy⟩ := (mem_steps (by decide)).1 hy
  obtain ⟨q, hq⟩ := hv.xr
  obtain ⟨q', hq'⟩ := hv.yr
  simp only [X_REG, Y_REG] at ht hs
  exact ⟨x + i, y + j, by omega, by omega, e⟩

theorem tileUpd_cell {b : Blocking} (hv : b.Valid) {base r c : Nat} {d : Nat → Nat → α}
    (hr : r < b.L1_X) (hc : c < b.L1_Y) (v : α) :
    cellFold (tileUpd b base d) (base + r * b.L1_Y + c) v = Arith.add v (d r c) := by
  obtain ⟨q, hq⟩ := hv.xr
  obtain ⟨q', hq'⟩ := hv.yr
  have hin : ∀ x ∈ steps 0 b.L1_X X_REG, ∀ y ∈ steps 0 b.L1_Y Y_REG, ∀ i j, i < 5 → j < 8 →
      base + (x + i) * b.L1_Y + (y + j) = base + r * b.L1_Y + c → x = r / 5 * 5 ∧ y = c / 8 * 8 := by
    intro x hx y hy i j hi hj he
    obtain ⟨t, ht, hx⟩ := (mem_steps (by decide)).1 hx
    obtain ⟨s, hs, hy⟩ := (mem_steps (by decide)).1 hy
    simp only [X_REG, Y_REG] at ht hs
    obtain ⟨e1, e2⟩ := idx_inj (n := b.L1_Y) (i := x + i) (j := y + j) (i' := r) (j' := c)
      (by omega) hc (by omega)
    omega
  have hx0 : r / 5 * 5 ∈ steps 0 b.L1_X X_REG :=
    (mem_steps (by decide)).2 ⟨r / 5, by simp [X_REG], by omega⟩
  have hy0 : c / 8 * 8 ∈ steps 0 b.L1_Y Y_REG :=
    (mem_steps (by decide)).2 ⟨c / 8, by simp [Y_REG], by omega⟩
  unfold tileUpd
  rw [cellFold_flatMap_unique (i0 := r / 5 * 5) (steps_nodup (by decide)) hx0,
    cellFold_flatMap_unique (i0 := c / 8 * 8) (steps_nodup (by decide)) hy0,
    regUpd_cell (by omega) (by omega) (by omega) (by omega) (by omega)]
  · intro y hy hne u hu he
    obtain ⟨i, j, hi, hj, e⟩ := mem_regUpd hu
    exact hne (hin _ hx0 y hy i j hi hj (e ▸ he)).2
  · intro x hx hne u hu he
    obtain ⟨y, hy, hu⟩ := List.mem_flatMap.1 hu
    obtain ⟨i, j, hi, hj, e⟩ := mem_regUpd hu
    exact hne (hin x hx y hy i j hi hj (e ▸ he)).1

/-- Start of tile `(bx, by)` of the result. -/
def cbase (b : Blocking) (QY bx by' : Nat) : Nat := (b.L1_X * b.L1_Y) * (bx * QY + by')

/-- Dot product over block `bk` of the summation index. -/
def bsum (b : Blocking) (f g : Nat → Nat → α) (bk i j : Nat) : α :=
  dot b.L1_K_STEP (fun k => f i (bk * b.L1_K_STEP + k)) (fun k => g (bk * b.L1_K_STEP + k) j)

theorem block_does {A} {b : Blocking} (hv : b.Valid) {X Y QX QY QK : Nat} {At Bp : Array α}
    {f g : Nat → Nat → α} (hX : X = QX * b.L1_X) (hY : Y = QY * b.L1_Y)
    (hA : HoldsTiled At QK QX b.L1_K_STEP b.L1_X (fun k i => f i k))
    (hB : HoldsTiled Bp QK QY b.L1_K_STEP b.L1_Y g) {bx by' bk : Nat} (hbx : bx < QX)
    (hby : by' < QY) (hbk : bk < QK) :
    Act.Does A (block b X Y At Bp (bx * b.L1_X) (by' * b.L1_Y) (bk * b.L1_K_STEP)) ()
      (tileUpd b (cbase b QY bx by')
        (fun r c => bsum b f g bk (bx * b.L1_X + r) (by' * b.L1_Y + c))) := by
  have e1 : X / b.L1_X = QX := by rw [hX, Nat.mul_div_cancel _ hv.x1]
  have e2 : Y / b.L1_Y = QY := by rw [hY, Nat.mul_div_cancel _ hv.y1]
  unfold block
  simp only [Nat.mul_div_cancel _ hv.x1, Nat.mul_div_cancel _ hv.y1, Nat.mul_div_cancel _ hv.k1,
    e1, e2]
  obtain ⟨q, hq⟩ := hv.xr
  obtain ⟨q', hq'⟩ := hv.yr
  have hd4 : 4 ∣ b.L1_Y := ⟨2 * q', by omega⟩
  have hlt : ∀ i j, i < b.L1_X → j + 3 < b.L1_Y →
      cbase b QY bx by' + i * b.L1_Y + j + 3 < X * Y := by
    intro i j hi hj
    rw [hX, hY]
    exact tpos_lt rfl hbx hby hi hj
  refine Act.Does.forStep (by decide) fun x hx => Act.Does.forStep (by decide) fun y hy => ?_
  obtain ⟨t, ht, hx⟩ := (mem_steps (by decide)).1 hx
  obtain ⟨s, hs, hy⟩ := (mem_steps (by decide)).1 hy
  simp only [X_REG, Y_REG] at ht hs
  refine Act.Does.ofM_bind (inner_ok (f := fun i k => f (bx * b.L1_X + i) (bk * b.L1_K_STEP + k))
    (g := fun k j => g (bk * b.L1_K_STEP + k) (by' * b.L1_Y + j)) ?_ ?_ ?_ hd4 (by omega) (by omega)
    (by omega)) ?_
  · intro k hk i hi
    rw [Nat.mul_comm b.L1_X]
    exact hA bk hbk bx hbx k hk i hi
  · intro k hk j hj
    rw [Nat.mul_comm b.L1_Y]
    exact hB bk hbk by' hby k hk j hj
  · obtain ⟨z, hz⟩ := hd4
    rw [hz, Nat.mul_assoc, Nat.mul_assoc]; exact Nat.mul_mod_right 4 _
  · have key : ∀ i h, i < 5 → h ≤ 4 → ∀ acc : V4 α,
        Act.Does A (addV (X * Y) (cbase b QY bx by' + (x + i) * b.L1_Y + (y + h)) acc) ()
          (updV (cbase b QY bx by' + (x + i) * b.L1_Y + (y + h)) acc) := fun i h hi hh acc =>
      addV_does (hlt _ _ (by omega) (by omega)) acc
    exact (key 0 0 (by decide) (by decide) _).bind
      ((key 1 0 (by decide) (by decide) _).bind
      ((key 2 0 (by decide) (by decide) _).bind
      ((key 3 0 (by decide) (by decide) _).bind
      ((key 4 0 (by decide) (by decide) _).bind
      ((key 0 4 (by decide) (by decide) _).bind
      ((key 1 4 (by decide) (by decide) _).bind
      ((key 2 4 (by decide) (by decide) _).bind
      ((key 3 4 (by decide) (by decide) _).bind
      (key 4 4 (by decide) (by decide) _)))))))))

/-! ### extraction of the result -/

theorem extract_ok {b : Blocking} {N X Y QX QY : Nat} {C : Array α} {f : Nat → Nat → α}
    (hx : 0 < b.L1_X) (hy : 0 < b.L1_Y) (hX : X = QX * b.L1_X) (hY : Y = QY * b.L1_Y)
    (hNX : N ≤ X) (hNY : N ≤ Y) (hC : HoldsTiled C QX QY b.L1_X b.L1_Y f) :
    extract b N X Y C = .ok (rowMajor N f) := by
  have e1 : X / b.L1_X = QX := by rw [hX, Nat.mul_div_cancel _ hx]
  have e2 : Y / b.L1_Y = QY := by rw [hY, Nat.mul_div_cancel _ hy]
  unfold extract
  rw [e1, e2]
  have hd := nest4_does (m := QX) (n := QY) (m' := b.L1_X) (n' := b.L1_Y)
    (body := fun l1_x l1_y x y C_return =>
      if l1_x * b.L1_X + x < N ∧ l1_y * b.L1_Y + y < N then do
        let v ← rdAt C ((b.L1_X * b.L1_Y) * (l1_x * QY + l1_y) + x * b.L1_Y + y)
        wrAt C_return ((l1_x * b.L1_X + x) * N + (l1_y * b.L1_Y + y)) v
      else pure C_return)
    (us := fun i j r c => if i * b.L1_X + r < N ∧ j * b.L1_Y + c < N then
      [((i * b.L1_X + r) * N + (j * b.L1_Y + c), fun _ => f (i * b.L1_X + r) (j * b.L1_Y + c))]
      else [])
    (fun i hi j hj r hr c hc => by
      by_cases h : i * b.L1_X + r < N ∧ j * b.L1_Y + c < N
      · simp only [if_pos h]
        exact MDoes.read (rdAt_ok (hC i hi j hj r hr c hc)) MDoes.wrAt
      · simp only [if_neg h]
        intro a _; rfl)
    (zeros (N * N)) (fun u hu => by
      obtain ⟨i, hi, j, hj, r, hr, c, hc, hu⟩ := mem_nest4.1 hu
      split at hu
      · next h =>
        rw [List.mem_singleton] at hu
        subst hu
        rw [zeros_size]
        exact idx_lt h.1 h.2
      · cases hu)
  refine hd.trans (congrArg Except.ok ?_)
  refine applyA_rect (by simp) (zeros_holds N N) fun i hi j hj => ?_
  have hi' : i / b.L1_X * b.L1_X + i % b.L1_X = i := Nat.div_add_mod' i _
  have hj' : j / b.L1_Y * b.L1_Y + j % b.L1_Y = j := Nat.div_add_mod' j _
  rw [nest4_cell (i0 := i / b.L1_X) (j0 := j / b.L1_Y) (r0 := i % b.L1_X) (c0 := j % b.L1_Y)
    ((Nat.div_lt_iff_lt_mul hx).2 (by omega)) ((Nat.div_lt_iff_lt_mul hy).2 (by omega))
    (Nat.mod_lt _ hx) (Nat.mod_lt _ hy)]
  · simp only [hi', hj', if_pos (And.intro hi hj)]
    simp
  · intro i' hi1 j' hj1 r hr c hc u hu he
    split at hu
    · next h =>
      rw [List.mem_singleton] at hu
      subst hu
      obtain ⟨h1, h2⟩ := idx_inj h.2 hj he
      rw [← h1, ← h2]
      exact ⟨(idx_div hr).symm, (idx_div hc).symm, (idx_mod hr).symm, (idx_mod hc).symm⟩
    · cases hu

/-! ### sizes -/

theorem X_eq {b : Blocking} (h : b.Valid) (N : Nat) : ∃ Q, X b N = Q * b.L1_X := by
  obtain ⟨q, hq⟩ := Dvd.dvd.trans h.x21 h.x32
  exact ⟨ceilDiv N b.L3_X * q, by rw [X, hq]; ac_rfl⟩

theorem Y_eq {b : Blocking} (h : b.Valid) (N : Nat) : ∃ Q, Y b N = Q * b.L1_Y := by
  obtain ⟨q, hq⟩ := Dvd.dvd.trans h.y21 h.y32
  exact ⟨ceilDiv N b.L3_Y * q, by rw [Y, hq]; ac_rfl⟩

theorem K_eq {b : Blocking} (h : b.Valid) (N : Nat) : ∃ Q, K b N = Q * b.L1_K_STEP := by
  obtain ⟨q, hq⟩ := Dvd.dvd.trans h.k21 h.k32
  exact ⟨ceilDiv N b.L3_K_STEP * q, by rw [K, hq]; ac_rfl⟩

end Verif.Tiled
