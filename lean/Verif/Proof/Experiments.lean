import Verif.Model.Experiments
import Verif.Core.Errs
import Verif.Proof.Kernel
/-
Helper lemmas about the kernels of otherExperiments.
-/
set_option linter.unusedSectionVars false
namespace Verif.Experiments
open Kernel (foldl_proj)
variable {α : Type} [Arith α]

/-! ### results written block by block -/

/-- All updates of a block stay in the block. -/
def InBlock (n bs : Nat) (us : Nat → Nat → List (Upd α)) : Prop :=
  ∀ i ∈ steps 0 n bs, ∀ j ∈ steps 0 n bs, ∀ u ∈ us i j,
    ∃ r c, i ≤ r ∧ r < i + bs ∧ j ≤ c ∧ c < j + bs ∧ c < n ∧ u.1 = r * n + c

theorem mem_steps0 {n bs x : Nat} (h : 0 < bs) : x ∈ steps 0 n bs ↔ bs ∣ x ∧ x < n := by
  rw [mem_steps h]
  constructor
  · rintro ⟨t, rfl, h'⟩
    exact ⟨⟨t, by rw [Nat.zero_add, Nat.mul_comm]⟩, h'⟩
  · rintro ⟨⟨t, rfl⟩, h'⟩
    exact ⟨t, by rw [Nat.zero_add, Nat.mul_comm], h'⟩

/-- The multiple of `bs` below `r`. -/
theorem block_unique {bs x r : Nat} (hx : bs ∣ x) (h1 : x ≤ r) (h2 : r < x + bs) :
    x = r / bs * bs := by
  obtain ⟨t, rfl⟩ := hx
  have hb : 0 < bs := by omega
  have : r / bs = t := by
    rw [Nat.div_eq_of_lt_le]
    · rw [Nat.mul_comm]; omega
    · rw [Nat.add_mul, Nat.mul_comm t]; omega
  rw [this, Nat.mul_comm]

theorem div_mul_mem {n bs r : Nat} (hb : 0 < bs) (hr : r < n) : r / bs * bs ∈ steps 0 n bs := by
  rw [mem_steps0 hb]
  have := Nat.div_mul_le_self r bs
  exact ⟨Nat.dvd_mul_left _ _, by omega⟩

theorem lt_div_mul {bs : Nat} (r : Nat) (hb : 0 < bs) : r < r / bs * bs + bs := by
  have h1 := Nat.div_add_mod r bs
  have h2 := Nat.mod_lt r hb
  rw [Nat.mul_comm] at h1
  omega

theorem blocks_pairwise {n bs : Nat} (hb : 0 < bs) {us : Nat → Nat → List (Upd α)}
    (hin : InBlock n bs us) :
    (steps 0 n bs).Pairwise fun i i' =>
      ∀ u ∈ (steps 0 n bs).flatMap (us i), ∀ v ∈ (steps 0 n bs).flatMap (us i'), u.1 ≠ v.1 := by
  refine List.Pairwise.imp_of_mem ?_ (steps_nodup hb)
  intro i i' hi hi' hne u hu v hv he
  obtain ⟨j, hj, hu⟩ := List.mem_flatMap.1 hu
  obtain ⟨j', hj', hv⟩ := List.mem_flatMap.1 hv
  obtain ⟨r, c, h1, h2, -, -, h3, h4⟩ := hin i hi j hj u hu
  obtain ⟨r', c', h1', h2', -, -, h3', h4'⟩ := hin i' hi' j' hj' v hv
  have := (idx_inj h3 h3' (by rw [← h4, ← h4', he])).1
  subst this
  apply hne
  rw [block_unique ((mem_steps0 hb).1 hi).1 h1 h2, block_unique ((mem_steps0 hb).1 hi').1 h1' h2']

theorem blocks_result {n bs : Nat} (hb : 0 < bs) {us : Nat → Nat → List (Upd α)}
    (hin : InBlock n bs us) {G : Nat → Nat → α → α}
    (hcell : ∀ i ∈ steps 0 n bs, ∀ j ∈ steps 0 n bs, ∀ r c, i ≤ r → r < i + bs → j ≤ c →
      c < j + bs → r < n → c < n → ∀ x, cellFold (us i j) (r * n + c) x = G r c x)
    {C : Array α} {c0 : Nat → Nat → α} (hC : C.size = n * n) (hc : Holds C n n c0) :
    applyA ((steps 0 n bs).flatMap fun i => (steps 0 n bs).flatMap fun j => us i j) C =
      rect n n fun r c => G r c (c0 r c) := by
  refine applyA_rect hC hc fun r hr c hc' => ?_
  rw [cellFold_flatMap_unique (steps_nodup hb) (div_mul_mem hb hr),
    cellFold_flatMap_unique (steps_nodup hb) (div_mul_mem hb hc')]
  · exact hcell _ (div_mul_mem hb hr) _ (div_mul_mem hb hc') r c (Nat.div_mul_le_self _ _)
      (lt_div_mul r hb) (Nat.div_mul_le_self _ _) (lt_div_mul c hb) hr hc' _
  · intro j hj hne u hu he
    obtain ⟨r', c', -, -, h3, h4, h5, h6⟩ := hin _ (div_mul_mem hb hr) j hj u hu
    have := (idx_inj h5 hc' (by rw [← h6, he])).2
    subst this
    exact hne (block_unique ((mem_steps0 hb).1 hj).1 h3 h4)
  · intro i hi hne u hu he
    obtain ⟨j, hj, hu⟩ := List.mem_flatMap.1 hu
    obtain ⟨r', c', h1, h2, -, -, h5, h6⟩ := hin i hi j hj u hu
    have := (idx_inj h5 hc' (by rw [← h6, he])).1
    subst this
    exact hne (block_unique ((mem_steps0 hb).1 hi).1 h1 h2)

/-! ### accumulation in place -/

theorem macTo_does {A B : Array α} {nC p pa pb : Nat} {a b : α} (ha : A[pa]? = some a)
    (hb : B[pb]? = some b) (hp : p < nC) :
    Act.Does false (macTo A B nC p pa pb) () [(p, fun x => Arith.mac x a b)] := by
  refine Act.Does.ofM_bind (rd_ok ha) (Act.Does.ofM_bind (rd_ok hb) ?_)
  intro F hF c
  have hi := hF (p, fun x => Arith.mac x a b) (by simp)
  simp only [Act.read, Act.write, if_pos hp]
  show F p ∧ F p ∧ True ∧ _
  refine ⟨hi, hi, trivial, ?_⟩
  funext j
  by_cases hj : j = p
  · subst hj; simp [applyF]
  · have : ¬ p = j := fun h => hj h.symm
    simp [applyF, hj, this]

/-- Updates accumulating a dot product in the cell `(i, j)`. -/
def accUpd (n : Nat) (f g : Nat → Nat → α) (i j : Nat) : List (Upd α) :=
  (steps 0 n 1).flatMap fun k => [(i * n + j, fun x => Arith.mac x (f i k) (g j k))]

theorem accUpd_in (n : Nat) (f g : Nat → Nat → α) : InBlock n 1 (accUpd n f g) := by
  intro i hi j hj u hu
  obtain ⟨k, _, hu⟩ := List.mem_flatMap.1 hu
  rw [List.mem_singleton] at hu
  subst hu
  exact ⟨i, j, by omega, by omega, by omega, by omega, ((mem_steps0 Nat.one_pos).1 hj).2, rfl⟩

theorem accUpd_cell (n : Nat) (f g : Nat → Nat → α) (i j : Nat) (x : α) :
    cellFold (accUpd n f g i j) (i * n + j) x = dotFrom x (List.range n) (f i) (g j) := by
  unfold accUpd dotFrom
  rw [cellFold_flatMap, steps_one]
  exact foldl_congr' (fun k _ s => by simp) _

theorem naiveRow_does {n : Nat} {A B : Array α} {a b : Nat → Nat → α} (hA : Holds A n n a)
    (hB : Holds B n n b) {i : Nat} (hi : i < n) :
    Act.Does false (naiveRow n A B (n * n) i) ()
      ((steps 0 n 1).flatMap fun j => accUpd n a (tr b) i j) := by
  refine Act.Does.forStep (by decide) fun j hj => Act.Does.forStep (by decide) fun k hk => ?_
  have hj := ((mem_steps0 Nat.one_pos).1 hj).2
  have hk := ((mem_steps0 Nat.one_pos).1 hk).2
  exact macTo_does (hA i hi k hk) (hB k hk j hj) (idx_lt hi hj)

theorem naiveTree_does {n : Nat} {A B : Array α} {a b : Nat → Nat → α} (hA : Holds A n n a)
    (hB : Holds B n n b) :
    Tree.Does false (naiveTree n A B (n * n))
      ((steps 0 n 1).flatMap fun i => (steps 0 n 1).flatMap fun j => accUpd n a (tr b) i j) :=
  Tree.Does.par (fun _ hi => .act (naiveRow_does hA hB ((mem_steps0 Nat.one_pos).1 hi).2))
    (blocks_pairwise Nat.one_pos (accUpd_in n a (tr b)))

theorem transposedLoops_does {n : Nat} {A B : Array α} {a b : Nat → Nat → α} (hA : Holds A n n a)
    (hB : Holds B n n b) :
    Act.Does false (transposedLoops n A B (n * n)) ()
      ((steps 0 n 1).flatMap fun i => (steps 0 n 1).flatMap fun j => accUpd n a b i j) := by
  refine Act.Does.forStep (by decide) fun i hi => Act.Does.forStep (by decide) fun j hj =>
    Act.Does.forStep (by decide) fun k hk => ?_
  have hi := ((mem_steps0 Nat.one_pos).1 hi).2
  have hj := ((mem_steps0 Nat.one_pos).1 hj).2
  have hk := ((mem_steps0 Nat.one_pos).1 hk).2
  exact macTo_does (hA i hi k hk) (hB j hj k hk) (idx_lt hi hj)

theorem accUpd_result {n : Nat} (f g : Nat → Nat → α) {C : Array α} {c0 : Nat → Nat → α}
    (hC : C.size = n * n) (hc : Holds C n n c0) :
    applyA ((steps 0 n 1).flatMap fun i => (steps 0 n 1).flatMap fun j => accUpd n f g i j) C =
      rect n n fun r c => dotFrom (c0 r c) (List.range n) (f r) (g c) :=
  blocks_result Nat.one_pos (accUpd_in n f g) (G := fun r c x => dotFrom x (List.range n) (f r) (g c))
    (fun i _ j _ r c h1 h2 h3 h4 _ _ x => by
      rw [show r = i by omega, show c = j by omega]
      exact accUpd_cell n f g i j x) hC hc

/-! ### counter -/

theorem macAt_ok {A B : Array α} {pa pb : Nat} {a b : α} (ha : A[pa]? = some a)
    (hb : B[pb]? = some b) (r : α) : macAt A B pa pb r = .ok (Arith.mac r a b) := by
  simp [macAt, rd_ok ha, rd_ok hb]

theorem counterTree_does {n : Nat} {A B : Array α} {a b : Nat → Nat → α} (hA : Holds A n n a)
    (hB : Holds B n n b) :
    Tree.Does false (counterTree n A B (n * n))
      ((steps 0 n 1).flatMap fun i => (steps 0 n 1).flatMap fun j =>
        [(i * n + j, fun _ => dot n (a i) (b j))]) := by
  refine Tree.Does.par (fun i hi => .act ?_) (blocks_pairwise Nat.one_pos ?_)
  · refine Act.Does.forStep (by decide) fun j hj => ?_
    have hi := ((mem_steps0 Nat.one_pos).1 hi).2
    have hj := ((mem_steps0 Nat.one_pos).1 hj).2
    refine Act.Does.ofM_bind (dot_loop fun k hk acc => macAt_ok (hA i hi k hk) (hB j hj k hk) acc) ?_
    exact Act.Does.write (idx_lt hi hj) _
  · intro i hi j hj u hu
    rw [List.mem_singleton] at hu
    subst hu
    exact ⟨i, j, by omega, by omega, by omega, by omega, ((mem_steps0 Nat.one_pos).1 hj).2, rfl⟩

/-! ### blocked 2 × 2 -/

theorem blocked2Inner_ok {n : Nat} {A B : Array α} {a b : Nat → Nat → α} (hA : Holds A n n a)
    (hB : Holds B n n b) {i j : Nat} (hi : i + 1 < n) (hj : j + 1 < n) :
    blocked2Inner n A B i j = .ok ⟨dot n (a i) (b j), dot n (a (i + 1)) (b j),
      dot n (a i) (b (j + 1)), dot n (a (i + 1)) (b (j + 1))⟩ := by
  unfold blocked2Inner
  rw [forStep_ok (g := fun s k => (⟨
      Arith.mac s.result1 (a i k) (b j k), Arith.mac s.result2 (a (i + 1) k) (b j k),
      Arith.mac s.result3 (a i k) (b (j + 1) k),
      Arith.mac s.result4 (a (i + 1) k) (b (j + 1) k)⟩ : Acc4 α)) (by decide)]
  · refine congrArg Except.ok ?_
    rw [steps_one]
    generalize hF : List.foldl _ _ _ = F
    have hF' : F = ⟨F.result1, F.result2, F.result3, F.result4⟩ := rfl
    rw [hF']
    congr
    · rw [← hF]; exact foldl_proj Acc4.result1 (fun _ _ => rfl) _ _
    · rw [← hF]; exact foldl_proj Acc4.result2 (fun _ _ => rfl) _ _
    · rw [← hF]; exact foldl_proj Acc4.result3 (fun _ _ => rfl) _ _
    · rw [← hF]; exact foldl_proj Acc4.result4 (fun _ _ => rfl) _ _
  · intro k hk s
    rw [steps_one, List.mem_range] at hk
    simp only [macAt_ok (hA i (by omega) k hk) (hB j (by omega) k hk),
      macAt_ok (hA (i + 1) (by omega) k hk) (hB j (by omega) k hk),
      macAt_ok (hA i (by omega) k hk) (hB (j + 1) (by omega) k hk),
      macAt_ok (hA (i + 1) (by omega) k hk) (hB (j + 1) (by omega) k hk), M_bind_ok, M_pure]

/-- Updates of one register block; `pts` are the positions in the block. -/
def regUpd (n : Nat) (pts : List (Nat × Nat)) (g : Nat → Nat → α) (i j : Nat) : List (Upd α) :=
  pts.map fun q => ((i + q.1) * n + (j + q.2), fun _ => g (i + q.1) (j + q.2))

theorem mult_lt {n bs i q : Nat} (hb : 0 < bs) (hn : bs ∣ n) (hi : i ∈ steps 0 n bs) (hq : q < bs) :
    i + q < n := by
  obtain ⟨⟨t, rfl⟩, h2⟩ := (mem_steps0 hb).1 hi
  obtain ⟨m, rfl⟩ := hn
  have : t < m := Nat.lt_of_mul_lt_mul_left h2
  have : bs * (t + 1) ≤ bs * m := Nat.mul_le_mul_left _ this
  rw [Nat.mul_add] at this
  omega

theorem regUpd_in {n bs : Nat} (hb : 0 < bs) (hn : bs ∣ n) {pts : List (Nat × Nat)}
    (hp : ∀ q ∈ pts, q.1 < bs ∧ q.2 < bs) (g : Nat → Nat → α) : InBlock n bs (regUpd n pts g) := by
  intro i hi j hj u hu
  obtain ⟨q, hq, rfl⟩ := List.mem_map.1 hu
  have := hp q hq
  have := mult_lt hb hn hj (hp q hq).2
  exact ⟨i + q.1, j + q.2, by omega, by omega, by omega, by omega, by omega, rfl⟩

theorem regUpd_cell {n bs : Nat} (hb : 0 < bs) (hn : bs ∣ n) {pts : List (Nat × Nat)}
    (hnd : pts.Nodup) (hp : ∀ q, q ∈ pts ↔ q.1 < bs ∧ q.2 < bs) (g : Nat → Nat → α) {i j r c : Nat}
    (hj : j ∈ steps 0 n bs) (h1 : i ≤ r) (h2 : r < i + bs) (h3 : j ≤ c) (h4 : c < j + bs)
    (hc : c < n) (x : α) : cellFold (regUpd n pts g i j) (r * n + c) x = g r c := by
  unfold regUpd
  have e1 : i + (r - i) = r := by omega
  have e2 : j + (c - j) = c := by omega
  rw [cellFold_map_unique hnd (i0 := (r - i, c - j)) ((hp _).2 ⟨by simp only; omega, by simp only; omega⟩)]
  · simp only [e1, e2]
  · simp only [e1, e2]
  · rintro ⟨q1, q2⟩ hq hne he
    have := mult_lt hb hn hj ((hp _).1 hq).2
    have := idx_inj this hc he
    apply hne
    simp only [Prod.mk.injEq] at this ⊢
    omega

/-- The order in which multBlocked2 writes. -/
def pts2 : List (Nat × Nat) := [(0, 0), (1, 0), (0, 1), (1, 1)]
/-- The order in which multBlocked4 writes. -/
def pts4 : List (Nat × Nat) :=
  [(0, 0), (0, 1), (0, 2), (0, 3), (1, 0), (1, 1), (1, 2), (1, 3),
   (2, 0), (2, 1), (2, 2), (2, 3), (3, 0), (3, 1), (3, 2), (3, 3)]

theorem mem_pts2 (q : Nat × Nat) : q ∈ pts2 ↔ q.1 < 2 ∧ q.2 < 2 := by
  constructor
  · intro h; exact (by decide : ∀ q ∈ pts2, q.1 < 2 ∧ q.2 < 2) q h
  · rintro ⟨h1, h2⟩
    obtain ⟨q1, q2⟩ := q
    simp only at h1 h2
    have : ∀ a, a < 2 → ∀ b, b < 2 → (a, b) ∈ pts2 := by decide
    exact this q1 h1 q2 h2

theorem mem_pts4 (q : Nat × Nat) : q ∈ pts4 ↔ q.1 < 4 ∧ q.2 < 4 := by
  constructor
  · intro h; exact (by decide : ∀ q ∈ pts4, q.1 < 4 ∧ q.2 < 4) q h
  · rintro ⟨h1, h2⟩
    obtain ⟨q1, q2⟩ := q
    simp only at h1 h2
    have : ∀ a, a < 4 → ∀ b, b < 4 → (a, b) ∈ pts4 := by decide
    exact this q1 h1 q2 h2

theorem regUpd_result {n bs : Nat} (hb : 0 < bs) (hn : bs ∣ n) {pts : List (Nat × Nat)}
    (hnd : pts.Nodup) (hp : ∀ q, q ∈ pts ↔ q.1 < bs ∧ q.2 < bs) (g : Nat → Nat → α) {C : Array α}
    (hC : C.size = n * n) :
    applyA ((steps 0 n bs).flatMap fun i => (steps 0 n bs).flatMap fun j => regUpd n pts g i j) C =
      rect n n g := by
  have hc : Holds C n n fun i j => (C[i * n + j]?).getD Arith.zero := by
    intro i hi j hj
    have := idx_lt hi hj
    rw [Array.getElem?_eq_getElem (by omega)]
    simp only [Array.getElem?_eq_getElem (show i * n + j < C.size by omega), Option.getD_some]
  exact blocks_result hb (regUpd_in hb hn (fun q hq => (hp q).1 hq) g) (G := fun r c _ => g r c)
    (fun i _ j hj r c h1 h2 h3 h4 _ hc x => regUpd_cell hb hn hnd hp g hj h1 h2 h3 h4 hc x) hC hc

theorem blocked2Tree_does {n : Nat} (hn : 2 ∣ n) {A B : Array α} {a b : Nat → Nat → α}
    (hA : Holds A n n a) (hB : Holds B n n b) :
    Tree.Does false (blocked2Tree n A B (n * n))
      ((steps 0 n 2).flatMap fun i => (steps 0 n 2).flatMap fun j =>
        regUpd n pts2 (fun r c => dot n (a r) (b c)) i j) := by
  refine Tree.Does.par (fun i hi => .act ?_) (blocks_pairwise (by decide)
    (regUpd_in (by decide) hn (fun q hq => (mem_pts2 q).1 hq) _))
  refine Act.Does.forStep (by decide) fun j hj => ?_
  have hi := mult_lt (q := 1) (by decide) hn hi (by decide)
  have hj := mult_lt (q := 1) (by decide) hn hj (by decide)
  refine Act.Does.ofM_bind (blocked2Inner_ok hA hB hi hj) ?_
  refine (Act.Does.write (idx_lt (by omega) (by omega)) _).bind ?_
  refine (Act.Does.write (idx_lt (by omega) (by omega)) _).bind ?_
  refine (Act.Does.write (idx_lt (by omega) (by omega)) _).bind ?_
  exact Act.Does.write (idx_lt (by omega) (by omega)) _

/-! ### blocked 4 × 4 -/

/-- The sum multBlocked4 computes: every fourth product. -/
def dotStep (st n : Nat) (f g : Nat → α) : α := dotFrom Arith.zero (steps 0 n st) f g

/-- The sixteen sums of one block. -/
def dots16 (n : Nat) (a b : Nat → Nat → α) (i j : Nat) : Acc16 α :=
  let d := fun r c => dotStep 4 n (a r) (b c)
  ⟨d i j, d i (j + 1), d i (j + 2), d i (j + 3),
   d (i + 1) j, d (i + 1) (j + 1), d (i + 1) (j + 2), d (i + 1) (j + 3),
   d (i + 2) j, d (i + 2) (j + 1), d (i + 2) (j + 2), d (i + 2) (j + 3),
   d (i + 3) j, d (i + 3) (j + 1), d (i + 3) (j + 2), d (i + 3) (j + 3)⟩

theorem blocked4Inner_ok {n : Nat} {A B : Array α} {a b : Nat → Nat → α} (hA : Holds A n n a)
    (hB : Holds B n n b) {i j : Nat} (hi : i + 3 < n) (hj : j + 3 < n) :
    blocked4Inner n A B i j = .ok (dots16 n a b i j) := by
  unfold blocked4Inner
  rw [forStep_ok (g := fun s k => (⟨
      Arith.mac s.result1 (a i k) (b j k), Arith.mac s.result2 (a i k) (b (j + 1) k),
      Arith.mac s.result3 (a i k) (b (j + 2) k), Arith.mac s.result4 (a i k) (b (j + 3) k),
      Arith.mac s.result5 (a (i + 1) k) (b j k), Arith.mac s.result6 (a (i + 1) k) (b (j + 1) k),
      Arith.mac s.result7 (a (i + 1) k) (b (j + 2) k), Arith.mac s.result8 (a (i + 1) k) (b (j + 3) k),
      Arith.mac s.result9 (a (i + 2) k) (b j k), Arith.mac s.result10 (a (i + 2) k) (b (j + 1) k),
      Arith.mac s.result11 (a (i + 2) k) (b (j + 2) k), Arith.mac s.result12 (a (i + 2) k) (b (j + 3) k),
      Arith.mac s.result13 (a (i + 3) k) (b j k), Arith.mac s.result14 (a (i + 3) k) (b (j + 1) k),
      Arith.mac s.result15 (a (i + 3) k) (b (j + 2) k),
      Arith.mac s.result16 (a (i + 3) k) (b (j + 3) k)⟩ : Acc16 α)) (by decide)]
  · refine congrArg Except.ok ?_
    generalize hF : List.foldl _ _ _ = F
    have hF' : F = ⟨F.result1, F.result2, F.result3, F.result4, F.result5, F.result6, F.result7,
      F.result8, F.result9, F.result10, F.result11, F.result12, F.result13, F.result14, F.result15,
      F.result16⟩ := rfl
    rw [hF', dots16]
    congr
    · rw [← hF]; exact foldl_proj Acc16.result1 (fun _ _ => rfl) _ _
    · rw [← hF]; exact foldl_proj Acc16.result2 (fun _ _ => rfl) _ _
    · rw [← hF]; exact foldl_proj Acc16.result3 (fun _ _ => rfl) _ _
    · rw [← hF]; exact foldl_proj Acc16.result4 (fun _ _ => rfl) _ _
    · rw [← hF]; exact foldl_proj Acc16.result5 (fun _ _ => rfl) _ _
    · rw [← hF]; exact foldl_proj Acc16.result6 (fun _ _ => rfl) _ _
    · rw [← hF]; exact foldl_proj Acc16.result7 (fun _ _ => rfl) _ _
    · rw [← hF]; exact foldl_proj Acc16.result8 (fun _ _ => rfl) _ _
    · rw [← hF]; exact foldl_proj Acc16.result9 (fun _ _ => rfl) _ _
    · rw [← hF]; exact foldl_proj Acc16.result10 (fun _ _ => rfl) _ _
    · rw [← hF]; exact foldl_proj Acc16.result11 (fun _ _ => rfl) _ _
    · rw [← hF]; exact foldl_proj Acc16.result12 (fun _ _ => rfl) _ _
    · rw [← hF]; exact foldl_proj Acc16.result13 (fun _ _ => rfl) _ _
    · rw [← hF]; exact foldl_proj Acc16.result14 (fun _ _ => rfl) _ _
    · rw [← hF]; exact foldl_proj Acc16.result15 (fun _ _ => rfl) _ _
    · rw [← hF]; exact foldl_proj Acc16.result16 (fun _ _ => rfl) _ _
  · intro k hk s
    have hk := ((mem_steps0 (by decide)).1 hk).2
    have key : ∀ p q, p < 4 → q < 4 → ∀ r, macAt A B ((i + p) * n + k) ((j + q) * n + k) r =
        .ok (Arith.mac r (a (i + p) k) (b (j + q) k)) := fun p q hp hq r =>
      macAt_ok (hA (i + p) (by omega) k hk) (hB (j + q) (by omega) k hk) r
    have k0 := fun q hq r => key 0 q (by decide) hq r
    have k1 := fun p hp r => key p 0 hp (by decide) r
    have k2 := fun r => key 0 0 (by decide) (by decide) r
    simp only [Nat.add_zero] at k0 k1 k2
    unfold blocked4Step
    simp only [k0 1 (by decide), k0 2 (by decide), k0 3 (by decide), k1 1 (by decide),
      k1 2 (by decide), k1 3 (by decide), k2, key 1 1 (by decide) (by decide),
      key 1 2 (by decide) (by decide), key 1 3 (by decide) (by decide),
      key 2 1 (by decide) (by decide), key 2 2 (by decide) (by decide),
      key 2 3 (by decide) (by decide), key 3 1 (by decide) (by decide),
      key 3 2 (by decide) (by decide), key 3 3 (by decide) (by decide), M_bind_ok, M_pure]

theorem blocked4Tree_does {n : Nat} (hn : 4 ∣ n) {A B : Array α} {a b : Nat → Nat → α}
    (hA : Holds A n n a) (hB : Holds B n n b) :
    Tree.Does false (blocked4Tree n A B (n * n))
      ((steps 0 n 4).flatMap fun i => (steps 0 n 4).flatMap fun j =>
        regUpd n pts4 (fun r c => dotStep 4 n (a r) (b c)) i j) := by
  refine Tree.Does.par (fun i hi => .act ?_) (blocks_pairwise (by decide)
    (regUpd_in (by decide) hn (fun q hq => (mem_pts4 q).1 hq) _))
  refine Act.Does.forStep (by decide) fun j hj => ?_
  have hi := mult_lt (q := 3) (by decide) hn hi (by decide)
  have hj := mult_lt (q := 3) (by decide) hn hj (by decide)
  refine Act.Does.ofM_bind (blocked4Inner_ok hA hB hi hj) ?_
  refine (Act.Does.write (idx_lt (by omega) (by omega)) _).bind ?_
  refine (Act.Does.write (idx_lt (by omega) (by omega)) _).bind ?_
  refine (Act.Does.write (idx_lt (by omega) (by omega)) _).bind ?_
  refine (Act.Does.write (idx_lt (by omega) (by omega)) _).bind ?_
  refine (Act.Does.write (idx_lt (by omega) (by omega)) _).bind ?_
  refine (Act.Does.write (idx_lt (by omega) (by omega)) _).bind ?_
  refine (Act.Does.write (idx_lt (by omega) (by omega)) _).bind ?_
  refine (Act.Does.write (idx_lt (by omega) (by omega)) _).bind ?_
  refine (Act.Does.write (idx_lt (by omega) (by omega)) _).bind ?_
  refine (Act.Does.write (idx_lt (by omega) (by omega)) _).bind ?_
  refine (Act.Does.write (idx_lt (by omega) (by omega)) _).bind ?_
  refine (Act.Does.write (idx_lt (by omega) (by omega)) _).bind ?_
  refine (Act.Does.write (idx_lt (by omega) (by omega)) _).bind ?_
  refine (Act.Does.write (idx_lt (by omega) (by omega)) _).bind ?_
  refine (Act.Does.write (idx_lt (by omega) (by omega)) _).bind ?_
  exact Act.Does.write (idx_lt (by omega) (by omega)) _

/-! ### sizes that are no multiple of the block size -/

theorem macAt_errs (A B : Array α) (pa pb : Nat) (r : α) : MErrs (· = .oob) (macAt A B pa pb r) :=
  .bind (.rd (by rfl) _ _) fun _ => .bind (.rd (by rfl) _ _) fun _ => .pure

theorem macAt_oob {A B : Array α} {pa pb : Nat} (h : A.size ≤ pa) (r r' : α) :
    macAt A B pa pb r ≠ .ok r' := by
  simp [macAt, rd_oob h]

theorem bind_not_ok {R S : Type} {x : M R} {f : R → M S} {s : S} (h : ∀ r, f r ≠ .ok s) :
    (x >>= f) ≠ .ok s := by
  cases x with
  | error e => nofun
  | ok r => exact h r

theorem bind_not_ok' {R S : Type} {x : M R} {f : R → M S} {s : S} (h : ∀ r, x ≠ .ok r) :
    (x >>= f) ≠ .ok s := by
  cases x with
  | error e => nofun
  | ok r => exact absurd rfl (h r)

theorem blocked2_errs (n : Nat) (A B : Array α) (nC : Nat) :
    (blocked2Tree n A B nC).Errs (· = .oob) := by
  refine .par fun t ht => ?_
  obtain ⟨i, _, rfl⟩ := List.mem_map.1 ht
  refine .act (Act.Errs.forStep (by decide) (fun j _ => ?_) _)
  refine Act.Errs.bind (Act.Errs.ofM (MErrs.forStep (by decide) (fun k s => ?_) _)) fun s => ?_
  · exact .bind (macAt_errs _ _ _ _ _) fun _ => .bind (macAt_errs _ _ _ _ _) fun _ => .bind (macAt_errs _ _ _ _ _)
      fun _ => .bind (macAt_errs _ _ _ _ _) fun _ => .pure
  · exact .bind (.write (by rfl) _ _ _) fun _ => .bind (.write (by rfl) _ _ _) fun _ =>
      .bind (.write (by rfl) _ _ _) fun _ => .write (by rfl) _ _ _

/-- For odd `n` the last block row reads the row `n` of `A`. -/
theorem blocked2_stuck {n : Nat} (hn : ¬ 2 ∣ n) {A B : Array α} (hA : A.size < (n + 1) * n)
    (nC : Nat) : (blocked2Tree n A B nC).Stuck := by
  have hm : n - 1 ∈ steps 0 n 2 := (mem_steps0 (by decide)).2 ⟨by omega, by omega⟩
  have h0 : 0 ∈ steps 0 n 2 := (mem_steps0 (by decide)).2 ⟨by omega, by omega⟩
  refine .par (List.mem_map.2 ⟨n - 1, hm, rfl⟩) (.act ?_)
  refine Act.NoRet.forStep (by decide) h0 (fun _ => Act.NoRet.bind_left (Act.NoRet.ofM fun r => ?_)) _
  unfold blocked2Inner
  rw [forStep_eq (by decide)]
  refine foldlM_not_ok (i0 := n - 1) ((mem_steps0 Nat.one_pos).2 ⟨Nat.one_dvd _, by omega⟩)
    (fun s s' => ?_) _ _
  have h2 : A.size ≤ (n - 1 + 1) * n + (n - 1) := by
    rw [show n - 1 + 1 = n by omega]
    rw [Nat.add_mul, Nat.one_mul] at hA
    omega
  exact bind_not_ok fun _ => bind_not_ok' (macAt_oob h2 _)

theorem blocked4_errs (n : Nat) (A B : Array α) (nC : Nat) :
    (blocked4Tree n A B nC).Errs (· = .oob) := by
  refine .par fun t ht => ?_
  obtain ⟨i, _, rfl⟩ := List.mem_map.1 ht
  refine .act (Act.Errs.forStep (by decide) (fun j _ => ?_) _)
  refine Act.Errs.bind (Act.Errs.ofM (MErrs.forStep (by decide) (fun k s => ?_) _)) fun s => ?_
  · unfold blocked4Step
    refine .bind (macAt_errs _ _ _ _ _) fun _ => ?_
    refine .bind (macAt_errs _ _ _ _ _) fun _ => ?_
    refine .bind (macAt_errs _ _ _ _ _) fun _ => ?_
    refine .bind (macAt_errs _ _ _ _ _) fun _ => ?_
    refine .bind (macAt_errs _ _ _ _ _) fun _ => ?_
    refine .bind (macAt_errs _ _ _ _ _) fun _ => ?_
    refine .bind (macAt_errs _ _ _ _ _) fun _ => ?_
    refine .bind (macAt_errs _ _ _ _ _) fun _ => ?_
    refine .bind (macAt_errs _ _ _ _ _) fun _ => ?_
    refine .bind (macAt_errs _ _ _ _ _) fun _ => ?_
    refine .bind (macAt_errs _ _ _ _ _) fun _ => ?_
    refine .bind (macAt_errs _ _ _ _ _) fun _ => ?_
    refine .bind (macAt_errs _ _ _ _ _) fun _ => ?_
    refine .bind (macAt_errs _ _ _ _ _) fun _ => ?_
    refine .bind (macAt_errs _ _ _ _ _) fun _ => ?_
    refine .bind (macAt_errs _ _ _ _ _) fun _ => ?_
    exact .pure
  · unfold blocked4Store
    refine .bind (.write (by rfl) _ _ _) fun _ => ?_
    refine .bind (.write (by rfl) _ _ _) fun _ => ?_
    refine .bind (.write (by rfl) _ _ _) fun _ => ?_
    refine .bind (.write (by rfl) _ _ _) fun _ => ?_
    refine .bind (.write (by rfl) _ _ _) fun _ => ?_
    refine .bind (.write (by rfl) _ _ _) fun _ => ?_
    refine .bind (.write (by rfl) _ _ _) fun _ => ?_
    refine .bind (.write (by rfl) _ _ _) fun _ => ?_
    refine .bind (.write (by rfl) _ _ _) fun _ => ?_
    refine .bind (.write (by rfl) _ _ _) fun _ => ?_
    refine .bind (.write (by rfl) _ _ _) fun _ => ?_
    refine .bind (.write (by rfl) _ _ _) fun _ => ?_
    refine .bind (.write (by rfl) _ _ _) fun _ => ?_
    refine .bind (.write (by rfl) _ _ _) fun _ => ?_
    refine .bind (.write (by rfl) _ _ _) fun _ => ?_
    exact .write (by rfl) _ _ _

/-- If 4 does not divide `n` the last block row reads past row `n - 1` of `A`. -/
theorem blocked4_stuck {n : Nat} (hn : ¬ 4 ∣ n) {A B : Array α} (hA : A.size ≤ n * n + n / 4 * 4)
    (nC : Nat) : (blocked4Tree n A B nC).Stuck := by
  have hm : n / 4 * 4 ∈ steps 0 n 4 := (mem_steps0 (by decide)).2 ⟨by omega, by omega⟩
  have h0 : 0 ∈ steps 0 n 4 := (mem_steps0 (by decide)).2 ⟨by omega, by omega⟩
  refine .par (List.mem_map.2 ⟨n / 4 * 4, hm, rfl⟩) (.act ?_)
  refine Act.NoRet.forStep (by decide) h0 (fun _ => Act.NoRet.bind_left (Act.NoRet.ofM fun r => ?_)) _
  unfold blocked4Inner
  rw [forStep_eq (by decide)]
  refine foldlM_not_ok (i0 := n / 4 * 4) hm (fun s s' => ?_) _ _
  have h2 : A.size ≤ (n / 4 * 4 + 3) * n + n / 4 * 4 := by
    have : n * n ≤ (n / 4 * 4 + 3) * n := Nat.mul_le_mul_right _ (by omega)
    omega
  unfold blocked4Step
  refine bind_not_ok fun _ => ?_
  refine bind_not_ok fun _ => ?_
  refine bind_not_ok fun _ => ?_
  refine bind_not_ok fun _ => ?_
  refine bind_not_ok fun _ => ?_
  refine bind_not_ok fun _ => ?_
  refine bind_not_ok fun _ => ?_
  refine bind_not_ok fun _ => ?_
  refine bind_not_ok fun _ => ?_
  refine bind_not_ok fun _ => ?_
  refine bind_not_ok fun _ => ?_
  refine bind_not_ok fun _ => ?_
  exact bind_not_ok' (macAt_oob h2 _)

end Verif.Experiments
