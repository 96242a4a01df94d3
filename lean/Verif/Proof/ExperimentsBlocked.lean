import Verif.Model.ExperimentsBlocked
import Verif.Proof.RectLoop
/-
Helper lemmas about the larger kernels of otherExperiments.
-/
set_option linter.unusedSectionVars false
namespace Verif.Experiments
open Tiled (V4 vec)
open Kernel (foldl_proj)
variable {α : Type} [Arith α]

theorem clear_ok {bs : Nat} {a : Array α} (ha : a.size = bs * bs) :
    clear bs a = .ok (rect bs bs fun _ _ => Arith.zero) :=
  fill_rows (fun _ _ _ _ => MDoes.wr) ha

theorem loadRows_ok {src : Array α} {n x kb bs kc : Nat} {a : Nat → Nat → α}
    (hA : Holds src n n a) (hx : x + bs ≤ n) (hk : kb + kc ≤ n) {AA : Array α}
    (hs : AA.size = bs * kc) :
    loadRows src n x kb bs kc AA = .ok (rect bs kc fun i k => a (x + i) (kb + k)) :=
  Kernel.loadSmall_ok hA hx hk hs

theorem loadCols_ok {src : Array α} {n y kb bs kc : Nat} {b : Nat → Nat → α}
    (hB : Holds src n n b) (hy : y + bs ≤ n) (hk : kb + kc ≤ n) {BB : Array α}
    (hs : BB.size = bs * kc) :
    loadCols src n y kb bs kc BB = .ok (rect bs kc fun j k => b (kb + k) (y + j)) := by
  refine fill_cols (fun k hk' j hj => ?_) hs
  intro a ha
  simp only [hB.rd (i := kb + k) (j := y + j) (by omega) (by omega), M_bind_ok]
  exact MDoes.wr a ha

theorem loadBand_ok {src : Array α} {n y kb bs kc : Nat} {b : Nat → Nat → α}
    (hB : Holds src n n b) (hy : y + bs ≤ n) (hk : kb + kc ≤ n) {BB : Array α}
    (hs : BB.size = kc * bs) :
    loadBand src n y kb bs kc BB = .ok (rect kc bs fun k j => b (kb + k) (y + j)) := by
  refine fill_rows (fun k hk' j hj => ?_) hs
  intro a ha
  simp only [hB.rd (i := kb + k) (j := y + j) (by omega) (by omega), M_bind_ok]
  exact MDoes.wr a ha

/-! ### storing the blocks -/

/-- Updates of a block that overwrite it with `g`. -/
structure Covers (n bs : Nat) (g : Nat → Nat → α) (us : Nat → Nat → List (Upd α)) : Prop where
  inBlock : InBlock n bs us
  cell : ∀ i ∈ steps 0 n bs, ∀ j ∈ steps 0 n bs, ∀ r c, i ≤ r → r < i + bs → j ≤ c →
      c < j + bs → r < n → c < n → ∀ x, cellFold (us i j) (r * n + c) x = g r c

theorem blockTree_does {n bs : Nat} (hb : 0 < bs) {compute : Nat → Nat → M (Array α)}
    {st : Nat → Nat → Array α → Act α Unit} {res : Nat → Nat → Array α}
    {us : Nat → Nat → List (Upd α)} (hin : InBlock n bs us)
    (hc : ∀ i ∈ steps 0 n bs, ∀ j ∈ steps 0 n bs, compute i j = .ok (res i j))
    (hs : ∀ i ∈ steps 0 n bs, ∀ j ∈ steps 0 n bs, Act.Does false (st i j (res i j)) () (us i j)) :
    Tree.Does false (blockTree n bs compute st)
      ((steps 0 n bs).flatMap fun i => (steps 0 n bs).flatMap fun j => us i j) := by
  refine Tree.Does.par (fun i hi => .act ?_) (blocks_pairwise hb hin)
  refine Act.Does.forStep hb fun j hj => ?_
  exact Act.Does.ofM_bind (hc i hi j hj) (hs i hi j hj)

theorem covers_result {n bs : Nat} (hb : 0 < bs) {g : Nat → Nat → α} {us : Nat → Nat → List (Upd α)}
    (h : Covers n bs g us) {C : Array α} (hC : C.size = n * n) :
    applyA ((steps 0 n bs).flatMap fun i => (steps 0 n bs).flatMap fun j => us i j) C =
      rect n n g := by
  have hc : Holds C n n fun i j => (C[i * n + j]?).getD Arith.zero := by
    intro i hi j hj
    have := idx_lt hi hj
    rw [Array.getElem?_eq_getElem (by omega)]
    simp only [Array.getElem?_eq_getElem (show i * n + j < C.size by omega), Option.getD_some]
  exact blocks_result hb h.inBlock (G := fun r c _ => g r c) h.cell hC hc

/-- Updates of `storeBlock`. -/
def storeUpd (n bs : Nat) (g : Nat → Nat → α) (i j : Nat) : List (Upd α) :=
  Tiled.nest2 bs bs fun ii jj => [((i + ii) * n + (j + jj), fun _ => g (i + ii) (j + jj))]

theorem storeUpd_covers {n bs : Nat} (hb : 0 < bs) (hn : bs ∣ n) (g : Nat → Nat → α) :
    Covers n bs g (storeUpd n bs g) where
  inBlock := by
    intro i hi j hj u hu
    obtain ⟨ii, hii, jj, hjj, hu⟩ := Tiled.mem_nest2.1 hu
    rw [List.mem_singleton] at hu
    subst hu
    have := mult_lt hb hn hj hjj
    exact ⟨i + ii, j + jj, by omega, by omega, by omega, by omega, by omega, rfl⟩
  cell := by
    intro i hi j hj r c h1 h2 h3 h4 hr hc x
    have e1 : i + (r - i) = r := by omega
    have e2 : j + (c - j) = c := by omega
    unfold storeUpd
    rw [Tiled.nest2_cell (i0 := r - i) (j0 := c - j) (by omega) (by omega)]
    · simp [e1, e2]
    · intro ii hii jj hjj u hu he
      rw [List.mem_singleton] at hu
      subst hu
      have := idx_inj (mult_lt hb hn hj hjj) hc he
      omega

theorem storeBlock_does {n bs : Nat} (hb : 0 < bs) (hn : bs ∣ n) (g : Nat → Nat → α) {i j : Nat}
    (hi : i ∈ steps 0 n bs) (hj : j ∈ steps 0 n bs) :
    Act.Does false (storeBlock n (n * n) i j bs (rect bs bs fun r c => g (i + r) (j + c))) ()
      (storeUpd n bs g i j) := by
  refine Act.Does.forStep (by decide) fun ii hii => Act.Does.forStep (by decide) fun jj hjj => ?_
  rw [steps_one, List.mem_range] at hii hjj
  refine Act.Does.ofM_bind ((holds_rect bs bs _).rd hii hjj) ?_
  exact Act.Does.write (idx_lt (mult_lt hb hn hi hii) (mult_lt hb hn hj hjj)) _

/-- Correctness of a kernel whose blocks are correct. -/
theorem blocked_does {n bs : Nat} (hb : 0 < bs) (hn : bs ∣ n) {compute : Nat → Nat → M (Array α)}
    {g : Nat → Nat → α}
    (hc : ∀ i ∈ steps 0 n bs, ∀ j ∈ steps 0 n bs,
      compute i j = .ok (rect bs bs fun r c => g (i + r) (j + c))) :
    Tree.Does false (blockTree n bs compute fun i j => storeBlock n (n * n) i j bs)
      ((steps 0 n bs).flatMap fun i => (steps 0 n bs).flatMap fun j => storeUpd n bs g i j) :=
  blockTree_does hb (storeUpd_covers hb hn g).inBlock hc fun _ hi _ hj => storeBlock_does hb hn g hi hj

theorem blocked_run {n bs : Nat} (hb : 0 < bs) (hn : bs ∣ n) {compute : Nat → Nat → M (Array α)}
    {g : Nat → Nat → α}
    (hc : ∀ i ∈ steps 0 n bs, ∀ j ∈ steps 0 n bs,
      compute i j = .ok (rect bs bs fun r c => g (i + r) (j + c))) {C : Array α} (hC : C.size = n * n) :
    ND.runOn C (blockTree n bs compute fun i j => storeBlock n (n * n) i j bs) =
      ND.pure (rect n n g) := by
  refine ((blocked_does hb hn hc).runOn C).trans ?_
  rw [covers_result hb (storeUpd_covers hb hn g) hC]
  rfl

theorem block_le {n bs i : Nat} (hb : 0 < bs) (hn : bs ∣ n) (hi : i ∈ steps 0 n bs) : i + bs ≤ n := by
  have := mult_lt hb hn hi (show bs - 1 < bs by omega)
  omega

/-! ### the loop over `kBlock` -/

/-- Blocks of the summation index one after the other. -/
theorem kblocks (n kc : Nat) (hk : 0 < kc) (hn : kc ∣ n) {σ : Type} (g : σ → Nat → σ) (x : σ) :
    (steps 0 n kc).foldl (fun x kb => (List.range kc).foldl (fun x k => g x (kb + k)) x) x =
      (List.range n).foldl g x := by
  obtain ⟨m, rfl⟩ := hn
  rw [Nat.mul_comm, ← steps_flatMap m kc hk, foldl_flatMap']
  exact foldl_congr' (fun kb _ s => by rw [List.foldl_map]) x

/-! ### reading and updating single elements -/

theorem macCell_does {BB : Array α} {p pb : Nat} {a b : α} (hb : BB[pb]? = some b) :
    MDoes (fun result => macCell BB result p a pb) [(p, fun x => Arith.mac x a b)] := by
  intro v hv
  have hp : p < v.size := hv _ (List.mem_singleton.2 rfl)
  simp only [macCell, rd_ok hb, rd_ok (Array.getElem?_eq_getElem hp), M_bind_ok, wr, if_pos hp]
  refine congrArg Except.ok ?_
  apply Array.ext_getElem?
  intro q
  rw [applyA_get]
  by_cases h : p = q
  · subst h; simp [hp]
  · have : ∀ x : α, cellFold [(p, fun x => Arith.mac x a b)] q x = x := fun x =>
      cellFold_none (fun u hu => by rw [List.mem_singleton.1 hu]; exact h)
    rw [Array.getElem?_setIfInBounds_ne h]
    cases v[q]? <;> simp [this]

theorem addAt_does {p : Nat} (a : α) :
    MDoes (fun result => addAt result p a) [(p, fun x => Arith.add x a)] := by
  intro v hv
  have hp : p < v.size := hv _ (List.mem_singleton.2 rfl)
  simp only [addAt, rd_ok (Array.getElem?_eq_getElem hp), M_bind_ok, wr, if_pos hp]
  refine congrArg Except.ok ?_
  apply Array.ext_getElem?
  intro q
  rw [applyA_get]
  by_cases h : p = q
  · subst h; simp [hp]
  · have : ∀ x : α, cellFold [(p, fun x => Arith.add x a)] q x = x := fun x =>
      cellFold_none (fun u hu => by rw [List.mem_singleton.1 hu]; exact h)
    rw [Array.getElem?_setIfInBounds_ne h]
    cases v[q]? <;> simp [this]

/-- Sixteen updates of a 4 × 4 tile. -/
theorem tile4_rect {F : Array α → M (Array α)} {m n ii jj : Nat} {g : Nat → Nat → α → α}
    (h : MDoes F (pts4.map fun q => ((ii + q.1) * n + jj + q.2, g (ii + q.1) (jj + q.2))))
    (hi : ii + 3 < m) (hj : jj + 3 < n) (f : Nat → Nat → α) :
    F (rect m n f) = .ok (rect m n fun r c => if In ii 4 r ∧ In jj 4 c then g r c (f r c) else f r c) := by
  refine MDoes.rect h (fun u hu => ?_) (fun r hr c hc => ?_)
  · obtain ⟨q, hq, rfl⟩ := List.mem_map.1 hu
    have := (mem_pts4 q).1 hq
    show (ii + q.1) * n + jj + q.2 < m * n
    rw [Nat.add_assoc]
    exact idx_lt (by omega) (by omega)
  · split
    · next hin =>
      have e1 : ii + (r - ii) = r := by omega
      have e2 : jj + (c - jj) = c := by omega
      rw [cellFold_map_unique (by decide : pts4.Nodup) (i0 := (r - ii, c - jj))
        ((mem_pts4 _).2 ⟨by simp only; omega, by simp only; omega⟩)]
      · simp only [e1, e2]
      · simp only [e1]; omega
      · rintro ⟨q1, q2⟩ hq hne he
        have h4 := (mem_pts4 _).1 hq
        simp only at h4 he
        rw [Nat.add_assoc] at he
        have := idx_inj (show jj + q2 < n by omega) hc he
        apply hne
        rw [Prod.mk.injEq]
        omega
    · next hin =>
      refine cellFold_none fun u hu he => hin ?_
      obtain ⟨q, hq, rfl⟩ := List.mem_map.1 hu
      have h4 := (mem_pts4 _).1 hq
      simp only at he
      rw [Nat.add_assoc] at he
      have := idx_inj (show jj + q.2 < n by omega) hc he
      exact ⟨⟨by omega, by omega⟩, by omega, by omega⟩

theorem lane_vec (d : Nat → Nat → α) (r c kk : Nat) (h : kk < 4) : lane (vec d r c) kk = .ok (d r (c + kk)) := by
  match kk, h with
  | 0, _ => rfl
  | 1, _ => rfl
  | 2, _ => rfl
  | 3, _ => rfl

theorem load4_ok {m n r c : Nat} {v : Array α} {f : Nat → Nat → α} (hv : Holds v m n f) (hr : r < m)
    (hc : c + 3 < n) : load4 v (r * n + c) = .ok (vec f r c) := by
  unfold load4
  rw [rd_ok (hv r hr c (by omega)), rd_ok (by rw [Nat.add_assoc]; exact hv r hr (c + 1) (by omega)),
    rd_ok (by rw [Nat.add_assoc]; exact hv r hr (c + 2) (by omega)),
    rd_ok (by rw [Nat.add_assoc]; exact hv r hr (c + 3) (by omega))]
  rfl

/-! ### multExchanged -/

theorem exchangedStep_does {bs kc ii jj k : Nat} {BB : Array α} {a b : Nat → Nat → α}
    (hB : Holds BB bs kc b) (hj : jj + 3 < bs) (hk : k < kc) :
    MDoes (exchangedStep bs kc BB (a (ii + 0) k) (a (ii + 1) k) (a (ii + 2) k) (a (ii + 3) k) ii jj k)
      (pts4.map fun q => ((ii + q.1) * bs + jj + q.2,
        fun x => Arith.mac x (a (ii + q.1) k) (b (jj + q.2) k))) := by
  have h0 := hB (jj + 0) (by omega) k hk
  have h1 := hB (jj + 1) (by omega) k hk
  have h2 := hB (jj + 2) (by omega) k hk
  have h3 := hB (jj + 3) (by omega) k hk
  unfold exchangedStep
  refine MDoes.cons (macCell_does h0) ?_
  refine MDoes.cons (macCell_does h1) ?_
  refine MDoes.cons (macCell_does h2) ?_
  refine MDoes.cons (macCell_does h3) ?_
  refine MDoes.cons (macCell_does h0) ?_
  refine MDoes.cons (macCell_does h1) ?_
  refine MDoes.cons (macCell_does h2) ?_
  refine MDoes.cons (macCell_does h3) ?_
  refine MDoes.cons (macCell_does h0) ?_
  refine MDoes.cons (macCell_does h1) ?_
  refine MDoes.cons (macCell_does h2) ?_
  refine MDoes.cons (macCell_does h3) ?_
  refine MDoes.cons (macCell_does h0) ?_
  refine MDoes.cons (macCell_does h1) ?_
  refine MDoes.cons (macCell_does h2) ?_
  exact macCell_does h3

theorem exchangedInner_ok {bs kc : Nat} (hb : 4 ∣ bs) (hk : 4 ∣ kc) {a b : Nat → Nat → α}
    (f : Nat → Nat → α) :
    exchangedInner bs kc (rect bs kc a) (rect bs kc b) (rect bs bs f) =
      .ok (rect bs bs fun r c => dotFrom (f r c) (List.range kc) (a r) (b c)) := by
  have hA := holds_rect bs kc a
  have hB := holds_rect bs kc b
  have h4 : 0 < 4 := by decide
  refine (rect_loop h4 (step := fun ii r c x => (steps 0 kc 4).foldl (fun x k =>
      (steps 0 bs 4).foldl (fun x jj => (steps 0 4 1).foldl (fun x kk =>
        if In ii 4 r ∧ In jj 4 c then Arith.mac x (a r (k + kk)) (b c (k + kk)) else x) x) x) x)
    (fun ii hii f => rect_loop h4 (step := fun k r c x =>
      (steps 0 bs 4).foldl (fun x jj => (steps 0 4 1).foldl (fun x kk =>
        if In ii 4 r ∧ In jj 4 c then Arith.mac x (a r (k + kk)) (b c (k + kk)) else x) x) x)
      (fun k hk' f => ?_) f) f).trans ?_
  · have hi' := block_le h4 hb hii
    have hk'' := block_le h4 hk hk'
    rw [load4_ok hA (by omega) (by omega), load4_ok hA (by omega) (by omega),
      load4_ok hA (by omega) (by omega), load4_ok hA (by omega) (by omega)]
    simp only [M_bind_ok]
    refine rect_loop h4 (step := fun jj r c x => (steps 0 4 1).foldl (fun x kk =>
        if In ii 4 r ∧ In jj 4 c then Arith.mac x (a r (k + kk)) (b c (k + kk)) else x) x)
      (fun jj hjj f => rect_loop Nat.one_pos (step := fun kk r c x =>
        if In ii 4 r ∧ In jj 4 c then Arith.mac x (a r (k + kk)) (b c (k + kk)) else x)
        (fun kk hkk f => ?_) f) f
    rw [steps_one, List.mem_range] at hkk
    have hj' := block_le h4 hb hjj
    simp only [lane_vec _ _ _ _ hkk, M_bind_ok]
    exact tile4_rect (g := fun r c x => Arith.mac x (a r (k + kk)) (b c (k + kk)))
      (exchangedStep_does hB (by omega) (by omega)) (by omega) (by omega) f
  · refine congrArg Except.ok (rect_congr fun r hr c hc => ?_)
    have e1 : ∀ ii k x, (steps 0 bs 4).foldl (fun x jj => (steps 0 4 1).foldl (fun x kk =>
        if In ii 4 r ∧ In jj 4 c then Arith.mac x (a r (k + kk)) (b c (k + kk)) else x) x) x =
        if In ii 4 r then (List.range 4).foldl (fun x kk =>
          Arith.mac x (a r (k + kk)) (b c (k + kk))) x else x := by
      intro ii k x
      simp only [foldl_ite, steps_one]
      rw [foldl_and (g := fun x _ => (List.range 4).foldl (fun x kk =>
          Arith.mac x (a r (k + kk)) (b c (k + kk))) x), foldl_block h4 hc]
    simp only [e1]
    simp only [foldl_ite]
    rw [foldl_block h4 hr (fun x _ => (steps 0 kc 4).foldl (fun x k => (List.range 4).foldl (fun x kk =>
          Arith.mac x (a r (k + kk)) (b c (k + kk))) x) x)]
    exact kblocks kc 4 h4 hk (fun x k => Arith.mac x (a r k) (b c k)) (f r c)

/-- The loop over `kBlock`, starting from a matrix of zeros. -/
theorem kloop_ok {n kc bs i j : Nat} (hk : 0 < kc) {body : Nat → Array α → M (Array α)}
    {step : Nat → Nat → Nat → α → α}
    (h : ∀ kb ∈ steps 0 n kc, ∀ f, body kb (rect bs bs f) =
      .ok (rect bs bs fun r c => step kb (i + r) (j + c) (f r c))) :
    forStep 0 n kc (rect bs bs fun _ _ => Arith.zero) body =
      .ok (rect bs bs fun r c =>
        (fun R C => (steps 0 n kc).foldl (fun x kb => step kb R C x) Arith.zero) (i + r) (j + c)) :=
  rect_loop hk (step := fun kb r c x => step kb (i + r) (j + c) x) h _

theorem dot_blocks {n kc : Nat} (hk : 0 < kc) (hn : kc ∣ n) (f g : Nat → α) :
    (steps 0 n kc).foldl (fun x kb => dotFrom x (List.range kc) (fun k => f (kb + k))
      (fun k => g (kb + k))) Arith.zero = dot n f g :=
  kblocks n kc hk hn (fun x k => Arith.mac x (f k) (g k)) _

theorem exchangedCompute_ok {bs kc n i j : Nat} (h0 : 0 < bs) (h0' : 0 < kc) (hb : 4 ∣ bs)
    (hk : 4 ∣ kc) (hn : bs ∣ n) (hn' : kc ∣ n) {st : Stack α} (hst : st.Sized bs kc)
    {A B : Array α} {a b : Nat → Nat → α} (hA : Holds A n n a) (hB : Holds B n n b)
    (hi : i ∈ steps 0 n bs) (hj : j ∈ steps 0 n bs) :
    exchangedCompute bs kc st A B n i j = .ok (rect bs bs fun r c => mulSpec n a b (i + r) (j + c)) := by
  unfold exchangedCompute
  rw [clear_ok (hst.result i j), M_bind_ok, kloop_ok h0' (step := fun kb r c x =>
    dotFrom x (List.range kc) (fun k => a r (kb + k)) (fun k => b (kb + k) c)) (i := i) (j := j)]
  · refine congrArg Except.ok (rect_congr fun r _ c _ => ?_)
    exact dot_blocks h0' hn' _ (fun k => b k (j + c))
  · intro kb hkb f
    rw [loadRows_ok hA (block_le h0 hn hi) (block_le h0' hn' hkb) (hst.AA i j kb), M_bind_ok,
      loadCols_ok hB (block_le h0 hn hj) (block_le h0' hn' hkb) (by rw [hst.BB, Nat.mul_comm]), M_bind_ok,
      exchangedInner_ok hb hk]

/-! ### multGPU -/

/-- Lane `l` of the four partial sums over `kc` products. -/
def laneSum (kc : Nat) (f g : Nat → α) (l : Nat) : α :=
  dotFrom Arith.zero (steps 0 kc 4) (fun k => f (k + l)) (fun k => g (k + l))

/-- Add the four lanes to `x`. -/
def addLanes (kc : Nat) (f g : Nat → α) (x : α) : α :=
  (List.range 4).foldl (fun x l => Arith.add x (laneSum kc f g l)) x

/-- The four lanes of a partial sum. -/
def lanes (kc : Nat) (f g : Nat → α) : V4 α :=
  ⟨laneSum kc f g 0, laneSum kc f g 1, laneSum kc f g 2, laneSum kc f g 3⟩

theorem lane_lanes (kc : Nat) (f g : Nat → α) (l : Nat) (h : l < 4) :
    lane (lanes kc f g) l = .ok (laneSum kc f g l) := by
  match l, h with
  | 0, _ => rfl
  | 1, _ => rfl
  | 2, _ => rfl
  | 3, _ => rfl

theorem v4_fold (l : List Nat) (u w : Nat → V4 α) :
    l.foldl (fun s k => V4.mac s (u k) (w k)) (V4.splat Arith.zero) =
      ⟨dotFrom Arith.zero l (fun k => (u k).l0) fun k => (w k).l0,
        dotFrom Arith.zero l (fun k => (u k).l1) fun k => (w k).l1,
        dotFrom Arith.zero l (fun k => (u k).l2) fun k => (w k).l2,
        dotFrom Arith.zero l (fun k => (u k).l3) fun k => (w k).l3⟩ := by
  generalize hF : List.foldl _ _ _ = F
  have hF' : F = ⟨F.l0, F.l1, F.l2, F.l3⟩ := rfl
  rw [hF']
  congr
  · rw [← hF]; exact foldl_proj V4.l0 (fun _ _ => rfl) _ _
  · rw [← hF]; exact foldl_proj V4.l1 (fun _ _ => rfl) _ _
  · rw [← hF]; exact foldl_proj V4.l2 (fun _ _ => rfl) _ _
  · rw [← hF]; exact foldl_proj V4.l3 (fun _ _ => rfl) _ _

theorem lanes_fold (kc : Nat) (a b : Nat → Nat → α) (r c : Nat) :
    (steps 0 kc 4).foldl (fun s k => V4.mac s (vec a r k) (vec b c k)) (V4.splat Arith.zero) =
      lanes kc (a r) (b c) :=
  v4_fold _ _ _

theorem laneMac_ok {bs kc : Nat} {a b : Nat → Nat → α} {AA BB : Array α} (hA : Holds AA bs kc a)
    (hB : Holds BB bs kc b) {r c k : Nat} (hr : r < bs) (hc : c < bs) (hk : k + 3 < kc) (s : V4 α) :
    laneMac AA BB (r * kc + k) (c * kc + k) s = .ok (V4.mac s (vec a r k) (vec b c k)) := by
  unfold laneMac
  simp only [Nat.add_zero]
  rw [macAt_ok (hA r hr k (by omega)) (hB c hc k (by omega)),
    macAt_ok (by rw [Nat.add_assoc]; exact hA r hr (k + 1) (by omega))
      (by rw [Nat.add_assoc]; exact hB c hc (k + 1) (by omega)),
    macAt_ok (by rw [Nat.add_assoc]; exact hA r hr (k + 2) (by omega))
      (by rw [Nat.add_assoc]; exact hB c hc (k + 2) (by omega)),
    macAt_ok (by rw [Nat.add_assoc]; exact hA r hr (k + 3) (by omega))
      (by rw [Nat.add_assoc]; exact hB c hc (k + 3) (by omega))]
  rfl

/-- An update of a single element of a matrix. -/
theorem cell_rect {F : Array α → M (Array α)} {m n r0 c0 : Nat} {g : α → α}
    (h : MDoes F [(r0 * n + c0, g)]) (hr0 : r0 < m) (hc0 : c0 < n) (f : Nat → Nat → α) :
    F (rect m n f) = .ok (rect m n fun r c => if r = r0 ∧ c = c0 then g (f r c) else f r c) := by
  refine MDoes.rect h (fun u hu => ?_) (fun r hr c hc => ?_)
  · rw [List.mem_singleton.1 hu]; exact idx_lt hr0 hc0
  · split
    · next he => rw [he.1, he.2]; simp
    · next he =>
      refine cellFold_none fun u hu he' => he ?_
      rw [List.mem_singleton.1 hu] at he'
      have := idx_inj hc0 hc he'
      omega

theorem gpuInner_ok {bs kc : Nat} (hk : 4 ∣ kc) {a b : Nat → Nat → α} (f : Nat → Nat → α) :
    gpuInner bs kc (rect bs kc a) (rect bs kc b) (rect bs bs f) =
      .ok (rect bs bs fun r c => addLanes kc (a r) (b c) (f r c)) := by
  refine tiles_rect Nat.one_pos Nat.one_pos (step := fun r c x => addLanes kc (a r) (b c) x)
    (fun ii hii jj hjj f => ?_) f
  rw [steps_one, List.mem_range] at hii hjj
  rw [forStep_ok (by decide) (g := fun s k => V4.mac s (vec a ii k) (vec b jj k)), M_bind_ok, lanes_fold]
  · refine (rect_loop Nat.one_pos (step := fun l r c x =>
      if r = ii ∧ c = jj then Arith.add x (laneSum kc (a ii) (b jj) l) else x) (fun l hl f => ?_) f).trans ?_
    · rw [steps_one, List.mem_range] at hl
      rw [lane_lanes _ _ _ _ hl, M_bind_ok]
      exact cell_rect (addAt_does _) hii hjj f
    · refine congrArg Except.ok (rect_congr fun r hr c hc => ?_)
      rw [foldl_ite, steps_one]
      by_cases h : r = ii ∧ c = jj
      · rw [if_pos h, if_pos (by omega), h.1, h.2]; rfl
      · rw [if_neg h, if_neg (by omega)]
  · intro k hk' s
    have := block_le (by decide) hk hk'
    exact laneMac_ok (holds_rect bs kc a) (holds_rect bs kc b) hii hjj (by omega) s

/-- Entry of the result of `multGPU` and `multGPUASM`. -/
def lanesDot (n kc : Nat) (f g : Nat → α) : α :=
  (steps 0 n kc).foldl (fun x kb => addLanes kc (fun k => f (kb + k)) (fun k => g (kb + k)) x) Arith.zero

theorem gpuCompute_ok {bs kc n i j : Nat} (h0 : 0 < bs) (h0' : 0 < kc)
    (hk : 4 ∣ kc) (hn : bs ∣ n) (hn' : kc ∣ n) {st : Stack α} (hst : st.Sized bs kc)
    {A B : Array α} {a b : Nat → Nat → α} (hA : Holds A n n a) (hB : Holds B n n b)
    (hi : i ∈ steps 0 n bs) (hj : j ∈ steps 0 n bs) :
    gpuCompute bs kc st A B n i j =
      .ok (rect bs bs fun r c => (fun r c => lanesDot n kc (a r) (b c)) (i + r) (j + c)) := by
  unfold gpuCompute
  rw [clear_ok (hst.result i j), M_bind_ok, kloop_ok h0' (step := fun kb r c x =>
    addLanes kc (fun k => a r (kb + k)) (fun k => b c (kb + k)) x) (i := i) (j := j)]
  · rfl
  · intro kb hkb f
    rw [loadRows_ok hA (block_le h0 hn hi) (block_le h0' hn' hkb) (hst.AA i j kb), M_bind_ok,
      loadRows_ok hB (block_le h0 hn hj) (block_le h0' hn' hkb) (by rw [hst.BB, Nat.mul_comm]), M_bind_ok,
      gpuInner_ok hk]

/-! ### multGPUASM -/

theorem aligned_idx {o r n c : Nat} (ho : o % 4 = 0) (hn : 4 ∣ n) (hc : 4 ∣ c) :
    (o + (r * n + c)) % 4 = 0 := by
  have h1 : 4 ∣ r * n := Dvd.dvd.mul_left hn r
  omega

theorem load_ok {m n r c o : Nat} {v : Array α} {f : Nat → Nat → α} (hv : Holds v m n f)
    (hr : r < m) (hc : c + 3 < n) (ho : o % 4 = 0) (hn : 4 ∣ n) (hc4 : 4 ∣ c) :
    load o v (r * n + c) = .ok (vec f r c) := by
  rw [load, if_neg (by simp [aligned_idx ho hn hc4]), load4_ok hv hr hc]

theorem load_errs {P : Err → Prop} (h1 : P .oob) (h2 : P .misaligned) (o : Nat) (v : Array α) (i : Nat) :
    MErrs P (load o v i) := by
  unfold load
  refine .ite (.throw h2) ?_
  unfold load4
  exact .bind (.rd h1 _ _) fun _ => .bind (.rd h1 _ _) fun _ => .bind (.rd h1 _ _) fun _ =>
    .bind (.rd h1 _ _) fun _ => .pure

/-- Sixteen values of a 4 × 4 tile. -/
def tile16 {τ : Type} (d : Nat → Nat → τ) (i j : Nat) : Acc16 τ :=
  ⟨d (i + 0) (j + 0), d (i + 0) (j + 1), d (i + 0) (j + 2), d (i + 0) (j + 3),
   d (i + 1) (j + 0), d (i + 1) (j + 1), d (i + 1) (j + 2), d (i + 1) (j + 3),
   d (i + 2) (j + 0), d (i + 2) (j + 1), d (i + 2) (j + 2), d (i + 2) (j + 3),
   d (i + 3) (j + 0), d (i + 3) (j + 1), d (i + 3) (j + 2), d (i + 3) (j + 3)⟩

theorem chunkLoop_fma {oA oB bs kc ii jj : Nat} (hoA : oA % 4 = 0) (hoB : oB % 4 = 0) (hk : 4 ∣ kc)
    {AA BB : Array α} {a b : Nat → Nat → α} (hA : Holds AA bs kc a) (hB : Holds BB bs kc b)
    (hi : ii + 3 < bs) (hj : jj + 3 < bs) (fma : Bool) :
    chunkLoop fma oA oB kc AA BB ii jj = .ok (if fma then
      tile16 (fun r c => lanes kc (a r) (b c)) ii jj else chunkInit) := by
  unfold chunkLoop
  rw [forStep_ok (g := fun s k => if fma then chunkMac s (vec a (ii + 0) k) (vec a (ii + 1) k)
    (vec a (ii + 2) k) (vec a (ii + 3) k) (vec b (jj + 0) k) (vec b (jj + 1) k) (vec b (jj + 2) k)
    (vec b (jj + 3) k) else s) (by decide)]
  · refine congrArg Except.ok ?_
    rw [foldl_ite (P := fma = true)]
    cases fma
    · rfl
    simp only [if_true]
    generalize hF : List.foldl _ _ _ = F
    have hF' : F = ⟨F.result1, F.result2, F.result3, F.result4, F.result5, F.result6, F.result7,
      F.result8, F.result9, F.result10, F.result11, F.result12, F.result13, F.result14, F.result15,
      F.result16⟩ := rfl
    rw [hF', tile16]
    simp only [← lanes_fold]
    congr 1
    · rw [← hF]; exact foldl_proj Acc16.result1 (fun _ _ => rfl) _ _
    · rw [← hF]; exact foldl_proj Acc16.result2 (fun _ _ => rfl) _ _
    · rw [← hF]; exact foldl_proj Acc16.result3 (fun _ _ => rfl) _ _
    · rw [← hF]; exact foldl_proj Acc16.result4 (fun _ _ => rfl) _ _
    · rw [← hF]; exact foldl_proj Acc16.result5 (fun _ _ => rfl) _ _
    · rw [← hF]; exact foldl_proj Acc16.result6 (fun _ _ => rfl) _ _
    · rw [← hF]; exact foldl_proj Acc16.result7 (fun _ _ => rfl) _ _
    · rw [← hF]; exact foldl_proj Acc16.result8 (fun _ _ => rfl) _ _
    · rw [← hF]; exact foldl_proj Acc16.result9 (fun _ _ => rfl) _ _
    · rw [← hF]; exact foldl_proj Acc16.result10 (fun _ _ => rfl) _ _
    · rw [← hF]; exact foldl_proj Acc16.result11 (fun _ _ => rfl) _ _
    · rw [← hF]; exact foldl_proj Acc16.result12 (fun _ _ => rfl) _ _
    · rw [← hF]; exact foldl_proj Acc16.result13 (fun _ _ => rfl) _ _
    · rw [← hF]; exact foldl_proj Acc16.result14 (fun _ _ => rfl) _ _
    · rw [← hF]; exact foldl_proj Acc16.result15 (fun _ _ => rfl) _ _
    · rw [← hF]; exact foldl_proj Acc16.result16 (fun _ _ => rfl) _ _
  · intro k hk' s
    have h3 := block_le (by decide) hk hk'
    have h4 := ((mem_steps0 (by decide)).1 hk').1
    have lA : ∀ p, p < 4 → load oA AA ((ii + p) * kc + k) = .ok (vec a (ii + p) k) := fun p hp =>
      load_ok hA (by omega) (by omega) hoA hk h4
    have lB : ∀ p, p < 4 → load oB BB ((jj + p) * kc + k) = .ok (vec b (jj + p) k) := fun p hp =>
      load_ok hB (by omega) (by omega) hoB hk h4
    rw [lA 0 (by decide), lA 1 (by decide), lA 2 (by decide), lA 3 (by decide), lB 0 (by decide),
      lB 1 (by decide), lB 2 (by decide), lB 3 (by decide)]
    rfl

theorem addLane_does {v : V4 α} {p kk : Nat} {x : α} (h : lane v kk = .ok x) :
    MDoes (fun result => addLane result p v kk) [(p, fun y => Arith.add y x)] := by
  intro a ha
  simp only [addLane, h, M_bind_ok]
  exact addAt_does x a ha

theorem chunkStore_ok {bs ii jj : Nat} {V : Nat → Nat → V4 α} {L : Nat → Nat → Nat → α}
    (hL : ∀ r c l, l < 4 → lane (V r c) l = .ok (L r c l)) (hi : ii + 3 < bs) (hj : jj + 3 < bs)
    (f : Nat → Nat → α) :
    chunkStore bs ii jj (tile16 V ii jj) (rect bs bs f) = .ok (rect bs bs fun r c =>
      if In ii 4 r ∧ In jj 4 c then (List.range 4).foldl (fun x l => Arith.add x (L r c l)) (f r c)
      else f r c) := by
  unfold chunkStore
  refine (rect_loop Nat.one_pos (step := fun l r c x =>
    if In ii 4 r ∧ In jj 4 c then Arith.add x (L r c l) else x) (fun l hl f => ?_) f).trans ?_
  · rw [steps_one, List.mem_range] at hl
    refine tile4_rect (F := chunkAdd bs ii jj (tile16 V ii jj) l)
      (g := fun r c x => Arith.add x (L r c l)) ?_ hi hj f
    unfold chunkAdd
    refine MDoes.cons (addLane_does (hL _ _ l hl)) ?_
    refine MDoes.cons (addLane_does (hL _ _ l hl)) ?_
    refine MDoes.cons (addLane_does (hL _ _ l hl)) ?_
    refine MDoes.cons (addLane_does (hL _ _ l hl)) ?_
    refine MDoes.cons (addLane_does (hL _ _ l hl)) ?_
    refine MDoes.cons (addLane_does (hL _ _ l hl)) ?_
    refine MDoes.cons (addLane_does (hL _ _ l hl)) ?_
    refine MDoes.cons (addLane_does (hL _ _ l hl)) ?_
    refine MDoes.cons (addLane_does (hL _ _ l hl)) ?_
    refine MDoes.cons (addLane_does (hL _ _ l hl)) ?_
    refine MDoes.cons (addLane_does (hL _ _ l hl)) ?_
    refine MDoes.cons (addLane_does (hL _ _ l hl)) ?_
    refine MDoes.cons (addLane_does (hL _ _ l hl)) ?_
    refine MDoes.cons (addLane_does (hL _ _ l hl)) ?_
    refine MDoes.cons (addLane_does (hL _ _ l hl)) ?_
    exact addLane_does (hL _ _ l hl)
  · simp only [foldl_ite, steps_one]

/-- Add four zeros. -/
def addZeros (x : α) : α := (List.range 4).foldl (fun x _ => Arith.add x Arith.zero) x

theorem gpuasmInner_ok {fma : Bool} {oA oB bs kc : Nat} (hoA : oA % 4 = 0) (hoB : oB % 4 = 0)
    (hb : 4 ∣ bs) (hk : 4 ∣ kc) {a b : Nat → Nat → α} (f : Nat → Nat → α) :
    gpuasmInner fma oA oB bs kc (rect bs kc a) (rect bs kc b) (rect bs bs f) =
      .ok (rect bs bs fun r c => if fma then addLanes kc (a r) (b c) (f r c) else addZeros (f r c)) := by
  refine tiles_rect (by decide) (by decide) (step := fun r c x =>
    if fma then addLanes kc (a r) (b c) x else addZeros x) (fun ii hii jj hjj f => ?_) f
  have hi := block_le (by decide) hb hii
  have hj := block_le (by decide) hb hjj
  rw [chunkLoop_fma hoA hoB hk (holds_rect bs kc a) (holds_rect bs kc b) (by omega) (by omega),
    M_bind_ok]
  cases fma
  · exact chunkStore_ok (V := fun _ _ => V4.splat Arith.zero) (L := fun _ _ _ => Arith.zero)
      (fun _ _ l hl => lane_vec (fun _ _ => Arith.zero) 0 0 l hl) (by omega) (by omega) f
  · exact chunkStore_ok (V := fun r c => lanes kc (a r) (b c))
      (L := fun r c l => laneSum kc (a r) (b c) l) (fun _ _ l hl => lane_lanes _ _ _ l hl) (by omega) (by omega) f

theorem gpuasmCompute_ok {fma : Bool} {oA oB bs kc n i j : Nat} (hoA : oA % 4 = 0) (hoB : oB % 4 = 0)
    (h0 : 0 < bs) (h0' : 0 < kc) (hb : 4 ∣ bs)
    (hk : 4 ∣ kc) (hn : bs ∣ n) (hn' : kc ∣ n) {st : Stack α} (hst : st.Sized bs kc)
    {A B : Array α} {a b : Nat → Nat → α} (hA : Holds A n n a) (hB : Holds B n n b)
    (hi : i ∈ steps 0 n bs) (hj : j ∈ steps 0 n bs) :
    gpuasmCompute fma oA oB bs kc st A B n i j =
      .ok (rect bs bs fun r c => (fun r c => if fma then lanesDot n kc (a r) (b c) else
        (steps 0 n kc).foldl (fun x _ => addZeros x) Arith.zero) (i + r) (j + c)) := by
  unfold gpuasmCompute
  rw [clear_ok (hst.result i j), M_bind_ok, kloop_ok h0' (step := fun kb r c x =>
    if fma then addLanes kc (fun k => a r (kb + k)) (fun k => b c (kb + k)) x else addZeros x)
    (i := i) (j := j)]
  · cases fma <;> rfl
  · intro kb hkb f
    rw [loadRows_ok hA (block_le h0 hn hi) (block_le h0' hn' hkb) (hst.AA i j kb), M_bind_ok,
      loadRows_ok hB (block_le h0 hn hj) (block_le h0' hn' hkb) (by rw [hst.BB, Nat.mul_comm]), M_bind_ok,
      gpuasmInner_ok hoA hoB hb hk]

end Verif.Experiments
