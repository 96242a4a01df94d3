import Verif.Proof.ExperimentsRegister
/-
Helper lemmas about the kernel multIntrinLoop of otherExperiments.
-/
set_option linter.unusedSectionVars false
namespace Verif.Experiments
open Tiled (V4 vec)
open Kernel (foldl_proj)
variable {α : Type} [Arith α]

omit [Arith α] in
/-- Every array of `m * n` elements is a matrix. -/
theorem exists_rect {τ : Type} (x : τ) {m n : Nat} {v : Array τ} (h : v.size = m * n) :
    ∃ f, v = rect m n f := by
  refine ⟨fun i j => (v[i * n + j]?).getD x, eq_rect h fun i hi j hj => ?_⟩
  have := idx_lt hi hj
  rw [Array.getElem?_eq_getElem (by omega)]
  rfl

theorem clear4_ok {bs : Nat} (hb : 4 ∣ bs) {a : Array α} (ha : a.size = bs * bs) :
    clear4 bs a = .ok (rect bs bs fun _ _ => Arith.zero) := by
  obtain ⟨f, rfl⟩ := exists_rect Arith.zero ha
  refine tiles_rect (h := 1) (w := 4) (by decide) (by decide) (step := fun _ _ _ => Arith.zero)
    (fun ii hii jj hjj f => ?_) f
  have hi := ((mem_steps0 (by decide)).1 hii).2
  have hj := block_le (by decide) hb hjj
  rw [store_ok hi (by omega) rfl hb ((mem_steps0 (by decide)).1 hjj).1]
  refine congrArg Except.ok (rect_congr fun r hr c hc => ?_)
  simp only [ln_splat]
  refine if_congr ?_ rfl rfl
  omega

theorem loadBlock4_ok {o : Nat} (ho : o % 4 = 0) {src : Array α} {n x y R W : Nat} (hn : 4 ∣ n)
    (hy4 : 4 ∣ y) (hW : 4 ∣ W) {a : Nat → Nat → α} (hA : Holds src n n a) (hx : x + R ≤ n) (hy : y + W ≤ n)
    {AA : Array α} (hs : AA.size = R * W) :
    loadBlock4 o src n x y R W AA = .ok (rect R W fun i k => a (x + i) (y + k)) := by
  obtain ⟨f, rfl⟩ := exists_rect Arith.zero hs
  refine tiles_rect (h := 1) (w := 4) (by decide) (by decide) (step := fun r c _ => a (x + r) (y + c))
    (fun ii hii jj hjj f => ?_) f
  have hi := ((mem_steps0 (by decide)).1 hii).2
  have hj := block_le (by decide) hW hjj
  have hj4 := ((mem_steps0 (by decide)).1 hjj).1
  rw [load_ok hA (by omega) (by omega) ho hn (by omega), M_bind_ok,
    store_ok hi (by omega) rfl hW hj4]
  refine congrArg Except.ok (rect_congr fun r hr c hc => ?_)
  by_cases h : r = ii ∧ In jj 4 c
  · rw [if_pos h, if_pos (by omega), ln_vec _ _ _ _ (by omega)]
    congr 1 <;> omega
  · rw [if_neg h, if_neg (by omega)]

/-- Loops over the sixteen registers; the register of the row `i` and of the columns `4 * q`, … has
the number `4 * q + i`. -/
theorem regs44 {outer : Nat → Array (V4 α) → M (Array (V4 α))}
    {body : Nat → Nat → Array (V4 α) → M (Array (V4 α))} {step : Nat → Nat → V4 α → V4 α}
    (hout : ∀ jjj ∈ steps 0 16 4, ∀ f, outer jjj (rect 4 4 f) =
      forStep 0 4 1 (rect 4 4 f) fun iii a => body jjj iii a)
    (h : ∀ jjj ∈ steps 0 16 4, ∀ iii, iii < 4 → ∀ f, body jjj iii (rect 4 4 f) =
      .ok (rect 4 4 fun q i => if jjj * 1 + iii = q * 4 + i then step q i (f q i) else f q i))
    (f : Nat → Nat → V4 α) :
    forStep 0 16 4 (rect 4 4 f) outer = .ok (rect 4 4 fun q i => step q i (f q i)) := by
  refine (rect_loop (by decide) (step := fun jjj q i x => (steps 0 4 1).foldl (fun x iii =>
      if jjj * 1 + iii = q * 4 + i then step q i x else x) x) (fun jjj hjjj f => ?_) f).trans ?_
  · rw [hout jjj hjjj]
    refine rect_loop Nat.one_pos (step := fun iii q i x =>
      if jjj * 1 + iii = q * 4 + i then step q i x else x) (fun iii hiii f => ?_) f
    rw [steps_one, List.mem_range] at hiii
    exact h jjj hjjj iii hiii f
  · refine congrArg Except.ok (rect_congr fun q hq i hi => ?_)
    have e : ∀ jjj ∈ steps 0 16 4, ∀ x, (steps 0 4 1).foldl (fun x iii =>
        if jjj * 1 + iii = q * 4 + i then step q i x else x) x = if jjj = q * 4 then step q i x else x := by
      intro jjj hjjj x
      have h4 := ((mem_steps0 (by decide)).1 hjjj).1
      rw [steps_one]
      split
      · next h =>
        exact foldl_unique (P := fun iii => jjj * 1 + iii = q * 4 + i) List.nodup_range
          (g := fun x _ => step q i x) (List.mem_range.2 hi) (by omega) (fun _ _ _ => by omega) x
      · next h =>
        refine foldl_none (P := fun iii => jjj * 1 + iii = q * 4 + i) (fun iii hiii he => ?_) x
        rw [List.mem_range] at hiii
        omega
    rw [foldl_congr' (fun jjj hjjj x => e jjj hjjj x)]
    exact foldl_unique (P := fun jjj => jjj = q * 4) (steps_nodup (by decide)) (g := fun x _ => step q i x)
      ((mem_steps0 (by decide)).2 ⟨by omega, by omega⟩) rfl (fun _ _ h => h) _

theorem ilLoad_ok {bs ii jj : Nat} (hb : 4 ∣ bs) (hj4 : 4 ∣ jj)
    (hi : ii + 4 ≤ bs) (hj : jj + 16 ≤ bs) (f : Nat → Nat → α) {reg : Array (V4 α)}
    (hr : reg.size = 16) :
    ilLoad bs ii jj (rect bs bs f) reg =
      .ok (rect 4 4 fun q i => vec f (ii + i) (jj + q * 4)) := by
  obtain ⟨reg, rfl⟩ := exists_rect (V4.splat Arith.zero) (m := 4) (n := 4) hr
  refine regs44 (step := fun q i _ => vec f (ii + i) (jj + q * 4)) (fun jjj _ f => rfl)
    (fun jjj hjjj iii hiii g => ?_) reg
  have h4 := (mem_steps0 (by decide)).1 hjjj
  rw [Nat.add_assoc, load_ok (holds_rect bs bs f) (by omega) (by omega) rfl hb (by omega), M_bind_ok]
  refine (reg_rect MDoes.wr ?_ g).trans (congrArg Except.ok (rect_congr fun q hq i hi => ?_))
  · show jjj * 1 + iii < 4 * 4
    omega
  · show (if jjj * 1 + iii = q * 4 + i then _ else _) = _
    split
    · next h =>
      have e1 : iii = i := by omega
      have e2 : jjj = q * 4 := by omega
      rw [e1, e2]
    · rfl

theorem ilLoop_ok {bs kc ii jj : Nat} (hb : 4 ∣ bs) (hj4 : 4 ∣ jj)
    (hi : ii + 4 ≤ bs) (hj : jj + 16 ≤ bs) {a b : Nat → Nat → α} (f : Nat → Nat → V4 α) :
    ilLoop bs kc ii jj (rect bs kc a) (rect kc bs b) (rect 4 4 f) =
      .ok (rect 4 4 fun q i => (List.range kc).foldl (fun x k =>
        V4.mac x (V4.splat (a (ii + i) k)) (vec b k (jj + q * 4))) (f q i)) := by
  rw [← steps_one kc]
  refine rect_loop Nat.one_pos (step := fun k q i x =>
    V4.mac x (V4.splat (a (ii + i) k)) (vec b k (jj + q * 4))) (fun k hk f => ?_) f
  rw [steps_one, List.mem_range] at hk
  have hreg : ((List.range REG_BLOCK_II).mapM fun iii => (do
      let x ← rd (rect bs kc a) ((ii + iii) * kc + k + 0)
      pure (V4.splat x) : M (V4 α))) =
      .ok [V4.splat (a (ii + 0) k), V4.splat (a (ii + 1) k), V4.splat (a (ii + 2) k),
        V4.splat (a (ii + 3) k)] := by
    show ([0, 1, 2, 3] : List Nat).mapM _ = _
    simp only [List.mapM_cons, List.mapM_nil, Nat.add_zero]
    have hA := fun p (hp : p < 4) => (holds_rect bs kc a).rd (i := ii + p) (j := k) (by omega) hk
    have h0 := hA 0 (by decide)
    rw [Nat.add_zero] at h0
    rw [h0, hA 1 (by decide), hA 2 (by decide), hA 3 (by decide)]
    rfl
  rw [hreg, M_bind_ok]
  have hget : ∀ iii, iii < 4 → rd [V4.splat (a (ii + 0) k), V4.splat (a (ii + 1) k),
      V4.splat (a (ii + 2) k), V4.splat (a (ii + 3) k)].toArray iii = .ok (V4.splat (a (ii + iii) k)) := by
    intro iii h
    match iii, h with
    | 0, _ => rfl
    | 1, _ => rfl
    | 2, _ => rfl
    | 3, _ => rfl
  have hld : ∀ jjj ∈ steps 0 16 4, load 0 (rect kc bs b) ((k + 0) * bs + (jj + jjj)) =
      .ok (vec b k (jj + jjj)) := by
    intro jjj hjjj
    have h4 := (mem_steps0 (by decide)).1 hjjj
    rw [Nat.add_zero, load_ok (holds_rect kc bs b) hk (by omega) rfl hb (by omega)]
  refine regs44 (body := fun jjj iii reg => do
      let a ← rd [V4.splat (a (ii + 0) k), V4.splat (a (ii + 1) k), V4.splat (a (ii + 2) k),
        V4.splat (a (ii + 3) k)].toArray iii
      let r ← rd reg (jjj * REG_BLOCK_II_STRIDE + iii)
      wr reg (jjj * REG_BLOCK_II_STRIDE + iii) (V4.mac r a (vec b k (jj + jjj))))
    (step := fun q i x => V4.mac x (V4.splat (a (ii + i) k)) (vec b k (jj + q * 4)))
    (fun jjj hjjj f => ?_) (fun jjj hjjj iii hiii g => ?_) f
  · rw [hld jjj hjjj, M_bind_ok]
    rfl
  · have h4 := (mem_steps0 (by decide)).1 hjjj
    rw [hget iii hiii, M_bind_ok]
    refine (reg_rect regMac_does ?_ g).trans (congrArg Except.ok (rect_congr fun q hq i hi => ?_))
    · show jjj * 1 + iii < 4 * 4
      omega
    · show (if jjj * 1 + iii = q * 4 + i then _ else _) = _
      split
      · next h =>
        have e1 : iii = i := by omega
        have e2 : jjj = q * 4 := by omega
        rw [e1, e2]
      · rfl

theorem ilStore_ok {bs ii jj : Nat} (hb : 4 ∣ bs) (hj4 : 4 ∣ jj)
    (hi : ii + 4 ≤ bs) (hj : jj + 16 ≤ bs) (g : Nat → Nat → V4 α) (f : Nat → Nat → α) :
    ilStore bs ii jj (rect 4 4 g) (rect bs bs f) =
      .ok (rect bs bs fun r c => if In ii 4 r ∧ In jj 16 c then
        ln (g ((c - jj) / 4) (r - ii)) ((c - jj) % 4) else f r c) := by
  refine (rect_loop Nat.one_pos (step := fun iii r c x => (steps 0 16 4).foldl (fun x jjj =>
      if r = ii + iii ∧ In (jj + jjj) 4 c then ln (g ((c - jj) / 4) (r - ii)) ((c - jj) % 4) else x) x)
    (fun iii hiii f => rect_loop (by decide) (step := fun jjj r c x =>
      if r = ii + iii ∧ In (jj + jjj) 4 c then ln (g ((c - jj) / 4) (r - ii)) ((c - jj) % 4) else x)
      (fun jjj hjjj f => ?_) f) f).trans ?_
  · rw [steps_one, List.mem_range] at hiii
    have hiii : iii < 4 := hiii
    have h4 : 4 ∣ jjj ∧ jjj < 16 := (mem_steps0 (by decide)).1 hjjj
    have e : jjj * REG_BLOCK_II_STRIDE + iii = jjj / 4 * 4 + iii := by
      show jjj * 1 + iii = _
      omega
    beta_reduce
    rw [e, (holds_rect 4 4 g).rd (by omega) hiii, M_bind_ok, Nat.add_assoc,
      store_ok (show ii + iii < bs by omega) (show jj + jjj + 3 < bs by omega) rfl hb (by omega)]
    refine congrArg Except.ok (rect_congr fun r hr c hc => ?_)
    by_cases h : r = ii + iii ∧ In (jj + jjj) 4 c
    · rw [if_pos h, if_pos h]
      have e1 : r - ii = iii := by omega
      have e2 : (c - jj) / 4 = jjj / 4 := by omega
      have e3 : (c - jj) % 4 = c - (jj + jjj) := by omega
      rw [e1, e2, e3]
    · rw [if_neg h, if_neg h]
  · refine congrArg Except.ok (rect_congr fun r hr c hc => ?_)
    have e : ∀ iii x, (steps 0 16 4).foldl (fun x jjj =>
      if r = ii + iii ∧ In (jj + jjj) 4 c then ln (g ((c - jj) / 4) (r - ii)) ((c - jj) % 4) else x) x =
      if r = ii + iii ∧ In jj 16 c then ln (g ((c - jj) / 4) (r - ii)) ((c - jj) % 4) else x := by
      intro iii x
      rw [foldl_set]
      refine if_congr ?_ rfl rfl
      constructor
      · rintro ⟨jjj, hjjj, h⟩
        have h4 := (mem_steps0 (by decide)).1 hjjj
        exact ⟨h.1, by omega, by omega⟩
      · rintro ⟨h1, h2⟩
        exact ⟨(c - jj) / 4 * 4, (mem_steps0 (by decide)).2 ⟨by omega, by omega⟩, h1, by omega, by omega⟩
    simp only [e]
    rw [foldl_set]
    refine if_congr ?_ rfl rfl
    rw [steps_one]
    constructor
    · rintro ⟨iii, hiii, h⟩
      rw [List.mem_range] at hiii
      simp only [REG_BLOCK_II] at hiii
      exact ⟨⟨by omega, by omega⟩, h.2⟩
    · rintro ⟨h1, h2⟩
      exact ⟨r - ii, List.mem_range.2 (by simp only [REG_BLOCK_II]; omega), by omega, h2⟩

theorem ilInner_ok {bs kc : Nat} (hb : 16 ∣ bs) {reg : Array (V4 α)} (hr : reg.size = 16)
    {a b : Nat → Nat → α} (f : Nat → Nat → α) :
    ilInner bs kc reg (rect bs kc a) (rect kc bs b) (rect bs bs f) =
      .ok (rect bs bs fun r c => dotFrom (f r c) (List.range kc) (a r) (fun k => b k c)) := by
  refine tiles_rect (h := 4) (w := 16) (by decide) (by decide)
    (step := fun r c x => dotFrom x (List.range kc) (a r) (fun k => b k c))
    (fun ii hii jj hjj f => ?_) f
  have hi := block_le (by decide) (show 4 ∣ bs by omega) hii
  have hj := block_le (by decide) hb hjj
  have hj4 := ((mem_steps0 (by decide)).1 hjj).1
  rw [ilLoad_ok (by omega) (by omega) hi hj f hr, M_bind_ok,
    ilLoop_ok (by omega) (by omega) hi hj, M_bind_ok, ilStore_ok (by omega) (by omega) hi hj]
  refine congrArg Except.ok (rect_congr fun r hr c hc => ?_)
  by_cases h : In ii 4 r ∧ In jj 16 c
  · rw [if_pos h, if_pos h]
    rw [foldl_proj (fun v => ln v ((c - jj) % 4)) (g' := fun x k => Arith.mac x (a r k) (b k c))]
    · have : ln (vec f (ii + (r - ii)) (jj + (c - jj) / 4 * 4)) ((c - jj) % 4) = f r c := by
        rw [ln_vec _ _ _ _ (by omega)]; congr 1 <;> omega
      rw [this]
      rfl
    · intro s k
      rw [ln_mac, ln_splat, ln_vec _ _ _ _ (by omega)]
      congr 2 <;> omega
  · rw [if_neg h, if_neg h]

theorem ilCompute_ok {oA oB bs kc n i j : Nat} (hoA : oA % 4 = 0) (hoB : oB % 4 = 0)
    (h0 : 0 < bs) (h0' : 0 < kc) (hb : 16 ∣ bs) (hk : 4 ∣ kc)
    (hn : bs ∣ n) (hn' : kc ∣ n) {st : Stack α} (hst : st.Sized bs kc)
    {A B : Array α} {a b : Nat → Nat → α} (hA : Holds A n n a) (hB : Holds B n n b)
    (hi : i ∈ steps 0 n bs) (hj : j ∈ steps 0 n bs) :
    ilCompute oA oB bs kc st A B n i j =
      .ok (rect bs bs fun r c => mulSpec n a b (i + r) (j + c)) := by
  have hb4 : 4 ∣ bs := by omega
  have hn4 : 4 ∣ n := Nat.dvd_trans hb4 hn
  have hj4 : 4 ∣ j := Nat.dvd_trans hb4 ((mem_steps0 h0).1 hj).1
  unfold ilCompute
  rw [clear4_ok hb4 (hst.result i j), M_bind_ok, kloop_ok h0' (step := fun kb r c x =>
    dotFrom x (List.range kc) (fun k => a r (kb + k)) (fun k => b (kb + k) c)) (i := i) (j := j)]
  · refine congrArg Except.ok (rect_congr fun r _ c _ => ?_)
    exact dot_blocks h0' hn' _ (fun k => b k (j + c))
  · intro kb hkb f
    have hkb4 : 4 ∣ kb := Nat.dvd_trans hk ((mem_steps0 h0').1 hkb).1
    rw [loadBlock4_ok hoA hn4 hkb4 hk hA (block_le h0 hn hi) (block_le h0' hn' hkb) (hst.AA i j kb), M_bind_ok,
      loadBlock4_ok hoB hn4 hj4 hb4 hB (block_le h0' hn' hkb) (block_le h0 hn hj) (hst.BB i j kb), M_bind_ok,
      ilInner_ok hb hst.resultReg]

/-! ### storing with `_mm256_stream_pd` -/

/-- Updates of `stream`. -/
def streamUpd (p : Nat) (x : V4 α) : List (Upd α) :=
  (List.range 4).map fun l => (p + l, fun _ => ln x l)

theorem stream_does {oC nC p : Nat} (ha : (oC + p) % 4 = 0) (hp : p + 3 < nC) (x : V4 α) :
    Act.Does false (stream oC nC p x) () (streamUpd p x) := by
  unfold stream
  rw [if_neg (by simp [ha])]
  refine Act.Does.bind (us := [(p, fun _ => x.l0)]) (Act.Does.write (by omega) _) ?_
  refine Act.Does.bind (us := [(p + 1, fun _ => x.l1)]) (Act.Does.write (by omega) _) ?_
  refine Act.Does.bind (us := [(p + 2, fun _ => x.l2)]) (Act.Does.write (by omega) _) ?_
  exact Act.Does.write (by omega) _

/-- Updates of `ilStoreBlock`. -/
def ilUpd (n bs : Nat) (g : Nat → Nat → α) (i j : Nat) : List (Upd α) :=
  (steps 0 bs 1).flatMap fun ii => (steps 0 bs 4).flatMap fun jj =>
    streamUpd ((i + ii) * n + (j + jj)) (vec g (i + ii) (j + jj))

theorem mem_streamUpd {p : Nat} {x : V4 α} {u : Upd α} (h : u ∈ streamUpd p x) :
    ∃ l, l < 4 ∧ u.1 = p + l := by
  obtain ⟨l, hl, rfl⟩ := List.mem_map.1 h
  exact ⟨l, List.mem_range.1 hl, rfl⟩

theorem ilUpd_covers {n bs : Nat} (hb0 : 0 < bs) (hb : 4 ∣ bs) (hn : bs ∣ n) (g : Nat → Nat → α) :
    Covers n bs g (ilUpd n bs g) where
  inBlock := by
    intro i hi j hj u hu
    obtain ⟨ii, hii, hu⟩ := List.mem_flatMap.1 hu
    obtain ⟨jj, hjj, hu⟩ := List.mem_flatMap.1 hu
    obtain ⟨l, hl, hu⟩ := mem_streamUpd hu
    have hii := ((mem_steps0 (by decide)).1 hii).2
    have hjj := block_le (by decide) hb hjj
    have := mult_lt hb0 hn hj (show jj + l < bs by omega)
    exact ⟨i + ii, j + jj + l, by omega, by omega, by omega, by omega, by omega, by rw [hu]; omega⟩
  cell := by
    intro i hi j hj r c h1 h2 h3 h4 hr hc x
    unfold ilUpd
    rw [cellFold_flatMap_unique (steps_nodup (by decide)) (i0 := r - i)
        ((mem_steps0 (by decide)).2 ⟨one_dvd _, by omega⟩),
      cellFold_flatMap_unique (steps_nodup (by decide)) (i0 := (c - j) / 4 * 4)
        ((mem_steps0 (by decide)).2 ⟨by omega, by omega⟩)]
    · unfold streamUpd
      rw [cellFold_map_unique List.nodup_range (i0 := (c - j) % 4) (List.mem_range.2 (by omega))]
      · have e1 : i + (r - i) = r := by omega
        have e2 : j + (c - j) / 4 * 4 + (c - j) % 4 = c := by omega
        simp only [ln_vec g _ _ _ (show (c - j) % 4 < 4 by omega), e1, e2]
      · have : i + (r - i) = r := by omega
        rw [this]
        omega
      · intro l hl hne he
        have : i + (r - i) = r := by omega
        rw [this] at he
        omega
    · intro jj hjj hne u hu he
      obtain ⟨l, hl, hu⟩ := mem_streamUpd hu
      have h5 := ((mem_steps0 (by decide)).1 hjj).1
      have h6 := block_le (by decide) hb hjj
      have h7 := mult_lt hb0 hn hj (show jj + l < bs by omega)
      rw [hu, Nat.add_assoc] at he
      have := idx_inj (show j + jj + l < n by omega) hc he
      omega
    · intro ii hii hne u hu he
      obtain ⟨jj, hjj, hu⟩ := List.mem_flatMap.1 hu
      obtain ⟨l, hl, hu⟩ := mem_streamUpd hu
      have h6 := block_le (by decide) hb hjj
      have h7 := mult_lt hb0 hn hj (show jj + l < bs by omega)
      rw [hu, Nat.add_assoc] at he
      have := idx_inj (show j + jj + l < n by omega) hc he
      omega

theorem ilStoreBlock_does {oC n bs : Nat} (ho : oC % 4 = 0) (hb0 : 0 < bs) (hb : 4 ∣ bs) (hn : bs ∣ n)
    (g : Nat → Nat → α) {i j : Nat} (hi : i ∈ steps 0 n bs) (hj : j ∈ steps 0 n bs) :
    Act.Does false (ilStoreBlock oC n (n * n) i j bs (rect bs bs fun r c => g (i + r) (j + c))) ()
      (ilUpd n bs g i j) := by
  refine Act.Does.forStep (by decide) fun ii hii => Act.Does.forStep (by decide) fun jj hjj => ?_
  have hii := ((mem_steps0 (by decide)).1 hii).2
  have h5 := ((mem_steps0 (by decide)).1 hjj).1
  have hjj := block_le (by decide) hb hjj
  have hj4 : 4 ∣ j := Nat.dvd_trans hb ((mem_steps0 hb0).1 hj).1
  have hn4 : 4 ∣ n := Nat.dvd_trans hb hn
  refine Act.Does.ofM_bind (load_ok (holds_rect bs bs _) hii (by omega) rfl hb h5) ?_
  have h7 := mult_lt hb0 hn hj (show jj + 3 < bs by omega)
  have h8 := idx_lt (mult_lt hb0 hn hi hii) h7
  refine stream_does (aligned_idx ho hn4 (by omega)) (by omega) _

theorem il_does {oC n bs : Nat} (ho : oC % 4 = 0) (hb0 : 0 < bs) (hb : 4 ∣ bs) (hn : bs ∣ n)
    {compute : Nat → Nat → M (Array α)} {g : Nat → Nat → α}
    (hc : ∀ i ∈ steps 0 n bs, ∀ j ∈ steps 0 n bs,
      compute i j = .ok (rect bs bs fun r c => g (i + r) (j + c))) :
    Tree.Does false (blockTree n bs compute fun i j => ilStoreBlock oC n (n * n) i j bs)
      ((steps 0 n bs).flatMap fun i => (steps 0 n bs).flatMap fun j => ilUpd n bs g i j) :=
  blockTree_does hb0 (ilUpd_covers hb0 hb hn g).inBlock hc
    fun _ hi _ hj => ilStoreBlock_does ho hb0 hb hn g hi hj

end Verif.Experiments
