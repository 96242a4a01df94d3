import Verif.SpecExperiments
import Verif.Proof.ExperimentsBlocked
/-
Helper lemmas about the kernels multRegister and multIntrinLoop of otherExperiments.
-/
set_option linter.unusedSectionVars false
namespace Verif.Experiments
open Tiled (V4 vec)
open Kernel (foldl_proj)
variable {α : Type} [Arith α]

/-- Lane `l` of a vector. -/
def ln (v : V4 α) : Nat → α
  | 0 => v.l0
  | 1 => v.l1
  | 2 => v.l2
  | _ => v.l3

theorem ln_vec (d : Nat → Nat → α) (r c l : Nat) (h : l < 4) : ln (vec d r c) l = d r (c + l) := by
  match l, h with
  | 0, _ => rfl
  | 1, _ => rfl
  | 2, _ => rfl
  | 3, _ => rfl

theorem ln_splat (x : α) (l : Nat) : ln (V4.splat x) l = x := by
  unfold ln; split <;> rfl

theorem ln_mac (x y z : V4 α) (l : Nat) : ln (V4.mac x y z) l = Arith.mac (ln x l) (ln y l) (ln z l) := by
  unfold ln; split <;> rfl

/-- A store of four neighbouring elements. -/
theorem store_ok {m n r0 c0 o : Nat} (hr0 : r0 < m) (hc0 : c0 + 3 < n) (ho : o % 4 = 0) (hn : 4 ∣ n)
    (hc4 : 4 ∣ c0) (x : V4 α) (f : Nat → Nat → α) :
    store o (rect m n f) (r0 * n + c0) x =
      .ok (rect m n fun r c => if r = r0 ∧ In c0 4 c then ln x (c - c0) else f r c) := by
  rw [store, if_neg (by simp [aligned_idx ho hn hc4])]
  have h : MDoes (fun v => wr v (r0 * n + c0) x.l0 >>= fun v => wr v (r0 * n + c0 + 1) x.l1 >>= fun v =>
      wr v (r0 * n + c0 + 2) x.l2 >>= fun v => wr v (r0 * n + c0 + 3) x.l3)
      ((List.range 4).map fun l => (r0 * n + c0 + l, fun _ => ln x l)) :=
    MDoes.cons MDoes.wr (MDoes.cons MDoes.wr (MDoes.cons MDoes.wr MDoes.wr))
  refine MDoes.rect h (fun u hu => ?_) (fun r hr c hc => ?_)
  · obtain ⟨l, hl, rfl⟩ := List.mem_map.1 hu
    rw [List.mem_range] at hl
    show r0 * n + c0 + l < m * n
    rw [Nat.add_assoc]
    exact idx_lt hr0 (by omega)
  · split
    · next hin =>
      rw [cellFold_map_unique List.nodup_range (i0 := c - c0) (List.mem_range.2 (by omega))]
      · simp only; rw [hin.1]; omega
      · intro l hl hne he
        rw [List.mem_range] at hl
        simp only at he
        rw [Nat.add_assoc] at he
        have := idx_inj (show c0 + l < n by omega) hc he
        omega
    · next hin =>
      refine cellFold_none fun u hu he => hin ?_
      obtain ⟨l, hl, rfl⟩ := List.mem_map.1 hu
      rw [List.mem_range] at hl
      simp only at he
      rw [Nat.add_assoc] at he
      have := idx_inj (show c0 + l < n by omega) hc he
      exact ⟨by omega, by omega, by omega⟩

/-! ### multRegister -/

theorem regLoad_ok {oR bs ii jj : Nat} (ho : oR % 4 = 0) (hb : 4 ∣ bs) (hj4 : 4 ∣ jj)
    (hi : ii + 8 ≤ bs) (hj : jj + 8 ≤ bs) (f : Nat → Nat → α) {reg : Array (V4 α)}
    (hr : reg.size = 16) :
    regLoad oR bs ii jj (rect bs bs f) reg =
      .ok (rect 8 2 fun i j => vec f (ii + i) (jj + j * 4)) := by
  refine fill_rows (fun iii hiii jjj hjjj => ?_) hr
  intro a ha
  simp only [II_BLOCKSIZE, JJ_BLOCKSIZE] at hiii hjjj
  rw [Nat.add_assoc]
  simp only [load_ok (holds_rect bs bs f) (show ii + iii < bs by omega)
    (show jj + jjj * 4 + 3 < bs by omega) ho hb (by omega), M_bind_ok]
  exact MDoes.wr a ha

/-- `resultReg[p] = mac(resultReg[p], x, y)` -/
theorem regMac_does {p : Nat} {x y : V4 α} :
    MDoes (fun reg => rd reg p >>= fun r => wr reg p (V4.mac r x y)) [(p, fun r => V4.mac r x y)] := by
  intro v hv
  have hp : p < v.size := hv _ (List.mem_singleton.2 rfl)
  simp only [rd_ok (Array.getElem?_eq_getElem hp), M_bind_ok, wr, if_pos hp]
  refine congrArg Except.ok ?_
  apply Array.ext_getElem?
  intro q
  rw [applyA_get]
  by_cases h : p = q
  · subst h; simp [hp]
  · have : ∀ r : V4 α, cellFold [(p, fun r => V4.mac r x y)] q r = r := fun r =>
      cellFold_none (fun u hu => by rw [List.mem_singleton.1 hu]; exact h)
    rw [Array.getElem?_setIfInBounds_ne h]
    cases v[q]? <;> simp [this]

/-- An update of a single register. -/
theorem reg_rect {F : Array (V4 α) → M (Array (V4 α))} {m n p : Nat} {g : V4 α → V4 α}
    (h : MDoes F [(p, g)]) (hp : p < m * n) (f : Nat → Nat → V4 α) :
    F (rect m n f) = .ok (rect m n fun r c => if p = r * n + c then g (f r c) else f r c) := by
  refine MDoes.rect h (fun u hu => ?_) (fun r hr c hc => ?_)
  · rw [List.mem_singleton.1 hu]; exact hp
  · split
    · next he => subst he; simp
    · next he =>
      exact cellFold_none fun u hu he' => he (by rw [List.mem_singleton.1 hu] at he'; exact he')

theorem regIndex_lt (fma : Bool) {iii jjj : Nat} (hi : iii < 8) (hj : jjj < 2) :
    regIndex fma iii jjj < 8 * 2 := by
  unfold regIndex JJ_BLOCKSIZE
  split <;> omega

theorem regLoop_ok {fma : Bool} {oB bs kc ii jj : Nat} (ho : oB % 4 = 0) (hb : 4 ∣ bs) (hj4 : 4 ∣ jj)
    (hi : ii + 8 ≤ bs) (hj : jj + 8 ≤ bs) {a b : Nat → Nat → α} (f : Nat → Nat → V4 α) :
    regLoop fma oB bs kc ii jj (rect bs kc a) (rect kc bs b) (rect 8 2 f) =
      .ok (rect 8 2 fun i j => (List.range kc).foldl (fun x k => (List.range 8).foldl (fun x iii =>
        (List.range 2).foldl (fun x jjj => if regIndex fma iii jjj = i * 2 + j then
          V4.mac x (V4.splat (a (ii + iii) k)) (vec b k (jj + jjj * 4)) else x) x) x) (f i j)) := by
  rw [← steps_one kc, ← steps_one 8, ← steps_one 2]
  refine rect_loop Nat.one_pos (step := fun k i j x => (steps 0 8 1).foldl (fun x iii =>
        (steps 0 2 1).foldl (fun x jjj => if regIndex fma iii jjj = i * 2 + j then
          V4.mac x (V4.splat (a (ii + iii) k)) (vec b k (jj + jjj * 4)) else x) x) x)
    (fun k hk f => rect_loop Nat.one_pos (step := fun iii i j x =>
        (steps 0 2 1).foldl (fun x jjj => if regIndex fma iii jjj = i * 2 + j then
          V4.mac x (V4.splat (a (ii + iii) k)) (vec b k (jj + jjj * 4)) else x) x)
      (fun iii hiii f => ?_) f) f
  rw [steps_one, List.mem_range] at hk
  rw [steps_one, List.mem_range] at hiii
  simp only [Nat.add_zero]
  rw [(holds_rect bs kc a).rd (show ii + iii < bs by omega) hk, M_bind_ok]
  refine rect_loop Nat.one_pos (step := fun jjj i j x => if regIndex fma iii jjj = i * 2 + j then
          V4.mac x (V4.splat (a (ii + iii) k)) (vec b k (jj + jjj * 4)) else x) (fun jjj hjjj f => ?_) f
  rw [steps_one, List.mem_range] at hjjj
  rw [Nat.add_assoc, load_ok (holds_rect kc bs b) hk (show jj + jjj * 4 + 3 < bs by
    unfold JJ_BLOCKSIZE at hjjj; omega) ho hb (by omega), M_bind_ok]
  exact reg_rect regMac_does (regIndex_lt fma hiii hjjj) f

theorem regStore_ok {oR bs ii jj : Nat} (ho : oR % 4 = 0) (hb : 4 ∣ bs) (hj4 : 4 ∣ jj)
    (hi : ii + 8 ≤ bs) (hj : jj + 8 ≤ bs) (g : Nat → Nat → V4 α) (f : Nat → Nat → α) :
    regStore oR bs ii jj (rect 8 2 g) (rect bs bs f) =
      .ok (rect bs bs fun r c => if In ii 8 r ∧ In jj 8 c then
        ln (g (r - ii) ((c - jj) / 4)) ((c - jj) % 4) else f r c) := by
  refine (rect_loop Nat.one_pos (step := fun iii r c x => (steps 0 2 1).foldl (fun x jjj =>
      if r = ii + iii ∧ In (jj + jjj * 4) 4 c then ln (g (r - ii) ((c - jj) / 4)) ((c - jj) % 4) else x) x)
    (fun iii hiii f => rect_loop Nat.one_pos (step := fun jjj r c x =>
      if r = ii + iii ∧ In (jj + jjj * 4) 4 c then ln (g (r - ii) ((c - jj) / 4)) ((c - jj) % 4) else x)
      (fun jjj hjjj f => ?_) f) f).trans ?_
  · rw [steps_one, List.mem_range] at hiii
    rw [steps_one, List.mem_range] at hjjj
    simp only [II_BLOCKSIZE] at hiii
    simp only [JJ_BLOCKSIZE]
    rw [(holds_rect 8 2 g).rd hiii hjjj, M_bind_ok, Nat.add_assoc,
      store_ok (show ii + iii < bs by omega) (show jj + jjj * 4 + 3 < bs by omega) ho hb (by omega)]
    refine congrArg Except.ok (rect_congr fun r hr c hc => ?_)
    by_cases h : r = ii + iii ∧ In (jj + jjj * 4) 4 c
    · rw [if_pos h, if_pos h]
      have e1 : r - ii = iii := by omega
      have e2 : (c - jj) / 4 = jjj := by omega
      have e3 : (c - jj) % 4 = c - (jj + jjj * 4) := by omega
      rw [e1, e2, e3]
    · rw [if_neg h, if_neg h]
  · refine congrArg Except.ok (rect_congr fun r hr c hc => ?_)
    have e : ∀ iii x, (steps 0 2 1).foldl (fun x jjj =>
      if r = ii + iii ∧ In (jj + jjj * 4) 4 c then ln (g (r - ii) ((c - jj) / 4)) ((c - jj) % 4) else x) x =
      if r = ii + iii ∧ In jj 8 c then ln (g (r - ii) ((c - jj) / 4)) ((c - jj) % 4) else x := by
      intro iii x
      rw [foldl_set]
      refine if_congr ?_ rfl rfl
      rw [steps_one]
      constructor
      · rintro ⟨jjj, hjjj, h⟩
        rw [List.mem_range] at hjjj
        exact ⟨h.1, by omega, by omega⟩
      · rintro ⟨h1, h2⟩
        exact ⟨(c - jj) / 4, List.mem_range.2 (by omega), h1, by omega, by omega⟩
    simp only [e]
    rw [foldl_set]
    refine if_congr ?_ rfl rfl
    rw [steps_one]
    constructor
    · rintro ⟨iii, hiii, h⟩
      rw [List.mem_range] at hiii
      simp only [II_BLOCKSIZE] at hiii
      exact ⟨⟨by omega, by omega⟩, h.2⟩
    · rintro ⟨h1, h2⟩
      exact ⟨r - ii, List.mem_range.2 (by simp only [II_BLOCKSIZE]; omega), by omega, h2⟩

/-- What a block of the summation index does to the entry `(r, c)`. -/
def regCell (fma : Bool) (kc : Nat) (a b : Nat → Nat → α) (r c : Nat) (x : α) : α :=
  (List.range kc).foldl (fun x k => (List.range 8).foldl (fun x iii =>
    (List.range 2).foldl (fun x jjj => if regIndex fma iii jjj = r % 8 * 2 + c % 8 / 4 then
      Arith.mac x (a (r / 8 * 8 + iii) k) (b k (c / 8 * 8 + jjj * 4 + c % 4)) else x) x) x) x

theorem registerInner_ok {fma : Bool} {oR oB bs kc : Nat} (hoR : oR % 4 = 0) (hoB : oB % 4 = 0)
    (hb : 8 ∣ bs) {reg : Array (V4 α)} (hr : reg.size = 16) {a b : Nat → Nat → α} (f : Nat → Nat → α) :
    registerInner fma oR oB bs kc reg (rect bs kc a) (rect kc bs b) (rect bs bs f) =
      .ok (rect bs bs fun r c => regCell fma kc a b r c (f r c)) := by
  refine tiles_rect (h := 8) (w := 8) (by decide) (by decide) (step := fun r c x => regCell fma kc a b r c x)
    (fun ii hii jj hjj f => ?_) f
  have hi := block_le (by decide) hb hii
  have hj := block_le (by decide) hb hjj
  have hj8 := ((mem_steps0 (by decide)).1 hjj).1
  have hi8 := ((mem_steps0 (by decide)).1 hii).1
  rw [regLoad_ok hoR (by omega) (by omega) hi hj f hr, M_bind_ok,
    regLoop_ok hoB (by omega) (by omega) hi hj, M_bind_ok,
    regStore_ok hoR (by omega) (by omega) hi hj]
  refine congrArg Except.ok (rect_congr fun r hr c hc => ?_)
  by_cases h : In ii 8 r ∧ In jj 8 c
  · rw [if_pos h, if_pos h]
    have e1 : ii = r / 8 * 8 := by omega
    have e2 : jj = c / 8 * 8 := by omega
    have e3 : r - ii = r % 8 := by omega
    have e4 : (c - jj) / 4 = c % 8 / 4 := by omega
    have e5 : (c - jj) % 4 = c % 4 := by omega
    rw [e3, e4, e5]
    unfold regCell
    rw [foldl_proj (fun v => ln v (c % 4)) (g' := fun x k => (List.range 8).foldl (fun x iii =>
    (List.range 2).foldl (fun x jjj => if regIndex fma iii jjj = r % 8 * 2 + c % 8 / 4 then
      Arith.mac x (a (r / 8 * 8 + iii) k) (b k (c / 8 * 8 + jjj * 4 + c % 4)) else x) x) x)]
    · have : ln (vec f (ii + r % 8) (jj + c % 8 / 4 * 4)) (c % 4) = f r c := by
        rw [ln_vec _ _ _ _ (by omega)]; congr 1 <;> omega
      rw [this]
    · intro s k
      refine foldl_proj (fun v => ln v (c % 4)) (fun s iii => ?_) _ _
      refine foldl_proj (fun v => ln v (c % 4)) (fun s jjj => ?_) _ _
      split
      · rw [ln_mac, ln_splat, ln_vec _ _ _ _ (by omega), ← e1, ← e2]
      · rfl
  · rw [if_neg h, if_neg h]

/-- With `__FMA__`: the products in ascending order. -/
theorem regCell_fma (kc : Nat) (a b : Nat → Nat → α) (r c : Nat) (x : α) :
    regCell true kc a b r c x = dotFrom x (List.range kc) (a r) (fun k => b k c) := by
  unfold regCell dotFrom
  refine foldl_congr' (fun k _ x => ?_) x
  have e : ∀ iii x, (List.range 2).foldl (fun x jjj =>
      if regIndex true iii jjj = r % 8 * 2 + c % 8 / 4 then
      Arith.mac x (a (r / 8 * 8 + iii) k) (b k (c / 8 * 8 + jjj * 4 + c % 4)) else x) x =
      if iii = r % 8 then Arith.mac x (a (r / 8 * 8 + iii) k) (b k c) else x := by
    intro iii x
    by_cases h : iii = r % 8
    · rw [if_pos h, foldl_unique (P := fun jjj => regIndex true iii jjj = r % 8 * 2 + c % 8 / 4)
        List.nodup_range (i0 := c % 8 / 4) (List.mem_range.2 (by omega))]
      · congr 2; omega
      · simp only [regIndex, JJ_BLOCKSIZE, if_true]; omega
      · intro j hj he
        simp only [regIndex, JJ_BLOCKSIZE, if_true] at he
        omega
    · rw [if_neg h, foldl_none (P := fun jjj => regIndex true iii jjj = r % 8 * 2 + c % 8 / 4)]
      intro j hj he
      rw [List.mem_range] at hj
      simp only [regIndex, JJ_BLOCKSIZE, if_true] at he
      omega
  simp only [e]
  rw [foldl_unique (P := fun iii => iii = r % 8) List.nodup_range (i0 := r % 8)
    (List.mem_range.2 (by omega)) rfl (fun _ _ h => h)]
  congr 2
  omega

/-- Without `__FMA__` the last three of eight rows are left as they are. -/
theorem regCell_noFma (kc : Nat) (a b : Nat → Nat → α) (r c : Nat) (hr : 5 ≤ r % 8) (x : α) :
    regCell false kc a b r c x = x := by
  unfold regCell
  have e : ∀ k x, (List.range 8).foldl (fun x iii => (List.range 2).foldl (fun x jjj =>
      if regIndex false iii jjj = r % 8 * 2 + c % 8 / 4 then
      Arith.mac x (a (r / 8 * 8 + iii) k) (b k (c / 8 * 8 + jjj * 4 + c % 4)) else x) x) x = x := by
    intro k x
    refine (foldl_congr' (g := fun x _ => x) (fun iii hiii x => ?_) x).trans ?_
    · rw [List.mem_range] at hiii
      rw [foldl_none (P := fun jjj => regIndex false iii jjj = r % 8 * 2 + c % 8 / 4)]
      intro j hj he
      rw [List.mem_range] at hj
      simp only [regIndex, JJ_BLOCKSIZE] at he
      simp at he
      omega
    · exact List.foldl_fixed' (fun _ => rfl) _
  simp only [e]
  exact List.foldl_fixed' (fun _ => rfl) _

/-- Entry of the result of `multRegister`. -/
def regDot (fma : Bool) (n kc : Nat) (a b : Nat → Nat → α) (r c : Nat) : α :=
  (steps 0 n kc).foldl (fun x kb =>
    regCell fma kc (fun r k => a r (kb + k)) (fun k c => b (kb + k) c) r c x) Arith.zero

theorem regCell_shift {fma : Bool} {kc i j : Nat} (hi : 8 ∣ i) (hj : 8 ∣ j) (a b : Nat → Nat → α)
    (r c : Nat) (x : α) :
    regCell fma kc (fun r k => a (i + r) k) (fun k c => b k (j + c)) r c x =
      regCell fma kc a b (i + r) (j + c) x := by
  unfold regCell
  have e1 : (i + r) % 8 = r % 8 := by omega
  have e2 : (j + c) % 8 = c % 8 := by omega
  have e3 : (j + c) % 4 = c % 4 := by omega
  have e4 : ∀ t, (i + r) / 8 * 8 + t = i + (r / 8 * 8 + t) := by omega
  have e5 : ∀ t, (j + c) / 8 * 8 + t * 4 + c % 4 = j + (c / 8 * 8 + t * 4 + c % 4) := by omega
  simp only [e1, e2, e3, e4, e5]

theorem registerCompute_ok {fma : Bool} {oR oB bs kc n i j : Nat} (hoR : oR % 4 = 0) (hoB : oB % 4 = 0)
    (h0 : 0 < bs) (h0' : 0 < kc) (hb : 8 ∣ bs)
    (hn : bs ∣ n) (hn' : kc ∣ n) {st : Stack α} (hst : st.Sized bs kc)
    {A B : Array α} {a b : Nat → Nat → α} (hA : Holds A n n a) (hB : Holds B n n b)
    (hi : i ∈ steps 0 n bs) (hj : j ∈ steps 0 n bs) :
    registerCompute fma oR oB bs kc st A B n i j =
      .ok (rect bs bs fun r c => regDot fma n kc a b (i + r) (j + c)) := by
  unfold registerCompute
  rw [clear_ok (hst.result i j), M_bind_ok, kloop_ok h0' (step := fun kb r c x =>
    regCell fma kc (fun r k => a r (kb + k)) (fun k c => b (kb + k) c) r c x) (i := i) (j := j)]
  · rfl
  · intro kb hkb f
    rw [loadRows_ok hA (block_le h0 hn hi) (block_le h0' hn' hkb) (hst.AA i j kb), M_bind_ok,
      loadBand_ok hB (block_le h0 hn hj) (block_le h0' hn' hkb) (hst.BB i j kb), M_bind_ok,
      registerInner_ok hoR hoB hb hst.resultReg]
    refine congrArg Except.ok (rect_congr fun r _ c _ => ?_)
    have h8i : 8 ∣ i := Nat.dvd_trans hb ((mem_steps0 h0).1 hi).1
    have h8j : 8 ∣ j := Nat.dvd_trans hb ((mem_steps0 h0).1 hj).1
    exact regCell_shift h8i h8j (fun r k => a r (kb + k)) (fun k c => b (kb + k) c) r c _

theorem regDot_fma {n kc : Nat} (hk : 0 < kc) (hn : kc ∣ n) (a b : Nat → Nat → α) (r c : Nat) :
    regDot true n kc a b r c = mulSpec n a b r c := by
  unfold regDot
  simp only [regCell_fma]
  exact dot_blocks hk hn (a r) (fun k => b k c)

/-- Without `__FMA__`, one value of `k`. -/
theorem regStep_noFma (f g : Nat → α) (t : Nat) (ht : t < 16) (x : α) :
    (List.range 8).foldl (fun x iii => (List.range 2).foldl (fun x jjj =>
      if regIndex false iii jjj = t then Arith.mac x (f iii) (g jjj) else x) x) x =
    (let x := if 2 ≤ t ∧ t < 10 then Arith.mac x (f (t - 2)) (g 1) else x
     if t < 8 then Arith.mac x (f t) (g 0) else x) := by
  have h8 : List.range 8 = [0, 1, 2, 3, 4, 5, 6, 7] := rfl
  have h2 : List.range 2 = [0, 1] := rfl
  rw [h8, h2]
  simp only [List.foldl_cons, List.foldl_nil, regIndex, JJ_BLOCKSIZE]
  have : t = 0 ∨ t = 1 ∨ t = 2 ∨ t = 3 ∨ t = 4 ∨ t = 5 ∨ t = 6 ∨ t = 7 ∨ t = 8 ∨ t = 9 ∨ t = 10 ∨
    t = 11 ∨ t = 12 ∨ t = 13 ∨ t = 14 ∨ t = 15 := by omega
  rcases this with rfl | rfl | rfl | rfl | rfl | rfl | rfl | rfl | rfl | rfl | rfl | rfl | rfl | rfl |
    rfl | rfl <;> simp

theorem regDot_crossed {n kc : Nat} (hk : 0 < kc) (hn : kc ∣ n) (a b : Nat → Nat → α) (r c : Nat) :
    regDot false n kc a b r c = crossedDot n a b r c := by
  unfold regDot regCell crossedDot
  have ht : r % 8 * 2 + c % 8 / 4 < 16 := by omega
  have e1 : r / 8 * 8 = r - r % 8 := by omega
  have e2 : c / 8 * 8 = c - c % 8 := by omega
  have e3 : r % 8 * 2 + c % 8 / 4 = 2 * (r % 8) + c % 8 / 4 := by omega
  have key : ∀ k x, (List.range 8).foldl (fun x iii => (List.range 2).foldl (fun x jjj =>
      if regIndex false iii jjj = r % 8 * 2 + c % 8 / 4 then
      Arith.mac x (a (r / 8 * 8 + iii) k) (b k (c / 8 * 8 + jjj * 4 + c % 4)) else x) x) x = _ :=
    fun k x => regStep_noFma (fun iii => a (r / 8 * 8 + iii) k)
      (fun jjj => b k (c / 8 * 8 + jjj * 4 + c % 4)) _ ht x
  simp only [key]
  simp only [e1, e2, e3, Nat.one_mul, Nat.zero_mul, Nat.add_zero]
  exact kblocks n kc hk hn (fun x k => if 2 * (r % 8) + c % 8 / 4 < 8 then
      Arith.mac (if 2 ≤ 2 * (r % 8) + c % 8 / 4 ∧ 2 * (r % 8) + c % 8 / 4 < 10 then
        Arith.mac x (a (r - r % 8 + (2 * (r % 8) + c % 8 / 4 - 2)) k) (b k (c - c % 8 + 4 + c % 4))
        else x) (a (r - r % 8 + (2 * (r % 8) + c % 8 / 4)) k) (b k (c - c % 8 + c % 4))
    else if 2 ≤ 2 * (r % 8) + c % 8 / 4 ∧ 2 * (r % 8) + c % 8 / 4 < 10 then
      Arith.mac x (a (r - r % 8 + (2 * (r % 8) + c % 8 / 4 - 2)) k) (b k (c - c % 8 + 4 + c % 4))
    else x) Arith.zero

theorem regDot_noFma {n kc : Nat} (a b : Nat → Nat → α) (r c : Nat) (hr : 5 ≤ r % 8) :
    regDot false n kc a b r c = Arith.zero := by
  unfold regDot
  simp only [regCell_noFma _ _ _ _ _ hr]
  exact List.foldl_fixed' (fun _ => rfl) _

end Verif.Experiments
