import Verif.Proof.ExperimentsIntrin
/-
Errors of the larger kernels of otherExperiments, and the kernel multASM.
-/
set_option linter.unusedSectionVars false
namespace Verif.Experiments
open Tiled (V4 vec)
open Kernel (foldl_proj)
variable {α : Type} [Arith α] {E : Err → Prop}

/-! ### errors of the building blocks -/

theorem clear_errs (h : E .oob) (bs : Nat) (a : Array α) : MErrs E (clear bs a) :=
  .forStep (by decide) (fun _ _ => .forStep (by decide) (fun _ _ => .wr h _ _ _) _) _

theorem loadRows_errs (h : E .oob) (src : Array α) (n x kb bs kc : Nat) (a : Array α) :
    MErrs E (loadRows src n x kb bs kc a) :=
  .forStep (by decide) (fun _ _ => .forStep (by decide) (fun _ _ =>
    .bind (.rd h _ _) fun _ => .wr h _ _ _) _) _

theorem loadCols_errs (h : E .oob) (src : Array α) (n x kb bs kc : Nat) (a : Array α) :
    MErrs E (loadCols src n x kb bs kc a) :=
  .forStep (by decide) (fun _ _ => .forStep (by decide) (fun _ _ =>
    .bind (.rd h _ _) fun _ => .wr h _ _ _) _) _

theorem loadBand_errs (h : E .oob) (src : Array α) (n x kb bs kc : Nat) (a : Array α) :
    MErrs E (loadBand src n x kb bs kc a) :=
  .forStep (by decide) (fun _ _ => .forStep (by decide) (fun _ _ =>
    .bind (.rd h _ _) fun _ => .wr h _ _ _) _) _

theorem lane_errs (h : E .oob) (v : V4 α) (kk : Nat) : MErrs E (lane v kk) := by
  unfold lane
  split
  · exact .pure
  · exact .pure
  · exact .pure
  · exact .pure
  · exact .throw h

theorem load4_errs (h : E .oob) (v : Array α) (i : Nat) : MErrs E (load4 v i) :=
  .bind (.rd h _ _) fun _ => .bind (.rd h _ _) fun _ => .bind (.rd h _ _) fun _ =>
    .bind (.rd h _ _) fun _ => .pure

theorem store_errs (h1 : E .oob) (h2 : E .misaligned) (o : Nat) (v : Array α) (i : Nat) (x : V4 α) :
    MErrs E (store o v i x) :=
  .ite (.throw h2) (.bind (.wr h1 _ _ _) fun _ => .bind (.wr h1 _ _ _) fun _ =>
    .bind (.wr h1 _ _ _) fun _ => .wr h1 _ _ _)

theorem macCell_errs (h : E .oob) (BB a : Array α) (p : Nat) (x : α) (pb : Nat) :
    MErrs E (macCell BB a p x pb) :=
  .bind (.rd h _ _) fun _ => .bind (.rd h _ _) fun _ => .wr h _ _ _

theorem addAt_errs (h : E .oob) (a : Array α) (p : Nat) (x : α) : MErrs E (addAt a p x) :=
  .bind (.rd h _ _) fun _ => .wr h _ _ _

theorem macAt_errs' (h : E .oob) (A B : Array α) (pa pb : Nat) (r : α) : MErrs E (macAt A B pa pb r) :=
  .bind (.rd h _ _) fun _ => .bind (.rd h _ _) fun _ => .pure

theorem exchangedStep_errs (h : E .oob) (bs kc : Nat) (BB : Array α) (a1 a2 a3 a4 : α)
    (ii jj kk : Nat) (a : Array α) : MErrs E (exchangedStep bs kc BB a1 a2 a3 a4 ii jj kk a) := by
  unfold exchangedStep
  refine .bind (macCell_errs h _ _ _ _ _) fun _ => ?_
  refine .bind (macCell_errs h _ _ _ _ _) fun _ => ?_
  refine .bind (macCell_errs h _ _ _ _ _) fun _ => ?_
  refine .bind (macCell_errs h _ _ _ _ _) fun _ => ?_
  refine .bind (macCell_errs h _ _ _ _ _) fun _ => ?_
  refine .bind (macCell_errs h _ _ _ _ _) fun _ => ?_
  refine .bind (macCell_errs h _ _ _ _ _) fun _ => ?_
  refine .bind (macCell_errs h _ _ _ _ _) fun _ => ?_
  refine .bind (macCell_errs h _ _ _ _ _) fun _ => ?_
  refine .bind (macCell_errs h _ _ _ _ _) fun _ => ?_
  refine .bind (macCell_errs h _ _ _ _ _) fun _ => ?_
  refine .bind (macCell_errs h _ _ _ _ _) fun _ => ?_
  refine .bind (macCell_errs h _ _ _ _ _) fun _ => ?_
  refine .bind (macCell_errs h _ _ _ _ _) fun _ => ?_
  refine .bind (macCell_errs h _ _ _ _ _) fun _ => ?_
  exact macCell_errs h _ _ _ _ _

theorem exchangedInner_errs (h : E .oob) (bs kc : Nat) (AA BB a : Array α) :
    MErrs E (exchangedInner bs kc AA BB a) := by
  refine .forStep (by decide) (fun _ _ => .forStep (by decide) (fun _ _ => ?_) _) _
  refine .bind (load4_errs h _ _) fun _ => .bind (load4_errs h _ _) fun _ =>
    .bind (load4_errs h _ _) fun _ => .bind (load4_errs h _ _) fun _ => ?_
  refine .forStep (by decide) (fun _ _ => .forStep (by decide) (fun _ _ => ?_) _) _
  exact .bind (lane_errs h _ _) fun _ => .bind (lane_errs h _ _) fun _ => .bind (lane_errs h _ _) fun _ =>
    .bind (lane_errs h _ _) fun _ => exchangedStep_errs h _ _ _ _ _ _ _ _ _ _ _

theorem exchangedCompute_errs (h : E .oob) (bs kc : Nat) (hk : 0 < kc) (st : Stack α) (A B : Array α)
    (n i j : Nat) : MErrs E (exchangedCompute bs kc st A B n i j) :=
  .bind (clear_errs h _ _) fun _ => .forStep hk (fun _ _ => .bind (loadRows_errs h _ _ _ _ _ _ _) fun _ =>
    .bind (loadCols_errs h _ _ _ _ _ _ _) fun _ => exchangedInner_errs h _ _ _ _ _) _

theorem gpuInner_errs (h : E .oob) (bs kc : Nat) (AA BB a : Array α) :
    MErrs E (gpuInner bs kc AA BB a) := by
  refine .forStep (by decide) (fun _ _ => .forStep (by decide) (fun _ _ => ?_) _) _
  refine .bind (.forStep (by decide) (fun _ _ => ?_) _) fun _ => .forStep (by decide) (fun _ _ => ?_) _
  · exact .bind (macAt_errs' h _ _ _ _ _) fun _ => .bind (macAt_errs' h _ _ _ _ _) fun _ =>
      .bind (macAt_errs' h _ _ _ _ _) fun _ => .bind (macAt_errs' h _ _ _ _ _) fun _ => .pure
  · exact .bind (lane_errs h _ _) fun _ => addAt_errs h _ _ _

theorem gpuCompute_errs (h : E .oob) (bs kc : Nat) (hk : 0 < kc) (st : Stack α) (A B : Array α)
    (n i j : Nat) : MErrs E (gpuCompute bs kc st A B n i j) :=
  .bind (clear_errs h _ _) fun _ => .forStep hk (fun _ _ => .bind (loadRows_errs h _ _ _ _ _ _ _) fun _ =>
    .bind (loadRows_errs h _ _ _ _ _ _ _) fun _ => gpuInner_errs h _ _ _ _ _) _

theorem addLane_errs (h : E .oob) (a : Array α) (p : Nat) (v : V4 α) (kk : Nat) :
    MErrs E (addLane a p v kk) := .bind (lane_errs h _ _) fun _ => addAt_errs h _ _ _

theorem chunkAdd_errs (h : E .oob) (bs ii jj : Nat) (s : Acc16 (V4 α)) (kk : Nat) (a : Array α) :
    MErrs E (chunkAdd bs ii jj s kk a) := by
  unfold chunkAdd
  refine .bind (addLane_errs h _ _ _ _) fun _ => ?_
  refine .bind (addLane_errs h _ _ _ _) fun _ => ?_
  refine .bind (addLane_errs h _ _ _ _) fun _ => ?_
  refine .bind (addLane_errs h _ _ _ _) fun _ => ?_
  refine .bind (addLane_errs h _ _ _ _) fun _ => ?_
  refine .bind (addLane_errs h _ _ _ _) fun _ => ?_
  refine .bind (addLane_errs h _ _ _ _) fun _ => ?_
  refine .bind (addLane_errs h _ _ _ _) fun _ => ?_
  refine .bind (addLane_errs h _ _ _ _) fun _ => ?_
  refine .bind (addLane_errs h _ _ _ _) fun _ => ?_
  refine .bind (addLane_errs h _ _ _ _) fun _ => ?_
  refine .bind (addLane_errs h _ _ _ _) fun _ => ?_
  refine .bind (addLane_errs h _ _ _ _) fun _ => ?_
  refine .bind (addLane_errs h _ _ _ _) fun _ => ?_
  refine .bind (addLane_errs h _ _ _ _) fun _ => ?_
  exact addLane_errs h _ _ _ _

theorem gpuasmInner_errs (h1 : E .oob) (h2 : E .misaligned) (fma : Bool) (oA oB bs kc : Nat)
    (AA BB a : Array α) : MErrs E (gpuasmInner fma oA oB bs kc AA BB a) := by
  refine .forStep (by decide) (fun _ _ => .forStep (by decide) (fun _ _ => ?_) _) _
  refine .bind (.forStep (by decide) (fun _ _ => ?_) _) fun _ =>
    .forStep (by decide) (fun _ _ => chunkAdd_errs h1 _ _ _ _ _ _) _
  exact .bind (load_errs h1 h2 _ _ _) fun _ => .bind (load_errs h1 h2 _ _ _) fun _ =>
    .bind (load_errs h1 h2 _ _ _) fun _ => .bind (load_errs h1 h2 _ _ _) fun _ =>
    .bind (load_errs h1 h2 _ _ _) fun _ => .bind (load_errs h1 h2 _ _ _) fun _ =>
    .bind (load_errs h1 h2 _ _ _) fun _ => .bind (load_errs h1 h2 _ _ _) fun _ => .pure

theorem gpuasmCompute_errs (h1 : E .oob) (h2 : E .misaligned) (fma : Bool) (oA oB bs kc : Nat)
    (hk : 0 < kc) (st : Stack α) (A B : Array α) (n i j : Nat) :
    MErrs E (gpuasmCompute fma oA oB bs kc st A B n i j) :=
  .bind (clear_errs h1 _ _) fun _ => .forStep hk (fun _ _ => .bind (loadRows_errs h1 _ _ _ _ _ _ _) fun _ =>
    .bind (loadRows_errs h1 _ _ _ _ _ _ _) fun _ => gpuasmInner_errs h1 h2 _ _ _ _ _ _ _ _) _

theorem registerInner_errs (h1 : E .oob) (h2 : E .misaligned) (fma : Bool) (oR oB bs kc : Nat)
    (reg : Array (V4 α)) (AA BB a : Array α) : MErrs E (registerInner fma oR oB bs kc reg AA BB a) := by
  refine .forStep (by decide) (fun _ _ => .forStep (by decide) (fun _ _ => ?_) _) _
  refine .bind ?_ fun _ => .bind ?_ fun _ => ?_
  · exact .forStep (by decide) (fun _ _ => .forStep (by decide) (fun _ _ =>
      .bind (load_errs h1 h2 _ _ _) fun _ => .wr h1 _ _ _) _) _
  · exact .forStep (by decide) (fun _ _ => .forStep (by decide) (fun _ _ =>
      .bind (.rd h1 _ _) fun _ => .forStep (by decide) (fun _ _ => .bind (load_errs h1 h2 _ _ _) fun _ =>
        .bind (.rd h1 _ _) fun _ => .wr h1 _ _ _) _) _) _
  · exact .forStep (by decide) (fun _ _ => .forStep (by decide) (fun _ _ =>
      .bind (.rd h1 _ _) fun _ => store_errs h1 h2 _ _ _ _) _) _

theorem registerCompute_errs (h1 : E .oob) (h2 : E .misaligned) (fma : Bool) (oR oB bs kc : Nat)
    (hk : 0 < kc) (st : Stack α) (A B : Array α) (n i j : Nat) :
    MErrs E (registerCompute fma oR oB bs kc st A B n i j) :=
  .bind (clear_errs h1 _ _) fun _ => .forStep hk (fun _ _ => .bind (loadRows_errs h1 _ _ _ _ _ _ _) fun _ =>
    .bind (loadBand_errs h1 _ _ _ _ _ _ _) fun _ => registerInner_errs h1 h2 _ _ _ _ _ _ _ _ _) _

theorem mapM_errs {ι R : Type} {f : ι → M R} (h : ∀ i, MErrs E (f i)) (l : List ι) :
    MErrs E (l.mapM f) := by
  induction l with
  | nil => exact .pure
  | cons i l ih =>
    rw [List.mapM_cons]
    exact .bind (h i) fun _ => .bind ih fun _ => .pure

theorem ilCompute_errs (h1 : E .oob) (h2 : E .misaligned) (oA oB bs kc : Nat)
    (hk : 0 < kc) (st : Stack α) (A B : Array α) (n i j : Nat) :
    MErrs E (ilCompute oA oB bs kc st A B n i j) := by
  have hl : ∀ (o : Nat) (src : Array α) (x y R W : Nat) (AA : Array α),
      MErrs E (loadBlock4 o src n x y R W AA) := fun _ _ _ _ _ _ _ =>
    .forStep (by decide) (fun _ _ => .forStep (by decide) (fun _ _ =>
      .bind (load_errs h1 h2 _ _ _) fun _ => store_errs h1 h2 _ _ _ _) _) _
  refine .bind ?_ fun _ => .forStep hk (fun _ _ => .bind (hl _ _ _ _ _ _ _) fun _ =>
    .bind (hl _ _ _ _ _ _ _) fun _ => ?_) _
  · exact .forStep (by decide) (fun _ _ => .forStep (by decide) (fun _ _ => store_errs h1 h2 _ _ _ _) _) _
  refine .forStep (by decide) (fun _ _ => .forStep (by decide) (fun _ _ => ?_) _) _
  refine .bind ?_ fun _ => .bind ?_ fun _ => ?_
  · exact .forStep (by decide) (fun _ _ => .forStep (by decide) (fun _ _ =>
      .bind (load_errs h1 h2 _ _ _) fun _ => .wr h1 _ _ _) _) _
  · refine .forStep (by decide) (fun _ _ => .bind (mapM_errs (fun _ => .bind (.rd h1 _ _) fun _ => .pure) _)
      fun _ => .forStep (by decide) (fun _ _ => .bind (load_errs h1 h2 _ _ _) fun _ =>
        .forStep (by decide) (fun _ _ => .bind (.rd h1 _ _) fun _ => .bind (.rd h1 _ _) fun _ =>
          .wr h1 _ _ _) _) _) _
  · exact .forStep (by decide) (fun _ _ => .forStep (by decide) (fun _ _ =>
      .bind (.rd h1 _ _) fun _ => store_errs h1 h2 _ _ _ _) _) _

theorem storeBlock_errs (h : E .oob) (n nC i j bs : Nat) (a : Array α) :
    (storeBlock n nC i j bs a).Errs E :=
  .forStep (by decide) (fun _ _ => .forStep (by decide) (fun _ _ =>
    .bind (.ofM (.rd h _ _)) fun _ => .write h _ _ _) _) _

theorem stream_errs (h1 : E .oob) (h2 : E .misaligned) (oC nC p : Nat) (x : V4 α) :
    (stream oC nC p x).Errs E :=
  .ite (.ofM (.throw h2)) (.bind (.write h1 _ _ _) fun _ => .bind (.write h1 _ _ _) fun _ =>
    .bind (.write h1 _ _ _) fun _ => .write h1 _ _ _)

theorem ilStoreBlock_errs (h1 : E .oob) (h2 : E .misaligned) (oC n nC i j bs : Nat) (a : Array α) :
    (ilStoreBlock oC n nC i j bs a).Errs E :=
  .forStep (by decide) (fun _ _ => .forStep (by decide) (fun _ _ =>
    .bind (.ofM (load_errs h1 h2 _ _ _)) fun _ => stream_errs h1 h2 _ _ _ _) _) _

theorem blockTree_errs {n bs : Nat} (hb : 0 < bs) {compute : Nat → Nat → M (Array α)}
    {st : Nat → Nat → Array α → Act α Unit} (hc : ∀ i j, MErrs E (compute i j))
    (hs : ∀ i j a, (st i j a).Errs E) : (blockTree n bs compute st).Errs E := by
  refine .par fun t ht => ?_
  obtain ⟨i, _, rfl⟩ := List.mem_map.1 ht
  exact .act (Act.Errs.forStep hb (fun j _ => .bind (.ofM (hc i j)) fun _ => hs i j _) _)

/-- If one block fails, the kernel does not return. -/
theorem blockTree_stuck {n bs : Nat} (hb : 0 < bs) {compute : Nat → Nat → M (Array α)}
    {st : Nat → Nat → Array α → Act α Unit} {i j : Nat} (hi : i ∈ steps 0 n bs) (hj : j ∈ steps 0 n bs)
    (h : ∀ r, compute i j ≠ .ok r) : (blockTree n bs compute st).Stuck :=
  .par (List.mem_map.2 ⟨i, hi, rfl⟩)
    (.act (Act.NoRet.forStep hb hj (fun _ => Act.NoRet.bind_left (Act.NoRet.ofM h)) _))

/-- If all blocks fail with `e`, so does every execution of the kernel. -/
theorem blockTree_fails {n bs : Nat} (hb : 0 < bs) (hn : 0 < n) {compute : Nat → Nat → M (Array α)}
    {st : Nat → Nat → Array α → Act α Unit} {e : Err}
    (h : ∀ i ∈ steps 0 n bs, ∀ j ∈ steps 0 n bs, compute i j = .error e) (C : Array α) :
    (ND.runOn C (blockTree n bs compute st)).All (fun _ => False) (· = e) := by
  have h0 : 0 ∈ steps 0 n bs := (mem_steps0 hb).2 ⟨Nat.dvd_zero _, hn⟩
  refine ND.All.runOn_stuck ?_ (blockTree_stuck hb h0 h0 (fun r hr => by rw [h 0 h0 0 h0] at hr; cases hr))
  refine .par fun t ht => ?_
  obtain ⟨i, hi, rfl⟩ := List.mem_map.1 ht
  refine .act ?_
  rw [forStep_eq hb]
  refine Act.All.foldlM (fun j hj s _ => ?_) trivial
  refine Act.All.bind (P' := fun _ => False) ?_ fun _ h => h.elim
  rw [h i hi j hj]
  exact rfl

/-! ### sizes that are no multiple of the block size -/

/-- The start of the last block. -/
theorem last_block {n bs : Nat} (hb : 0 < bs) (hn : ¬ bs ∣ n) :
    n / bs * bs ∈ steps 0 n bs ∧ n < n / bs * bs + bs := by
  have h1 := Nat.div_mul_le_self n bs
  have h2 : n / bs * bs ≠ n := fun h => hn ⟨n / bs, by rw [Nat.mul_comm]; exact h.symm⟩
  exact ⟨(mem_steps0 hb).2 ⟨Nat.dvd_mul_left _ _, by omega⟩, lt_div_mul n hb⟩

theorem forStep_not_ok {σ : Type} {lo hi st : Nat} (h : 0 < st) {i0 : Nat} (hm : i0 ∈ steps lo hi st)
    {body : Nat → σ → M σ} (hb : ∀ s s', body i0 s ≠ .ok s') (s s' : σ) :
    forStep lo hi st s body ≠ .ok s' := by
  rw [forStep_eq h]
  exact foldlM_not_ok hm hb s s'

theorem loadRows_oob {src : Array α} {n x kb bs kc : Nat} (hb : 0 < bs) (hk : 0 < kc)
    (h : src.size ≤ (x + (bs - 1)) * n + kb + (kc - 1)) (a r : Array α) :
    loadRows src n x kb bs kc a ≠ .ok r := by
  refine forStep_not_ok (by decide) (i0 := bs - 1) ((mem_steps0 (by decide)).2 ⟨one_dvd _, by omega⟩)
    (fun s s' => forStep_not_ok (by decide) (i0 := kc - 1) ((mem_steps0 (by decide)).2
      ⟨one_dvd _, by omega⟩) (fun s s' => ?_) _ _) _ _
  refine bind_not_ok' fun r => ?_
  rw [rd_oob h]
  nofun

theorem last_rows {n bs kc : Nat} {A : Array α} (hb : 0 < bs) (hn : ¬ bs ∣ n)
    (hA : A.size < n * n + kc) :
    A.size ≤ (n / bs * bs + (bs - 1)) * n + 0 + (kc - 1) := by
  have h1 := (last_block hb hn).2
  have h2 : n * n ≤ (n / bs * bs + (bs - 1)) * n := Nat.mul_le_mul_right n (by omega)
  omega

/-- The first thing the loop over `kBlock` does fails. -/
theorem compute_not_ok {n kc : Nat} (hn : 0 < n) (hk : 0 < kc) {x : M (Array α)}
    {L : Nat → M (Array α)} {F : Nat → Array α → Array α → M (Array α)} (h : ∀ r, L 0 ≠ .ok r)
    (r : Array α) :
    (x >>= fun result => forStep 0 n kc result fun kb result => L kb >>= fun AA => F kb AA result) ≠
      .ok r :=
  bind_not_ok fun _ => forStep_not_ok hk (i0 := 0) ((mem_steps0 hk).2 ⟨Nat.dvd_zero _, hn⟩)
    (fun _ _ => bind_not_ok' h) _ _

theorem pos_of_not_dvd {n bs : Nat} (hn : ¬ bs ∣ n) : 0 < n := by
  rcases Nat.eq_zero_or_pos n with rfl | h
  · exact absurd (Nat.dvd_zero bs) hn
  · exact h

/-- All kernels whose blocks begin with loading rows of `A`. -/
theorem rows_stuck {n bs kc : Nat} (hb : 0 < bs) (hk : 0 < kc) (hn : ¬ bs ∣ n) {A : Array α}
    (hA : A.size < n * n + kc) {AA0 : Nat → Nat → Nat → Array α} {x : Nat → Nat → M (Array α)}
    {F : Nat → Nat → Nat → Array α → Array α → M (Array α)} {st : Nat → Nat → Array α → Act α Unit} :
    (blockTree n bs (fun i j => x i j >>= fun result => forStep 0 n kc result fun kb result =>
      loadRows A n i kb bs kc (AA0 i j kb) >>= fun AA => F i j kb AA result) st).Stuck :=
  blockTree_stuck hb (last_block hb hn).1
    ((mem_steps0 hb).2 ⟨Nat.dvd_zero _, pos_of_not_dvd hn⟩)
    (compute_not_ok (pos_of_not_dvd hn) hk fun r => loadRows_oob hb hk (last_rows hb hn hA) _ r)

theorem loadBlock4_oob {o : Nat} {src : Array α} {n x kb bs kc : Nat} (hb : 0 < bs) (hk : 0 < kc)
    (hk4 : 4 ∣ kc) (h : src.size ≤ (x + (bs - 1)) * n + kb + (kc - 1)) (a r : Array α) :
    loadBlock4 o src n x kb bs kc a ≠ .ok r := by
  refine forStep_not_ok (by decide) (i0 := bs - 1) ((mem_steps0 (by decide)).2 ⟨one_dvd _, by omega⟩)
    (fun s s' => forStep_not_ok (by decide) (i0 := kc - 4) ((mem_steps0 (by decide)).2
      ⟨by omega, by omega⟩) (fun s s' => ?_) _ _) _ _
  refine bind_not_ok' fun r => ?_
  unfold load
  split
  · nofun
  · unfold load4
    refine bind_not_ok fun _ => bind_not_ok fun _ => bind_not_ok fun _ => bind_not_ok' fun r => ?_
    rw [rd_oob (by omega)]
    nofun

/-! ### arrays that are not aligned -/

theorem forStep_first {σ : Type} {hi st : Nat} (h : 0 < st) (hh : 0 < hi) {body : Nat → σ → M σ} {s : σ}
    {e : Err} (hb : body 0 s = .error e) : forStep 0 hi st s body = .error e := by
  rw [forStep_eq h, steps_cons hh h, List.foldlM_cons, hb]
  rfl

theorem load_mis {o : Nat} {v : Array α} {i : Nat} (h : (o + i) % 4 ≠ 0) :
    load o v i = .error .misaligned := by
  rw [load, if_pos h]; rfl

theorem gpuasmInner_mis {fma : Bool} {oA oB bs kc : Nat} (h : oA % 4 ≠ 0 ∨ oB % 4 ≠ 0)
    (hb0 : 0 < bs) (hk0 : 0 < kc) (hb : 4 ∣ bs) (hk : 4 ∣ kc) {AA BB : Array α} {a : Nat → Nat → α}
    (hA : Holds AA bs kc a) (r : Array α) :
    gpuasmInner fma oA oB bs kc AA BB r = .error .misaligned := by
  refine forStep_first (by decide) hb0 (forStep_first (by decide) hb0 ?_)
  have : chunkLoop fma oA oB kc AA BB 0 0 = .error .misaligned := by
    refine forStep_first (by decide) hk0 ?_
    by_cases h1 : oA % 4 = 0
    · have lA : ∀ p, p < 4 → load oA AA ((0 + p) * kc + 0) = .ok (vec a (0 + p) 0) := fun p hp =>
        load_ok hA (by omega) (by omega) h1 hk (by omega)
      rw [lA 0 (by decide), lA 1 (by decide), lA 2 (by decide), lA 3 (by decide)]
      simp only [M_bind_ok]
      rw [load_mis]
      · rfl
      · rw [Nat.zero_add, Nat.zero_mul]
        omega
    · rw [load_mis]
      · rfl
      · rw [Nat.zero_add, Nat.zero_mul]
        omega
  rw [this]
  rfl

theorem gpuasmCompute_mis {fma : Bool} {oA oB bs kc n i j : Nat} (h : oA % 4 ≠ 0 ∨ oB % 4 ≠ 0)
    (h0 : 0 < bs) (h0' : 0 < kc) (hb : 4 ∣ bs)
    (hk : 4 ∣ kc) (hn : bs ∣ n) (hn' : kc ∣ n) {st : Stack α} (hst : st.Sized bs kc)
    {A B : Array α} {a b : Nat → Nat → α} (hA : Holds A n n a) (hB : Holds B n n b)
    (hi : i ∈ steps 0 n bs) (hj : j ∈ steps 0 n bs) :
    gpuasmCompute fma oA oB bs kc st A B n i j = .error .misaligned := by
  have hn0 : 0 < n := by have := ((mem_steps0 h0).1 hi).2; omega
  unfold gpuasmCompute
  rw [clear_ok (hst.result i j), M_bind_ok]
  refine forStep_first h0' hn0 ?_
  have hkb : 0 ∈ steps 0 n kc := (mem_steps0 h0').2 ⟨Nat.dvd_zero _, hn0⟩
  rw [loadRows_ok hA (block_le h0 hn hi) (block_le h0' hn' hkb) (hst.AA i j 0), M_bind_ok,
    loadRows_ok hB (block_le h0 hn hj) (block_le h0' hn' hkb) (by rw [hst.BB, Nat.mul_comm]), M_bind_ok,
    gpuasmInner_mis h h0 h0' hb hk (holds_rect _ _ _)]

theorem registerCompute_mis {fma : Bool} {oR oB bs kc n i j : Nat} (h : oR % 4 ≠ 0 ∨ oB % 4 ≠ 0)
    (h0 : 0 < bs) (h0' : 0 < kc) (hb : 8 ∣ bs)
    (hn : bs ∣ n) (hn' : kc ∣ n) {st : Stack α} (hst : st.Sized bs kc)
    {A B : Array α} {a b : Nat → Nat → α} (hA : Holds A n n a) (hB : Holds B n n b)
    (hi : i ∈ steps 0 n bs) (hj : j ∈ steps 0 n bs) :
    registerCompute fma oR oB bs kc st A B n i j = .error .misaligned := by
  have hn0 : 0 < n := by have := ((mem_steps0 h0).1 hi).2; omega
  unfold registerCompute
  rw [clear_ok (hst.result i j), M_bind_ok]
  refine forStep_first h0' hn0 ?_
  have hkb : 0 ∈ steps 0 n kc := (mem_steps0 h0').2 ⟨Nat.dvd_zero _, hn0⟩
  rw [loadRows_ok hA (block_le h0 hn hi) (block_le h0' hn' hkb) (hst.AA i j 0), M_bind_ok,
    loadBand_ok hB (block_le h0 hn hj) (block_le h0' hn' hkb) (hst.BB i j 0), M_bind_ok]
  refine forStep_first (by decide) h0 (forStep_first (by decide) h0 ?_)
  by_cases h1 : oR % 4 = 0
  · rw [regLoad_ok h1 (by omega) (by omega) (by omega) (by omega) _ hst.resultReg, M_bind_ok]
    have : ∀ AA BB : Array α, ∀ reg : Array (V4 α), Holds AA bs kc (fun i_1 k => a (i + i_1) (0 + k)) →
        regLoop fma oB bs kc 0 0 AA BB reg = .error .misaligned := by
      intro AA BB reg hAA
      refine forStep_first (by decide) h0' (forStep_first (by decide) (by decide) ?_)
      rw [hAA.rd (by omega) (by omega), M_bind_ok]
      refine forStep_first (by decide) (by decide) ?_
      rw [load_mis]
      · rfl
      · simp only [Nat.add_zero, Nat.zero_mul]
        omega
    rw [this _ _ _ (holds_rect _ _ _)]
    rfl
  · have : ∀ res : Array α, ∀ reg : Array (V4 α), regLoad oR bs 0 0 res reg = .error .misaligned := by
      intro res reg
      refine forStep_first (by decide) (by decide) (forStep_first (by decide) (by decide) ?_)
      rw [load_mis]
      · rfl
      · simp only [Nat.add_zero, Nat.zero_mul]
        omega
    rw [this]
    rfl

theorem ilCompute_mis {oA oB bs kc n i j : Nat} (h : oA % 4 ≠ 0 ∨ oB % 4 ≠ 0)
    (h0 : 0 < bs) (h0' : 0 < kc) (hb : 16 ∣ bs) (hk : 4 ∣ kc)
    (hn : bs ∣ n) (hn' : kc ∣ n) {st : Stack α} (hst : st.Sized bs kc)
    {A B : Array α} {a b : Nat → Nat → α} (hA : Holds A n n a) (_hB : Holds B n n b)
    (hi : i ∈ steps 0 n bs) (hj : j ∈ steps 0 n bs) :
    ilCompute oA oB bs kc st A B n i j = .error .misaligned := by
  have hn0 : 0 < n := by have := ((mem_steps0 h0).1 hi).2; omega
  have hb4 : 4 ∣ bs := by omega
  have hn4 : 4 ∣ n := Nat.dvd_trans hb4 hn
  have hj4 : 4 ∣ j := Nat.dvd_trans hb4 ((mem_steps0 h0).1 hj).1
  have mis : ∀ {o x y R W : Nat} {src AA : Array α}, o % 4 ≠ 0 → 4 ∣ y → 0 < R → 0 < W →
      loadBlock4 o src n x y R W AA = .error .misaligned := by
    intro o x y R W src AA ho hy hR hW
    refine forStep_first (by decide) hR (forStep_first (by decide) hW ?_)
    have : 4 ∣ (x + 0) * n := Dvd.dvd.mul_left hn4 _
    rw [load_mis (by omega)]
    rfl
  unfold ilCompute
  rw [clear4_ok hb4 (hst.result i j), M_bind_ok]
  refine forStep_first h0' hn0 ?_
  have hkb : 0 ∈ steps 0 n kc := (mem_steps0 h0').2 ⟨Nat.dvd_zero _, hn0⟩
  by_cases h1 : oA % 4 = 0
  · rw [loadBlock4_ok h1 hn4 (Nat.dvd_zero _) hk hA (block_le h0 hn hi) (block_le h0' hn' hkb)
      (hst.AA i j 0), M_bind_ok, mis (by omega) hj4 h0' h0]
    rfl
  · rw [mis h1 (Nat.dvd_zero _) h0 h0']
    rfl

/-- The result is stored with `_mm256_stream_pd`, so `C` has to be aligned. -/
theorem il_mis {oC n bs : Nat} (ho : oC % 4 ≠ 0) (hb0 : 0 < bs) (hb : 4 ∣ bs) (hn : bs ∣ n) (hn0 : 0 < n)
    {compute : Nat → Nat → M (Array α)} {g : Nat → Nat → α}
    (hc : ∀ i ∈ steps 0 n bs, ∀ j ∈ steps 0 n bs,
      compute i j = .ok (rect bs bs fun r c => g (i + r) (j + c))) (nC : Nat) (C : Array α) :
    (ND.runOn C (blockTree n bs compute fun i j => ilStoreBlock oC n nC i j bs)).All
      (fun _ => False) (· = .misaligned) := by
  have hn4 : 4 ∣ n := Nat.dvd_trans hb hn
  have h0 : 0 ∈ steps 0 n bs := (mem_steps0 hb0).2 ⟨Nat.dvd_zero _, hn0⟩
  have key : ∀ i ∈ steps 0 n bs, ∀ j ∈ steps 0 n bs, ∀ a, (ilStoreBlock oC n nC i j bs
      (rect bs bs a) : Act α Unit).All (fun _ => False) (· = .misaligned) := by
    intro i hi j hj a
    have hj4 : 4 ∣ j := Nat.dvd_trans hb ((mem_steps0 hb0).1 hj).1
    unfold ilStoreBlock
    rw [forStep_eq (by decide), steps_cons hb0 (by decide), List.foldlM_cons]
    refine Act.All.bind (P' := fun _ => False) ?_ fun _ h => h.elim
    rw [forStep_eq (by decide), steps_cons hb0 (by decide), List.foldlM_cons]
    refine Act.All.bind (P' := fun _ => False) ?_ fun _ h => h.elim
    rw [load_ok (holds_rect bs bs a) hb0 (by omega) rfl hb (Nat.dvd_zero _)]
    refine Act.All.bind (P' := fun _ => True) trivial fun v _ => ?_
    have : 4 ∣ (i + 0) * n := Dvd.dvd.mul_left hn4 _
    unfold stream
    rw [if_pos (by omega)]
    exact rfl
  refine ND.All.runOn_stuck ?_ ?_
  · refine .par fun t ht => ?_
    obtain ⟨i, hi, rfl⟩ := List.mem_map.1 ht
    refine .act ?_
    rw [forStep_eq hb0]
    refine Act.All.foldlM (fun j hj s _ => ?_) trivial
    rw [hc i hi j hj]
    exact Act.All.bind (P' := fun v => v = rect bs bs fun r c => g (i + r) (j + c)) rfl fun v hv =>
      hv ▸ (key i hi j hj _).mono (fun _ h => h.elim) (fun _ h => h)
  · refine .par (List.mem_map.2 ⟨0, h0, rfl⟩) (.act ?_)
    refine Act.NoRet.forStep hb0 h0 (fun _ => ?_) _
    rw [hc 0 h0 0 h0]
    exact Act.All.bind (P' := fun v => v = rect bs bs fun r c => g (0 + r) (0 + c)) rfl fun v hv =>
      hv ▸ (key 0 h0 0 h0 _).mono (fun _ h => h) (fun _ _ => trivial)

end Verif.Experiments
