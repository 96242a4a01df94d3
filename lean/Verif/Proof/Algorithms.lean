import Verif.Model.Algorithms
import Verif.Proof.Kernel
import Verif.Proof.Points
import Verif.Proof.Looped
/-
Helper lemmas about algorithms.hpp.
-/
set_option linter.unusedSectionVars false
namespace Verif.Algorithms
open IndexIterator
variable {α : Type} [Arith α]

theorem index_iterator_eq {br : Nat} (h : 0 < br) (n : Nat) :
    index_iterator br n = (n / br, n % br) := by
  induction n with
  | zero => simp [index_iterator]
  | succ n ih =>
    rw [index_iterator, ih]
    have hu : usub br 1 = br - 1 := by unfold usub; rw [if_pos (by omega)]
    simp only [hu]
    have hdm := Nat.div_add_mod n br
    have hlt := Nat.mod_lt n h
    by_cases hc : n % br = br - 1
    · rw [if_pos hc]
      have : n + 1 = br * (n / br + 1) := by rw [Nat.mul_add]; omega
      rw [this, Nat.mul_div_cancel_left _ h, Nat.mul_mod_right]
    · rw [if_neg hc]
      have : n + 1 = br * (n / br) + (n % br + 1) := by omega
      have h2 : n % br + 1 < br := by
        generalize n % br = m at hlt hc ⊢
        omega
      rw [this, Nat.mul_add_div h, Nat.mul_add_mod, Nat.div_eq_of_lt h2,
        Nat.mod_eq_of_lt (a := n % br + 1) h2]
      rfl

theorem loadSmall_eq : @loadSmall α = @Kernel.loadSmall α := rfl

theorem inner_product_ok {As Bs : Array α} {br bi : Nat} {f g : Nat → Nat → α}
    (hA : Holds As br bi f) (hB : Holds Bs br bi g) {x y : Nat} (hx : x < br) (hy : y < br) :
    inner_product As Bs bi x y = .ok (dot bi (f x) (g y)) := by
  refine dot_loop fun k hk acc => ?_
  simp [hA.rd hx hk, hB.rd hy hk]

/-- Updates of the small result matrix made by one pass. -/
def passUpd (br bi : Nat) (f g : Nat → Nat → α) : List (Upd α) :=
  (List.range (br * br)).flatMap fun n =>
    [(n, fun v => Arith.add v (dot bi (f (n / br)) (g (n % br))))]

theorem multSmall_does {As Bs : Array α} {br bi : Nat} {f g : Nat → Nat → α}
    (hbr : 0 < br) (hA : Holds As br bi f) (hB : Holds Bs br bi g) :
    MDoes (multSmall As Bs br bi) (passUpd br bi f g) := by
  refine MDoes.foldlM fun n hn c hc => ?_
  rw [List.mem_range] at hn
  have hx : n / br < br := (Nat.div_lt_iff_lt_mul hbr).2 hn
  have hy : n % br < br := Nat.mod_lt _ hbr
  have hlt : n < c.size := hc _ (List.mem_singleton.2 rfl)
  simp only [index_iterator_eq hbr, inner_product_ok hA hB hx hy, M_bind_ok,
    rd_ok (Array.getElem?_eq_getElem hlt), wr, if_pos hlt]
  refine congrArg Except.ok ?_
  refine Array.ext_getElem? fun p => ?_
  rw [applyA_get, Array.getElem?_setIfInBounds]
  by_cases hp : n = p
  · subst hp; simp [hlt]
  · rw [if_neg hp]
    cases hq : c[p]? <;> simp [hp]

theorem passUpd_cell {br bi : Nat} {f g : Nat → Nat → α} {i j : Nat} (hi : i < br) (hj : j < br)
    (x : α) :
    cellFold (passUpd br bi f g) (i * br + j) x = Arith.add x (dot bi (f i) (g j)) := by
  unfold passUpd
  rw [cellFold_flatMap_unique List.nodup_range (List.mem_range.2 (idx_lt hi hj))]
  · rw [idx_div hj, idx_mod hj]; simp
  · intro n _ hne u hu
    simp at hu; subst hu
    exact hne

theorem passUpd_lt {br bi : Nat} {f g : Nat → Nat → α} {u : Upd α} (hu : u ∈ passUpd br bi f g) :
    u.1 < br * br := by
  simp only [passUpd, List.mem_flatMap, List.mem_range, List.mem_singleton] at hu
  obtain ⟨n, hn, rfl⟩ := hu
  exact hn

theorem steps_le {N bi nb kb : Nat} (hbi : 0 < bi) (hN : N = nb * bi) (hkb : kb ∈ steps 0 N bi) :
    kb + bi ≤ N := by
  obtain ⟨t, ht, hlt⟩ := (mem_steps hbi).1 hkb
  have : t < nb := by
    apply Classical.byContradiction; intro hn
    have := Nat.mul_le_mul_right bi (show nb ≤ t by omega)
    omega
  have := Nat.mul_le_mul_right bi (show t + 1 ≤ nb by omega)
  rw [Nat.add_mul] at this; omega

/-- The small result matrix. -/
theorem block_ok {N : Nat} {A B : Array α} {br bi nb ox oy : Nat} {a b : Nat → Nat → α}
    (hA : Holds A N N a) (hB : Holds B N N b) (hbr : 0 < br) (hbi : 0 < bi) (hN : N = nb * bi)
    (hx : ox + br ≤ N) (hy : oy + br ≤ N) :
    block N A B bi br ox oy =
      .ok (rect br br fun i j => bdot bi nb (a (ox + i)) (b (oy + j))) := by
  let us : Nat → List (Upd α) := fun kb =>
    passUpd br bi (fun i k => a (ox + i) (kb + k)) (fun j k => b (oy + j) (kb + k))
  let g : Array α × Array α × Array α → Nat → Array α × Array α × Array α := fun s kb =>
    (applyA (us kb) s.1, rect br bi fun i k => a (ox + i) (kb + k),
      rect br bi fun i k => b (oy + i) (kb + k))
  have h1 := forStep_ok_inv (lo := 0) (hi := N) hbi (g := g)
    (body := fun k_block (s : Array α × Array α × Array α) => do
      let A_small ← loadSmall A N ox k_block br bi s.2.1
      let B_small ← loadSmall B N oy k_block br bi s.2.2
      let C_inner ← multSmall A_small B_small br bi s.1
      pure (C_inner, A_small, B_small))
    (fun s => s.1.size = br * br ∧ s.2.1.size = br * bi ∧ s.2.2.size = br * bi)
    (fun kb hkb s hs => by
      have hle := steps_le hbi hN hkb
      refine ⟨?_, by simpa [g] using hs.1⟩
      rw [loadSmall_eq, Kernel.loadSmall_ok hA hx hle hs.2.1, Kernel.loadSmall_ok hB hy hle hs.2.2]
      simp only [M_bind_ok]
      rw [multSmall_does hbr (holds_rect br bi fun i k => a (ox + i) (kb + k))
        (holds_rect br bi fun i k => b (oy + i) (kb + k)) s.1
        (fun u hu => by rw [hs.1]; exact passUpd_lt hu)]
      rfl)
    (s := (zeros (br * br), zeros (bi * br), zeros (bi * br))) (by simp [Nat.mul_comm])
  unfold block
  have h2 := h1.1
  refine (congrArg (fun x => x >>= fun (s : Array α × Array α × Array α) => (pure s.1 : M _)) h2).trans ?_
  simp only [M_bind_ok, M_pure]
  congr 1
  rw [Kernel.foldl_proj (π := fun s : Array α × Array α × Array α => s.1)
    (g' := fun c kb => applyA (us kb) c) (fun s i => rfl)]
  refine eq_rect ?_ fun i hi j hj => ?_
  · have : ∀ (l : List Nat) (c : Array α), (l.foldl (fun c kb => applyA (us kb) c) c).size = c.size := by
      intro l
      induction l with
      | nil => intro c; rfl
      | cons k l ih => intro c; rw [List.foldl_cons, ih, applyA_size]
    rw [this]; simp
  · have : ∀ (l : List Nat) (c : Array α), l.foldl (fun c kb => applyA (us kb) c) c =
        applyA (l.flatMap us) c := by
      intro l
      induction l with
      | nil => intro c; rfl
      | cons k l ih => intro c; rw [List.foldl_cons, ih, List.flatMap_cons, applyA_append]
    rw [this, applyA_get, zeros_holds br br i hi j hj]
    simp only [Option.map_some]
    rw [cellFold_flatMap, hN, steps_mul nb bi hbi, List.foldl_map]
    congr 1
    unfold bdot bdotFrom
    refine foldl_congr' (fun t _ s => ?_) _
    exact passUpd_cell hi hj s

/-- Elements of `C` written by the task of the block at `(ox, oy)`. -/
def blockUpd (N br ox oy : Nat) (v : Nat → Nat → α) : List (Upd α) :=
  (List.range br).flatMap fun x => (List.range br).flatMap fun y =>
    [((ox + x) * N + (oy + y), fun _ => v x y)]

theorem task_does {N : Nat} {A B : Array α} {br bi nb : Nat} {a b : Nat → Nat → α}
    (hA : Holds A N N a) (hB : Holds B N N b) (hbr : 0 < br) (hbi : 0 < bi) (hN : N = nb * bi)
    {p : List Nat} (hx : p.getD 0 0 * br + br ≤ N) (hy : p.getD 1 0 * br + br ≤ N) :
    Act.Does false (task N A B bi br p) () (blockUpd N br (p.getD 0 0 * br) (p.getD 1 0 * br)
      fun i j => bdot bi nb (a (p.getD 0 0 * br + i)) (b (p.getD 1 0 * br + j))) := by
  refine Act.Does.ofM_bind (block_ok hA hB hbr hbi hN hx hy) ?_
  unfold blockUpd
  rw [← steps_one]
  refine Act.Does.forStep (by decide) fun x hx' => Act.Does.forStep (by decide) fun y hy' => ?_
  rw [steps_one, List.mem_range] at hx' hy'
  refine Act.Does.ofM_bind ((holds_rect br br _).rd hx' hy') ?_
  exact Act.Does.write (idx_lt (by omega) (by omega)) _

theorem mem_blockUpd {N br ox oy : Nat} {v : Nat → Nat → α} {u : Upd α}
    (hu : u ∈ blockUpd N br ox oy v) :
    ∃ x y, x < br ∧ y < br ∧ u.1 = (ox + x) * N + (oy + y) := by
  simp only [blockUpd, List.mem_flatMap, List.mem_range, List.mem_singleton] at hu
  obtain ⟨x, hx, y, hy, rfl⟩ := hu
  exact ⟨x, y, hx, hy, rfl⟩

theorem blockUpd_cell {N br ox oy : Nat} {v : Nat → Nat → α} (hy : oy + br ≤ N) {x y : Nat}
    (hx' : x < br) (hy' : y < br) (z : α) :
    cellFold (blockUpd N br ox oy v) ((ox + x) * N + (oy + y)) z = v x y := by
  unfold blockUpd
  rw [cellFold_flatMap_unique List.nodup_range (List.mem_range.2 hx')]
  · rw [cellFold_flatMap_unique List.nodup_range (List.mem_range.2 hy')]
    · simp
    · intro c hc hne u hu
      simp at hu hc; subst hu
      exact fun h => hne (by have : _ + (_ + _) = _ + (_ + _) := h; omega)
  · intro x' _ hne u hu
    simp at hu
    obtain ⟨c, hc, rfl⟩ := hu
    intro he
    have := (idx_inj (show oy + c < N by omega) (by omega) he).1
    omega

/-- Position `n` of the block iterator. -/
theorem iter_two {rb n : Nat} (hrb : 0 < rb) (hn : n < rb * rb) :
    iter [0, 0] [rb, rb] [1, 1] n = [n % rb, n / rb] := by
  have hc : cnt (0, rb, 1) = rb := by
    simp [cnt, ceilDiv]; omega
  have := iter_eq [(0, rb, 1), (0, rb, 1)] (by simp) n
  simp only [List.map_cons, List.map_nil, total, hc, Nat.mul_one] at this
  rw [this, show min n (rb * rb - 1) = n by omega]
  simp only [pos, hc, Nat.mul_one, Nat.zero_add]
  rw [Nat.mod_eq_of_lt (a := n / rb) ((Nat.div_lt_iff_lt_mul hrb).2 hn)]

theorem result_blocks_dvd {N br : Nat} (h : br ∣ N) : result_blocks N br = N / br := by
  unfold result_blocks
  rw [Nat.mod_eq_zero_of_dvd h]; simp

/-- Updates of all tasks, in the order of the iterator. -/
def allUpd (N br rb : Nat) (v : Nat → Nat → α) : List (Upd α) :=
  (List.range (rb * rb)).flatMap fun n =>
    blockUpd N br (n % rb * br) (n / rb * br) fun i j => v (n % rb * br + i) (n / rb * br + j)

theorem blk_le {N br t : Nat} (hd : br ∣ N) (ht : t < N / br) : t * br + br ≤ N := by
  have h1 := Nat.mul_le_mul_right br (show t + 1 ≤ N / br by omega)
  rw [Nat.div_mul_cancel hd, Nat.add_mul, Nat.one_mul] at h1
  exact h1

theorem tree_does {N : Nat} {A B : Array α} {br bi nb : Nat} {a b : Nat → Nat → α}
    (hA : Holds A N N a) (hB : Holds B N N b) (hbr : 0 < br) (hbi : 0 < bi) (hN : N = nb * bi)
    (hd : br ∣ N) :
    Tree.Does false (tree N A B bi br)
      (allUpd N br (N / br) fun i j => bdot bi nb (a i) (b j)) := by
  unfold tree allUpd
  simp only [result_blocks_dvd hd]
  rcases Nat.eq_zero_or_pos (N / br) with h0 | hp
  · rw [h0]
    exact Tree.Does.par (l := ([] : List Nat)) (by simp) .nil
  refine Tree.Does.par (us := fun n =>
    blockUpd N br (n % (N / br) * br) (n / (N / br) * br) fun i j => bdot bi nb
      (a (n % (N / br) * br + i)) (b (n / (N / br) * br + j))) (fun n hn => ?_) ?_
  · rw [List.mem_range] at hn
    rw [iter_two hp hn]
    exact .act (task_does hA hB hbr hbi hN (blk_le hd (Nat.mod_lt _ hp))
      (blk_le hd ((Nat.div_lt_iff_lt_mul hp).2 hn)))
  · refine (List.Pairwise.and_mem.1 List.nodup_range).imp ?_
    rintro n m ⟨hn, hm, hne⟩ u hu v hv he
    rw [List.mem_range] at hn hm
    obtain ⟨x, y, hx, hy, e1⟩ := mem_blockUpd hu
    obtain ⟨x', y', hx', hy', e2⟩ := mem_blockUpd hv
    have hy1 := blk_le hd ((Nat.div_lt_iff_lt_mul hp).2 hn)
    have hy2 := blk_le hd ((Nat.div_lt_iff_lt_mul hp).2 hm)
    rw [e1, e2] at he
    obtain ⟨h1, h2⟩ := idx_inj (by omega) (by omega) he
    have h1 := (idx_inj hx hx' h1).1
    have h2 := (idx_inj hy hy' h2).1
    apply hne
    rw [← Nat.div_add_mod n (N / br), ← Nat.div_add_mod m (N / br), h1, h2]

theorem allUpd_cell {N br : Nat} {v : Nat → Nat → α} (hbr : 0 < br) (hd : br ∣ N) {i j : Nat}
    (hi : i < N) (hj : j < N) (z : α) :
    cellFold (allUpd N br (N / br) v) (i * N + j) z = v i j := by
  have hdm : ∀ i, i < N → i / br < N / br := fun i hi => by
    refine (Nat.div_lt_iff_lt_mul hbr).2 ?_
    rw [Nat.div_mul_cancel hd]; exact hi
  have hI := hdm i hi
  have hJ := hdm j hj
  have hp : 0 < N / br := Nat.lt_of_le_of_lt (Nat.zero_le _) hI
  have ei := Nat.div_add_mod i br
  have ej := Nat.div_add_mod j br
  have li := Nat.mod_lt i hbr
  have lj := Nat.mod_lt j hbr
  unfold allUpd
  rw [cellFold_flatMap_unique (i0 := j / br * (N / br) + i / br) List.nodup_range
    (List.mem_range.2 (idx_lt hJ hI))]
  · rw [idx_mod hI, idx_div hI]
    have := blockUpd_cell (N := N) (br := br) (ox := i / br * br) (oy := j / br * br)
      (v := fun i' j' => v (i / br * br + i') (j / br * br + j')) (blk_le hd hJ) li lj z
    rw [Nat.mul_comm br] at ei ej
    rw [ei, ej] at this
    exact this
  · intro n hn hne u hu he
    rw [List.mem_range] at hn
    obtain ⟨x, y, hx, hy, e1⟩ := mem_blockUpd hu
    have hy1 := blk_le hd ((Nat.div_lt_iff_lt_mul hp).2 hn)
    rw [e1] at he
    obtain ⟨h1, h2⟩ := idx_inj (by omega) hj he
    apply hne
    have e3 : i / br = n % (N / br) := by rw [← h1]; exact idx_div hx
    have e4 : j / br = n / (N / br) := by rw [← h2]; exact idx_div hy
    rw [e3, e4, Nat.mul_comm]
    exact (Nat.div_add_mod n (N / br)).symm

/-! ### outside the domain -/

theorem inner_product_errs {As Bs : Array α} {bi x y : Nat} {e : Err}
    (h : inner_product As Bs bi x y = .error e) : e = .oob := by
  unfold inner_product at h
  rw [forStep_eq (by decide)] at h
  exact (foldlM_err (P := fun _ => True) (E := fun e => e = .oob) (fun k _ s _ =>
    ⟨fun _ _ => trivial, fun e he => Kernel.macAt_errs he⟩) trivial).2 e h

theorem rd_errs {v : Array α} {i : Nat} {e : Err} (h : rd v i = .error e) : e = .oob := by
  unfold rd at h
  cases hv : v[i]? with
  | none => rw [hv] at h; cases h; rfl
  | some x => rw [hv] at h; cases h

theorem wr_errs {v : Array α} {i : Nat} {x : α} {e : Err} (h : wr v i x = .error e) : e = .oob := by
  unfold wr at h
  split at h
  · cases h
  · cases h; rfl

theorem multSmall_errs {As Bs : Array α} {br bi : Nat} {c : Array α} {e : Err}
    (h : multSmall As Bs br bi c = .error e) : e = .oob := by
  unfold multSmall at h
  refine (foldlM_err (P := fun _ => True) (E := fun e => e = .oob) (fun n _ s _ =>
    ⟨fun _ _ => trivial, fun e he => ?_⟩) trivial).2 e h
  rcases Kernel.bind_error he with h | ⟨v, _, he⟩; · exact rd_errs h
  rcases Kernel.bind_error he with h | ⟨v, _, he⟩; · exact inner_product_errs h
  exact wr_errs he

theorem block_errs {N : Nat} {A B : Array α} {br bi ox oy : Nat} (hbi : 0 < bi) {e : Err}
    (h : block N A B bi br ox oy = .error e) : e = .oob := by
  unfold block at h
  rw [forStep_eq hbi] at h
  rcases Kernel.bind_error h with h | ⟨v, _, he⟩
  · refine (foldlM_err (P := fun _ => True) (E := fun e => e = .oob) (fun n _ s _ =>
      ⟨fun _ _ => trivial, fun e he => ?_⟩) trivial).2 e h
    rcases Kernel.bind_error he with h | ⟨v, _, he⟩; · exact Kernel.loadSmall_size.2 _ h
    rcases Kernel.bind_error he with h | ⟨v, _, he⟩; · exact Kernel.loadSmall_size.2 _ h
    rcases Kernel.bind_error he with h | ⟨v, _, he⟩; · exact multSmall_errs h
    cases he
  · cases he

theorem write_errs (n i : Nat) (v : α) :
    (Act.write n i v).All (fun _ => True) (fun e => e = .oob) := by
  unfold Act.write
  by_cases h : i < n
  · simp only [if_pos h]; exact trivial
  · simp only [if_neg h]; exact rfl

theorem task_errs {N : Nat} {A B : Array α} {br bi : Nat} {p : List Nat} {E : Err → Prop}
    (hE : E .oob) (h : ∀ e, block N A B bi br (p.getD 0 0 * br) (p.getD 1 0 * br) = .error e → E e) :
    (task N A B bi br p).All (fun _ => True) E := by
  unfold task
  refine Act.All.bind (P' := fun _ => True) (Act.All.ofM (fun _ _ => trivial) h) fun C _ => ?_
  rw [forStep_eq (by decide)]
  refine Act.All.foldlM (fun i _ _ _ => ?_) trivial
  rw [forStep_eq (by decide)]
  refine Act.All.foldlM (fun j _ _ _ => ?_) trivial
  refine Act.All.bind (P' := fun _ => True)
    (Act.All.ofM (fun _ _ => trivial) fun e he => by rw [rd_errs he]; exact hE) fun s _ => ?_
  exact (write_errs _ _ _).mono (fun _ h => h) fun e he => by rw [he]; exact hE

theorem task_noRet {N : Nat} {A B : Array α} {br bi : Nat} {p : List Nat}
    (h : ∀ C, block N A B bi br (p.getD 0 0 * br) (p.getD 1 0 * br) ≠ .ok C) :
    (task N A B bi br p).NoRet :=
  Act.NoRet.bind_left (Act.All.ofM (fun r hr => h r hr) fun _ _ => trivial)

/-- A block one of whose input rows does not exist. -/
theorem block_not_ok {N : Nat} {A B : Array α} {br bi ox oy i k kb : Nat} (hbi : 0 < bi)
    (hkb : kb ∈ steps 0 N bi) (hi : i < br) (hk : k < bi)
    (h : A.size ≤ (ox + i) * N + kb + k) (C : Array α) : block N A B bi br ox oy ≠ .ok C := by
  unfold block
  rw [forStep_eq hbi]
  intro hc
  have : ∀ s s' : Array α × Array α × Array α, (do
      let A_small ← loadSmall A N ox kb br bi s.2.1
      let B_small ← loadSmall B N oy kb br bi s.2.2
      let C_inner ← multSmall A_small B_small br bi s.1
      pure (C_inner, A_small, B_small) : M _) ≠ .ok s' := by
    intro s s' hc
    cases hl : loadSmall A N ox kb br bi s.2.1 with
    | ok v => exact Kernel.loadSmall_not_ok hi hk h v hl
    | error e => rw [hl] at hc; cases hc
  generalize hx : List.foldlM (m := M) _ _ (steps 0 N bi) = x at hc
  cases x with
  | error e => cases hc
  | ok s' => exact foldlM_not_ok hkb this _ _ hx

/-- With `block_input = 0` nothing is loaded. -/
theorem loadSmall_zero (src : Array α) (N o kb br : Nat) (sm : Array α) :
    loadSmall src N o kb br 0 sm = .ok sm := by
  unfold loadSmall
  rw [forStep_ok (g := fun s _ => s) (by decide) (fun i _ s => forStep_nil (Nat.le_refl _) _ _)]
  congr 1
  generalize steps 0 br 1 = l
  induction l with
  | nil => rfl
  | cons _ _ ih => exact ih

/-- With `block_input = 0` a pass of the loop over the input succeeds. -/
theorem pass_zero {N : Nat} {A B : Array α} {br ox oy : Nat} (hbr : 0 < br) (k : Nat)
    (s : Array α × Array α × Array α) (hs : s.1.size = br * br) :
    ∃ s' : Array α × Array α × Array α, (do
        let A_small ← loadSmall A N ox k br 0 s.2.1
        let B_small ← loadSmall B N oy k br 0 s.2.2
        let C_inner ← multSmall A_small B_small br 0 s.1
        pure (C_inner, A_small, B_small) : M _) = .ok s' ∧ s'.1.size = br * br := by
  have hz : ∀ (v : Array α), Holds v br 0 (fun _ _ => Arith.zero) := fun v i hi j hj => by omega
  have := multSmall_does hbr (hz s.2.1) (hz s.2.2) s.1
    (fun u hu => by rw [hs]; exact passUpd_lt hu)
  rw [loadSmall_zero, M_bind_ok, loadSmall_zero, M_bind_ok, this, M_bind_ok]
  exact ⟨_, rfl, by simpa using hs⟩

/-- With `block_input = 0` the loop over the input makes no progress. -/
theorem block_zero {N : Nat} {A B : Array α} {br ox oy : Nat} (hN : 0 < N) (hbr : 0 < br) :
    block N A B 0 br ox oy = .error .diverge := by
  have hgo : ∀ (fuel : Nat) (s : Array α × Array α × Array α), s.1.size = br * br →
      forGo N 0 (fun k_block (s : Array α × Array α × Array α) => do
        let A_small ← loadSmall A N ox k_block br 0 s.2.1
        let B_small ← loadSmall B N oy k_block br 0 s.2.2
        let C_inner ← multSmall A_small B_small br 0 s.1
        pure (C_inner, A_small, B_small) : Nat → _ → M _) fuel 0 s = .error .diverge := by
    intro fuel
    induction fuel with
    | zero => intro s _; simp [forGo, hN]
    | succ f ih =>
      intro s hs
      rw [forGo, if_pos hN]
      obtain ⟨s', e, hs'⟩ := pass_zero (N := N) (A := A) (B := B) (ox := ox) (oy := oy) hbr 0 s hs
      rw [e]
      exact ih _ hs'
  unfold block forStep
  have := hgo (N - 0) (zeros (br * br), zeros (0 * br), zeros (0 * br)) (by simp)
  refine (congrArg (fun x => x >>= fun (s : Array α × Array α × Array α) => (pure s.1 : M _)) this)

theorem result_blocks_pos {N br : Nat} (hN : 0 < N) : 0 < result_blocks N br := by
  unfold result_blocks
  rcases Nat.eq_zero_or_pos (N % br) with h | h
  · have := Nat.div_add_mod N br
    rw [h] at this
    have : N / br ≠ 0 := by intro h0; rw [h0] at this; omega
    exact Nat.add_pos_left (Nat.pos_of_ne_zero this) _
  · rw [if_pos (by omega)]; exact Nat.succ_pos _

/-- The task of the block containing the last row. -/
theorem tree_stuck {N : Nat} {A B : Array α} {br bi : Nat} (hN : 0 < N)
    (h : ∀ C, block N A B bi br ((result_blocks N br - 1) * br) 0 ≠ .ok C) :
    (tree N A B bi br).Stuck := by
  have hrb := result_blocks_pos (br := br) hN
  have hle : result_blocks N br ≤ result_blocks N br * result_blocks N br := Nat.le_mul_of_pos_left _ hrb
  refine .par (List.mem_map.2 ⟨result_blocks N br - 1, List.mem_range.2 (by omega), rfl⟩) (.act ?_)
  rw [iter_two hrb (by omega)]
  refine task_noRet ?_
  simp only [List.getD_cons_zero, List.getD_cons_succ]
  rw [Nat.mod_eq_of_lt (by omega), Nat.div_eq_of_lt (by omega), Nat.zero_mul]
  exact h

theorem tree_errs {N : Nat} {A B : Array α} {br bi : Nat} {E : Err → Prop} (hE : E .oob)
    (h : ∀ ox oy e, block N A B bi br ox oy = .error e → E e) : (tree N A B bi br).Errs E := by
  refine .par fun t ht => ?_
  obtain ⟨n, _, rfl⟩ := List.mem_map.1 ht
  exact .act (task_errs hE (h _ _))

end Verif.Algorithms
