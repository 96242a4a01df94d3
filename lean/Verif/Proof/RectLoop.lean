import Verif.Proof.Experiments
import Verif.Proof.Tiled
/-
Loops that transform a matrix stored in a vector.
-/
set_option linter.unusedSectionVars false
namespace Verif.Experiments
open Tiled (V4 vec)
variable {α : Type}

theorem foldl_ite {ι σ : Type} (P : Prop) [Decidable P] (l : List ι) (g : σ → ι → σ) (x : σ) :
    l.foldl (fun x i => if P then g x i else x) x = if P then l.foldl g x else x := by
  split
  · rfl
  · induction l with
    | nil => rfl
    | cons i l ih => exact ih

theorem foldl_none {ι σ : Type} {P : ι → Prop} [DecidablePred P] {l : List ι} {g : σ → ι → σ}
    (h : ∀ i ∈ l, ¬ P i) (x : σ) : l.foldl (fun x i => if P i then g x i else x) x = x := by
  induction l with
  | nil => rfl
  | cons i l ih =>
    rw [List.foldl_cons, if_neg (h i (by simp))]
    exact ih fun j hj => h j (by simp [hj])

theorem foldl_unique {ι σ : Type} {P : ι → Prop} [DecidablePred P] {l : List ι} (hl : l.Nodup)
    {g : σ → ι → σ} {i0 : ι} (h0 : i0 ∈ l) (hP : P i0) (h : ∀ i ∈ l, P i → i = i0) (x : σ) :
    l.foldl (fun x i => if P i then g x i else x) x = g x i0 := by
  induction l generalizing x with
  | nil => cases h0
  | cons i l ih =>
    rw [List.foldl_cons]
    rw [List.nodup_cons] at hl
    by_cases hi : i = i0
    · subst hi
      rw [if_pos hP]
      exact foldl_none (l := l) (fun j hj hPj => hl.1 (h j (List.mem_cons_of_mem _ hj) hPj ▸ hj)) _
    · rw [if_neg fun hp => hi (h i (by simp) hp)]
      rcases List.mem_cons.1 h0 with h0 | h0
      · exact absurd h0.symm hi
      · exact ih hl.2 h0 (fun j hj => h j (by simp [hj])) x

theorem foldl_set {ι σ : Type} {P : ι → Prop} [DecidablePred P] (l : List ι) (v x : σ) :
    l.foldl (fun x i => if P i then v else x) x = if ∃ i ∈ l, P i then v else x := by
  induction l generalizing x with
  | nil => simp
  | cons i l ih =>
    rw [List.foldl_cons, ih]
    by_cases h1 : ∃ j ∈ l, P j
    · obtain ⟨j, hj, hPj⟩ := h1
      rw [if_pos ⟨j, hj, hPj⟩, if_pos ⟨j, by simp [hj], hPj⟩]
    · rw [if_neg h1]
      by_cases h2 : P i
      · rw [if_pos h2, if_pos ⟨i, by simp, h2⟩]
      · rw [if_neg h2, if_neg]
        rintro ⟨j, hj, hPj⟩
        rcases List.mem_cons.1 hj with rfl | hj
        · exact h2 hPj
        · exact h1 ⟨j, hj, hPj⟩

/-- A loop whose body changes every entry of a matrix by a function of the entry. -/
theorem rect_loop {m n lo hi st : Nat} (hst : 0 < st) {body : Nat → Array α → M (Array α)}
    {step : Nat → Nat → Nat → α → α}
    (h : ∀ k ∈ steps lo hi st, ∀ f, body k (rect m n f) = .ok (rect m n fun r c => step k r c (f r c)))
    (f : Nat → Nat → α) :
    forStep lo hi st (rect m n f) body =
      .ok (rect m n fun r c => (steps lo hi st).foldl (fun x k => step k r c x) (f r c)) := by
  rw [forStep_eq hst]
  generalize steps lo hi st = l at *
  induction l generalizing f with
  | nil => rfl
  | cons k l ih =>
    rw [List.foldlM_cons, h k (by simp) f]
    exact ih _ (fun j hj => h j (by simp [hj]))

/-- A list of updates applied to a matrix. -/
theorem MDoes.rect {F : Array α → M (Array α)} {us : List (Upd α)} (h : MDoes F us) {m n : Nat}
    (hus : ∀ u ∈ us, u.1 < m * n) {f g : Nat → Nat → α}
    (hcell : ∀ r, r < m → ∀ c, c < n → cellFold us (r * n + c) (f r c) = g r c) :
    F (rect m n f) = .ok (rect m n g) := by
  rw [h _ (by simpa using hus), applyA_rect (by simp) (holds_rect m n f) hcell]

theorem MDoes.cons {f g : Array α → M (Array α)} {u : Upd α} {us} (hf : MDoes f [u])
    (hg : MDoes g us) : MDoes (fun a => f a >>= g) (u :: us) := hf.comp hg

/-- `x` is one of the `h` numbers from `lo` on. -/
abbrev In (lo h x : Nat) : Prop := lo ≤ x ∧ x < lo + h

theorem in_iff_block {n b x y : Nat} (hb : 0 < b) (hx : x ∈ steps 0 n b) :
    In x b y ↔ x = y / b * b := by
  constructor
  · exact fun h => block_unique ((mem_steps0 hb).1 hx).1 h.1 h.2
  · rintro rfl
    exact ⟨Nat.div_mul_le_self _ _, lt_div_mul y hb⟩

/-- Exactly one block contains `y`. -/
theorem foldl_block {σ : Type} {n b y : Nat} (hb : 0 < b) (hy : y < n) (g : σ → Nat → σ) (x : σ) :
    (steps 0 n b).foldl (fun x i => if In i b y then g x i else x) x = g x (y / b * b) :=
  foldl_unique (P := fun i => In i b y) (steps_nodup hb) (div_mul_mem hb hy)
    ((in_iff_block hb (div_mul_mem hb hy)).2 rfl)
    (fun _ hi h => (in_iff_block hb hi).1 h) x

theorem foldl_and {ι σ : Type} {P : Prop} [Decidable P] {Q : ι → Prop} [DecidablePred Q]
    (l : List ι) (g : σ → ι → σ) (x : σ) :
    l.foldl (fun x i => if P ∧ Q i then g x i else x) x =
      if P then l.foldl (fun x i => if Q i then g x i else x) x else x := by
  rw [← foldl_ite]
  refine foldl_congr' (fun i _ s => ?_) x
  by_cases hP : P <;> simp [hP]

/-- Two loops over the tiles of a matrix whose body transforms the tile. -/
theorem tiles_rect {m n h w : Nat} (hh : 0 < h) (hw : 0 < w)
    {body : Nat → Nat → Array α → M (Array α)} {step : Nat → Nat → α → α}
    (hbody : ∀ ii ∈ steps 0 m h, ∀ jj ∈ steps 0 n w, ∀ f, body ii jj (rect m n f) =
      .ok (rect m n fun r c => if In ii h r ∧ In jj w c then step r c (f r c) else f r c))
    (f : Nat → Nat → α) :
    (forStep 0 m h (rect m n f) fun ii a => forStep 0 n w a fun jj a => body ii jj a) =
      .ok (rect m n fun r c => step r c (f r c)) := by
  refine (rect_loop hh (step := fun ii r c x => (steps 0 n w).foldl
    (fun x jj => if In ii h r ∧ In jj w c then step r c x else x) x) (fun ii hii f => rect_loop hw
    (step := fun jj r c x => if In ii h r ∧ In jj w c then step r c x else x)
    (fun jj hjj f => hbody ii hii jj hjj f) f) f).trans ?_
  refine congrArg Except.ok (rect_congr fun r hr c hc => ?_)
  have : ∀ ii x, (steps 0 n w).foldl (fun x jj => if In ii h r ∧ In jj w c then step r c x else x) x =
      if In ii h r then step r c x else x := by
    intro ii x
    rw [foldl_and (g := fun x _ => step r c x), foldl_block hw hc]
  simp only [this]
  exact foldl_block hh hr (fun x _ => step r c x) _

/-! ### filling an array -/

/-- Two loops that fill a matrix row by row. -/
theorem fill_rows {m n : Nat} {body : Nat → Nat → Array α → M (Array α)} {f : Nat → Nat → α}
    (hb : ∀ i, i < m → ∀ j, j < n → MDoes (body i j) [(i * n + j, fun _ => f i j)])
    {a : Array α} (ha : a.size = m * n) :
    (forStep 0 m 1 a fun i a => forStep 0 n 1 a fun j a => body i j a) = .ok (rect m n f) := by
  have hd := Tiled.nest2_does hb a (fun u hu => by
    obtain ⟨i, hi, j, hj, hu⟩ := Tiled.mem_nest2.1 hu
    rw [List.mem_singleton] at hu
    subst hu
    rw [ha]
    exact idx_lt hi hj)
  refine hd.trans (congrArg Except.ok ?_)
  refine eq_rect (by simp [ha]) fun i hi j hj => ?_
  rw [applyA_get, Array.getElem?_eq_getElem (by rw [ha]; exact idx_lt hi hj), Option.map_some,
    Tiled.nest2_cell hi hj]
  · simp
  · intro i' hi' j' hj' u hu he
    rw [List.mem_singleton] at hu
    subst hu
    exact idx_inj hj' hj he

/-- Two loops that fill a matrix column by column. -/
theorem fill_cols {m n : Nat} {body : Nat → Nat → Array α → M (Array α)} {f : Nat → Nat → α}
    (hb : ∀ j, j < n → ∀ i, i < m → MDoes (body j i) [(i * n + j, fun _ => f i j)])
    {a : Array α} (ha : a.size = m * n) :
    (forStep 0 n 1 a fun j a => forStep 0 m 1 a fun i a => body j i a) = .ok (rect m n f) := by
  have hd := Tiled.nest2_does hb a (fun u hu => by
    obtain ⟨i, hi, j, hj, hu⟩ := Tiled.mem_nest2.1 hu
    rw [List.mem_singleton] at hu
    subst hu
    rw [ha]
    exact idx_lt hj hi)
  refine hd.trans (congrArg Except.ok ?_)
  refine eq_rect (by simp [ha]) fun i hi j hj => ?_
  rw [applyA_get, Array.getElem?_eq_getElem (by rw [ha]; exact idx_lt hi hj), Option.map_some,
    Tiled.nest2_cell hj hi]
  · simp
  · intro j' hj' i' hi' u hu he
    rw [List.mem_singleton] at hu
    subst hu
    exact (idx_inj hj' hj he).symm

end Verif.Experiments
