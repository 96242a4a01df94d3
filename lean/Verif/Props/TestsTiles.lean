import Verif.Model.TestsTiles
import Verif.Props.MemoryLayout
/-
C89: the unit tests of the tiled memory layout.
-/
namespace Verif.Props
open Verif.Tests Verif.MemoryLayout
variable {α : Type} [Arith α]

private theorem fold_inv {σ : Type} {f : σ → Nat → M σ} {P : Nat → σ → Prop} {n : Nat} {s : σ}
    (h0 : P 0 s) (h : ∀ k, k < n → ∀ s, P k s → ∃ s', f s k = .ok s' ∧ P (k + 1) s') :
    ∃ s', (List.range n).foldlM f s = .ok s' ∧ P n s' := by
  induction n with
  | zero => exact ⟨s, rfl, h0⟩
  | succ n ih =>
    obtain ⟨s1, h1, h2⟩ := ih fun k hk => h k (by omega)
    obtain ⟨s2, h3, h4⟩ := h n (by omega) s1 h2
    refine ⟨s2, ?_, h4⟩
    rw [List.range_succ, List.foldlM_append, h1]
    show (do let t ← f s1 n; [].foldlM f t) = _
    rw [h3]
    rfl

/-- The matrix that the tests fill, if the static counter has the value `c`. -/
theorem counting_ok (e : TileEnv α) (c : Nat) :
    counting e c (256 * 256) = .ok (rect 256 256 (fun i j => e.cast (c + (i * 256 + j))), c + 256 * 256) := by
  unfold counting
  rw [forStep_eq (by decide), steps_one]
  generalize hn : 256 * 256 = n
  obtain ⟨⟨s1, s2⟩, h1, h2, h3, h4⟩ := fold_inv (n := n) (s := ((zeros n : Array α), c))
    (f := fun (s : Array α × Nat) k => do
      let m ← wr s.1 k (e.cast s.2)
      pure (m, s.2 + 1))
    (P := fun k s => s.2 = c + k ∧ s.1.size = n ∧ ∀ i, i < k → s.1[i]? = some (e.cast (c + i)))
    ⟨rfl, by simp [zeros], fun i hi => absurd hi (by omega)⟩ (by
      rintro k hk ⟨a, x⟩ ⟨rfl, hs, hv⟩
      simp only at hs hv hk
      refine ⟨(a.setIfInBounds k (e.cast (c + k)), c + k + 1), ?_, rfl, by simp [hs], fun i hi => ?_⟩
      · unfold wr
        rw [if_pos (by show k < a.size; omega)]
        rfl
      · show (a.setIfInBounds k (e.cast (c + k)))[i]? = _
        rw [Array.getElem?_setIfInBounds]
        split
        · next h => subst h; simp [hs, hk]
        · exact hv i (by omega))
  rw [h1]
  simp only at h2 h3 h4
  rw [h2]
  refine congrArg (fun m => Except.ok (m, c + n)) (eq_rect (h3.trans hn.symm) fun i hi j hj => h4 _ ?_)
  rw [← hn]
  omega

omit [Arith α] in
/-- The checks of a tile pass if the view shows the numbers `reference`. -/
private theorem compare_view_ok (e : TileEnv α) (hc : ∀ n, n < 65536 → e.close (e.cast n) (e.cast n) = true)
    (tiled : Array α) (v : TileView) (ref : Array Nat) (a b : Nat) (ha : a < 64) (hb : b < 64)
    (hv : ∀ i, i < 4 → ∀ j, j < 4 → v.get 2 tiled #[i, j] =
      .ok (e.cast ((a * 4 + i) * 256 + (b * 4 + j))))
    (hr : ∀ i, i < 4 → ∀ j, j < 4 → ref[i * 4 + j]? = some ((a * 4 + i) * 256 + (b * 4 + j)))
    (n : Nat) :
    compare_view e tiled v ref (List.replicate n true) = .ok (List.replicate (n + 16) true) := by
  have step : ∀ i, i < 4 → ∀ n, (forStep 0 4 1 (List.replicate n true) fun j l => do
      let x ← v.get 2 tiled #[i, j]
      let y ← rd ref (i * 4 + j)
      pure (l ++ [e.close x (e.cast y)]) : M (List Bool)) = .ok (List.replicate (n + 4) true) := by
    intro i hi n
    rw [forStep_eq (by decide), steps_one]
    obtain ⟨s, h1, h2⟩ := fold_inv (n := 4) (s := List.replicate n true)
      (f := fun l j => do
        let x ← v.get 2 tiled #[i, j]
        let y ← rd ref (i * 4 + j)
        pure (l ++ [e.close x (e.cast y)])) (P := fun k s => s = List.replicate (n + k) true) rfl (by
        rintro k hk s rfl
        refine ⟨_, ?_, rfl⟩
        rw [hv i hi k hk, M_bind_ok, rd_ok (hr i hi k hk), M_bind_ok, hc _ (by omega), ← List.replicate_succ']
        rfl)
    rw [h1, h2]
  show (forStep 0 4 1 (List.replicate n true) fun i l => forStep 0 4 1 l fun j l => do
      let x ← v.get 2 tiled #[i, j]
      let y ← rd ref (i * 4 + j)
      pure (l ++ [e.close x (e.cast y)]) : M (List Bool)) = _
  rw [forStep_eq (by decide), steps_one]
  obtain ⟨s, h1, h2⟩ := fold_inv (n := 4) (s := List.replicate n true)
    (f := fun l i => (forStep 0 4 1 l fun j l => do
        let x ← v.get 2 tiled #[i, j]
        let y ← rd ref (i * 4 + j)
        pure (l ++ [e.close x (e.cast y)]) : M (List Bool))) (P := fun k s => s = List.replicate (n + 4 * k) true) rfl (by
      rintro k hk s rfl
      exact ⟨_, step k hk _, rfl⟩)
  rw [h1, h2]

/-- What the four references of the tests contain. -/
private theorem references : ∀ i, i < 4 → ∀ j, j < 4 →
    reference_first[i * 4 + j]? = some ((0 * 4 + i) * 256 + (0 * 4 + j)) ∧
    reference_first_end[i * 4 + j]? = some ((0 * 4 + i) * 256 + (63 * 4 + j)) ∧
    reference_first_last[i * 4 + j]? = some ((63 * 4 + i) * 256 + (0 * 4 + j)) ∧
    reference_last[i * 4 + j]? = some ((63 * 4 + i) * 256 + (63 * 4 + j)) := by
  decide

/-- **C89.** The test case `view` of test_tile_view.cpp passes: its 64 checks hold with any check that
accepts equal integers below 65536. -/
theorem C89_tile_view (e : TileEnv α) (hc : ∀ n, n < 65536 → e.close (e.cast n) (e.cast n) = true)
    (hj : ∀ k, (e.junk k).size = 2) :
    test_tile_view e = .ok (List.replicate 64 true) := by
  unfold test_tile_view
  rw [counting_ok, M_bind_ok]
  simp only [Nat.zero_add]
  unfold view_checks
  obtain ⟨tiled, hm, _⟩ := C42_make_tiled (α := α) (tile := [4, 4]) (ext := [256, 256])
    (fits_two (by decide) (by decide) (by decide) (by decide)) (hj 0) (hj 1)
    (rect 256 256 fun i j => e.cast (i * 256 + j)) (by simp [rect])
  have hm' : make_tiled 2 (e.junk 0) (e.junk 1) (rect 256 256 fun i j => e.cast (i * 256 + j))
    tile_info = .ok tiled := hm
  have tile : ∀ a b, a < 64 → b < 64 → ∀ ref : Array Nat,
      (∀ i, i < 4 → ∀ j, j < 4 → ref[i * 4 + j]? = some ((a * 4 + i) * 256 + (b * 4 + j))) →
      ∀ n, compare_tile e tiled #[a, b] ref (List.replicate n true) =
        .ok (List.replicate (n + 16) true) := by
    intro a b ha hb ref hr n
    obtain ⟨v, h1, _, _, _, h2⟩ := C43_tile_view (t0 := 4) (t1 := 4) (s0 := 256) (s1 := 256) (by decide)
      (by decide) (by decide) (by decide) (hj 0) (hj 1) _ tiled _ rfl hm' a b ha hb
    unfold compare_tile
    rw [show TileView.new 2 #[a, b] tile_info = .ok v from h1, M_bind_ok]
    exact compare_view_ok e hc tiled v ref a b ha hb (fun i hi j hj => (h2 i hi j hj).1) hr n
  rw [hm', M_bind_ok]
  have t1 := tile 0 0 (by decide) (by decide) _ (fun i hi j hj => (references i hi j hj).1) 0
  have t2 := tile 0 63 (by decide) (by decide) _ (fun i hi j hj => (references i hi j hj).2.1) 16
  have t3 := tile 63 0 (by decide) (by decide) _ (fun i hi j hj => (references i hi j hj).2.2.1) 32
  have t4 := tile 63 63 (by decide) (by decide) _ (fun i hi j hj => (references i hi j hj).2.2.2) 48
  rw [show ([] : List Bool) = List.replicate 0 true from rfl, t1, M_bind_ok,
    show 256 / 4 - 1 = 63 from rfl, t2, M_bind_ok, t3, M_bind_ok, t4]

/-- How many of the four tiles checked element by element are among the first `k`. -/
private def seen (k : Nat) : Nat :=
  (if 0 < k then 1 else 0) + (if 63 < k then 1 else 0) + (if 4032 < k then 1 else 0) +
    (if 4095 < k then 1 else 0)

/-- **C89.** The test case `iterate` of test_iterate_tiles.cpp passes: the lambda is called for the
4096 tiles in the order of its counters, and all checks (two per tile, 16 for each of four tiles, four at
the end) hold with any check that accepts equal integers below 65536. -/
theorem C89_iterate_tiles (e : TileEnv α) (hc : ∀ n, n < 65536 → e.close (e.cast n) (e.cast n) = true)
    (hj : ∀ k, (e.junk k).size = 2) :
    test_iterate_tiles e = .ok (List.replicate (2 * 4096 + 4 * 16 + 4) true) := by
  unfold test_iterate_tiles
  rw [counting_ok, M_bind_ok]
  simp only [Nat.zero_add]
  unfold iterate_checks
  obtain ⟨tiled, hm, _⟩ := C42_make_tiled (α := α) (tile := [4, 4]) (ext := [256, 256])
    (fits_two (by decide) (by decide) (by decide) (by decide)) (hj 0) (hj 1)
    (rect 256 256 fun i j => e.cast (i * 256 + j)) (by simp [rect])
  have hm' : make_tiled 2 (e.junk 0) (e.junk 1) (rect 256 256 fun i j => e.cast (i * 256 + j))
    tile_info = .ok tiled := hm
  rw [hm', M_bind_ok]
  have hview : ∀ k, k < 4096 → ∀ i, i < 4 → ∀ j, j < 4 →
      TileView.get ⟨k * (4 * 4), #[k / 64, k % 64], #[64, 64], tile_info, 4 * 4⟩ 2 tiled #[i, j] =
        .ok (e.cast ((k / 64 * 4 + i) * 256 + (k % 64 * 4 + j))) := by
    intro k hk i hi j hj0
    obtain ⟨v, h1, _, _, _, h2⟩ := C43_tile_view (t0 := 4) (t1 := 4) (s0 := 256) (s1 := 256) (by decide)
      (by decide) (by decide) (by decide) (hj 0) (hj 1) _ tiled _ rfl hm' (k / 64) (k % 64) (by omega)
      (by omega)
    rw [new_ok rfl (pos_two (by decide) (by decide)) (t := [k / 64, k % 64]) rfl] at h1
    cases h1
    rw [← (h2 i hi j hj0).1]
    unfold view
    rw [num_two, flatPos_two, tile_two, prod_two]
    rw [Nat.div_add_mod' k 64]
    rfl
  have hit := C44_iterate_tiles (t0 := 4) (t1 := 4) (by decide) (by decide) 256 256 (hj 2)
    (iterate_body e tiled) ⟨0, 0, Array.replicate 4 false, []⟩
  obtain ⟨s, h1, h2⟩ := fold_inv (n := 4096) (s := (⟨0, 0, Array.replicate 4 false, []⟩ : IterState))
    (f := fun s k => iterate_body e tiled ⟨k * (4 * 4), #[k / 64, k % 64], #[64, 64], tile_info, 4 * 4⟩ s)
    (P := fun k s => s = ⟨k / 64, k % 64,
      #[decide (0 < k), decide (63 < k), decide (4032 < k), decide (4095 < k)],
      List.replicate (2 * k + 16 * seen k) true⟩) (by simp [seen]; rfl) (by
      rintro k hk s rfl
      unfold iterate_body
      rw [show rd #[k / 64, k % 64] 0 = .ok (k / 64) from rfl, M_bind_ok,
        show rd #[k / 64, k % 64] 1 = .ok (k % 64) from rfl, M_bind_ok]
      simp only [beq_self_eq_true]
      have hl : List.replicate (2 * k + 16 * seen k) true ++ [true, true] =
          List.replicate (2 * k + 16 * seen k + 2) true := by
        rw [show [true, true] = List.replicate 2 true from rfl, List.replicate_append_replicate]
      rw [hl]
      have cv : ∀ (a b : Nat) (ref : Array Nat), k / 64 = a → k % 64 = b →
          (∀ i, i < 4 → ∀ j, j < 4 → ref[i * 4 + j]? = some ((a * 4 + i) * 256 + (b * 4 + j))) →
          compare_view e tiled ⟨k * (4 * 4), #[k / 64, k % 64], #[64, 64], tile_info, 4 * 4⟩ ref
            (List.replicate (2 * k + 16 * seen k + 2) true) =
          .ok (List.replicate (2 * k + 16 * seen k + 2 + 16) true) := by
        rintro a b ref rfl rfl hr
        exact compare_view_ok e hc tiled _ ref _ _ (by omega) (by omega) (hview k hk) hr _
      have fin : ∀ (x : M (Array Bool × List Bool)),
          x = .ok (#[decide (0 < k + 1), decide (63 < k + 1), decide (4032 < k + 1), decide (4095 < k + 1)],
            List.replicate (2 * (k + 1) + 16 * seen (k + 1)) true) →
          ∃ s', (do
            let r ← x
            if k % 64 + 1 = 64 then pure ⟨k / 64 + 1, 0, r.1, r.2⟩
            else pure ⟨k / 64, k % 64 + 1, r.1, r.2⟩ : M IterState) = .ok s' ∧
          s' = ⟨(k + 1) / 64, (k + 1) % 64,
            #[decide (0 < k + 1), decide (63 < k + 1), decide (4032 < k + 1), decide (4095 < k + 1)],
            List.replicate (2 * (k + 1) + 16 * seen (k + 1)) true⟩ := by
        rintro x rfl
        refine ⟨_, ?_, rfl⟩
        rw [M_bind_ok]
        split
        · next h =>
          rw [show (k + 1) / 64 = k / 64 + 1 by omega, show (k + 1) % 64 = 0 by omega]
          rfl
        · next h =>
          rw [show (k + 1) / 64 = k / 64 by omega, show (k + 1) % 64 = k % 64 + 1 by omega]
          rfl
      refine fin _ ?_
      have hs : ∀ n, k = n → n = 0 ∨ n = 63 ∨ n = 4032 ∨ n = 4095 → seen (k + 1) = seen k + 1 := by
        rintro n rfl (rfl | rfl | rfl | rfl) <;> rfl
      have hn : seen (k + 1) = seen k + 1 →
          2 * k + 16 * seen k + 2 + 16 = 2 * (k + 1) + 16 * seen (k + 1) := by omega
      unfold iterate_elements
      split
      · next h =>
        have hk0 : k = 0 := by omega
        rw [cv 0 0 _ h.1 h.2 fun i hi j hj => (references i hi j hj).1, hn (hs _ hk0 (by omega)), hk0]
        rfl
      split
      · next h =>
        have hk0 : k = 63 := by omega
        rw [cv 0 63 _ h.1 h.2 fun i hi j hj => (references i hi j hj).2.1, hn (hs _ hk0 (by omega)), hk0]
        rfl
      split
      · next h =>
        have hk0 : k = 4032 := by omega
        rw [cv 63 0 _ h.1 h.2 fun i hi j hj => (references i hi j hj).2.2.1, hn (hs _ hk0 (by omega)), hk0]
        rfl
      split
      · next h =>
        have hk0 : k = 4095 := by omega
        rw [cv 63 63 _ h.1 h.2 fun i hi j hj => (references i hi j hj).2.2.2, hn (hs _ hk0 (by omega)), hk0]
        rfl
      · have e1 : seen (k + 1) = seen k := by
          unfold seen
          rw [if_pos (by omega : 0 < k + 1), if_pos (by omega : 0 < k),
            if_congr (by omega : 63 < k + 1 ↔ 63 < k) rfl rfl,
            if_congr (by omega : 4032 < k + 1 ↔ 4032 < k) rfl rfl,
            if_congr (by omega : 4095 < k + 1 ↔ 4095 < k) rfl rfl]
        rw [e1, show 2 * (k + 1) + 16 * seen k = 2 * k + 16 * seen k + 2 by omega,
          decide_eq_decide.2 (by omega : 0 < k + 1 ↔ 0 < k),
          decide_eq_decide.2 (by omega : 63 < k + 1 ↔ 63 < k),
          decide_eq_decide.2 (by omega : 4032 < k + 1 ↔ 4032 < k),
          decide_eq_decide.2 (by omega : 4095 < k + 1 ↔ 4095 < k)]
        rfl)
  have hit' : iterate_tiles 2 (e.junk 2) tile_info (iterate_body e tiled)
    ⟨0, 0, Array.replicate 4 false, []⟩ = .ok s := hit.trans h1
  rw [hit', M_bind_ok, h2]
  show Except.ok (List.replicate (2 * 4096 + 4 * 16) true ++ List.replicate 4 true) = _
  rw [List.replicate_append_replicate]

omit [Arith α] in
/-- The checks of a tile are appended; the first one compares the first element of the tile. -/
private theorem compare_view_app (e : TileEnv α) (tiled : Array α) (v : TileView) (ref : Array Nat)
    (x : Nat → Nat → α) (hv : ∀ i, i < 4 → ∀ j, j < 4 → v.get 2 tiled #[i, j] = .ok (x i j))
    (hr : ref.size = 16) (l : List Bool) :
    ∃ l', compare_view e tiled v ref l = .ok (l ++ l') ∧
      (e.close (x 0 0) (e.cast (ref.getD 0 0)) = false → false ∈ l') := by
  have hrd : ∀ i, i < 4 → ∀ j, j < 4 → rd ref (i * 4 + j) = .ok (ref.getD (i * 4 + j) 0) := by
    intro i hi j hj
    refine rd_ok ?_
    rw [Array.getElem?_eq_getElem (by omega), Array.getD_eq_getD_getElem?,
      Array.getElem?_eq_getElem (by omega)]
    rfl
  have step : ∀ i, i < 4 → ∀ l, ∃ l', (forStep 0 4 1 l fun j l => do
      let x ← v.get 2 tiled #[i, j]
      let y ← rd ref (i * 4 + j)
      pure (l ++ [e.close x (e.cast y)]) : M (List Bool)) = .ok (l ++ l') ∧
        (e.close (x i 0) (e.cast (ref.getD (i * 4) 0)) = false → false ∈ l') := by
    intro i hi l
    rw [forStep_eq (by decide), steps_one]
    obtain ⟨s, h1, l', h2, h3⟩ := fold_inv (n := 4) (s := l)
      (f := fun l j => do
        let x ← v.get 2 tiled #[i, j]
        let y ← rd ref (i * 4 + j)
        pure (l ++ [e.close x (e.cast y)]))
      (P := fun k s => ∃ l', s = l ++ l' ∧
        (0 < k → e.close (x i 0) (e.cast (ref.getD (i * 4) 0)) = false → false ∈ l'))
      ⟨[], (List.append_nil _).symm, fun h => absurd h (by omega)⟩ (by
        rintro k hk s ⟨l', rfl, hf⟩
        refine ⟨_, ?_, l' ++ [e.close (x i k) (e.cast (ref.getD (i * 4 + k) 0))], List.append_assoc .., ?_⟩
        · rw [hv i hi k hk, M_bind_ok, hrd i hi k hk, M_bind_ok]
          rfl
        · intro _ h
          rcases Nat.eq_zero_or_pos k with rfl | hk
          · exact List.mem_append_right _ (by simpa using h.symm)
          · exact List.mem_append_left _ (hf hk h))
    exact ⟨l', h1.trans (congrArg _ h2), h3 (by decide)⟩
  show ∃ l', (forStep 0 4 1 l fun i l => forStep 0 4 1 l fun j l => do
      let x ← v.get 2 tiled #[i, j]
      let y ← rd ref (i * 4 + j)
      pure (l ++ [e.close x (e.cast y)]) : M (List Bool)) = _ ∧ _
  rw [forStep_eq (by decide), steps_one]
  obtain ⟨s, h1, l', h2, h3⟩ := fold_inv (n := 4) (s := l)
    (f := fun l i => (forStep 0 4 1 l fun j l => do
        let x ← v.get 2 tiled #[i, j]
        let y ← rd ref (i * 4 + j)
        pure (l ++ [e.close x (e.cast y)]) : M (List Bool)))
    (P := fun k s => ∃ l', s = l ++ l' ∧
      (0 < k → e.close (x 0 0) (e.cast (ref.getD 0 0)) = false → false ∈ l'))
    ⟨[], (List.append_nil _).symm, fun h => absurd h (by omega)⟩ (by
      rintro k hk s ⟨l', rfl, hf⟩
      obtain ⟨l2, h4, h5⟩ := step k hk (l ++ l')
      refine ⟨_, h4, l' ++ l2, List.append_assoc .., fun _ h => ?_⟩
      rcases Nat.eq_zero_or_pos k with rfl | hk
      · exact List.mem_append_right _ (h5 h)
      · exact List.mem_append_left _ (hf hk h))
  exact ⟨l', h1.trans (congrArg _ h2), h3 (by decide)⟩

/-- The tiled matrix and its views, if the static counter has the value `c` at the beginning. -/
private theorem tiled_from (e : TileEnv α) (hj : ∀ k, (e.junk k).size = 2) (c : Nat) :
    ∃ tiled, make_tiled 2 (e.junk 0) (e.junk 1)
        (rect 256 256 fun i j => e.cast (c + (i * 256 + j))) tile_info = .ok tiled ∧
      ∀ a b, a < 64 → b < 64 → ∃ v, TileView.new 2 #[a, b] tile_info = .ok v ∧
        v = ⟨(a * 64 + b) * (4 * 4), #[a, b], #[64, 64], tile_info, 4 * 4⟩ ∧
        ∀ i, i < 4 → ∀ j, j < 4 →
          v.get 2 tiled #[i, j] = .ok (e.cast (c + ((a * 4 + i) * 256 + (b * 4 + j)))) := by
  obtain ⟨tiled, hm, _⟩ := C42_make_tiled (α := α) (tile := [4, 4]) (ext := [256, 256])
    (fits_two (by decide) (by decide) (by decide) (by decide)) (hj 0) (hj 1)
    (rect 256 256 fun i j => e.cast (c + (i * 256 + j))) (by simp [rect])
  have hm' : make_tiled 2 (e.junk 0) (e.junk 1) (rect 256 256 fun i j => e.cast (c + (i * 256 + j)))
    tile_info = .ok tiled := hm
  refine ⟨tiled, hm', fun a b ha hb => ?_⟩
  obtain ⟨v, h1, _, _, _, h2⟩ := C43_tile_view (t0 := 4) (t1 := 4) (s0 := 256) (s1 := 256) (by decide)
    (by decide) (by decide) (by decide) (hj 0) (hj 1) _ tiled _ rfl hm' a b ha hb
  refine ⟨v, h1, ?_, fun i hi j hj => (h2 i hi j hj).1⟩
  rw [new_ok rfl (pos_two (by decide) (by decide)) (t := [a, b]) rfl] at h1
  cases h1
  unfold view
  rw [num_two, flatPos_two, tile_two, prod_two]
  rfl

/-- **C89.** The test case `view` depends on its static counter: if the counter does not start at a
number that the check takes for 0 (as in a second run), a check fails. -/
theorem C89_tile_view_counter (e : TileEnv α) (hj : ∀ k, (e.junk k).size = 2) (c : Nat)
    (hc : e.close (e.cast c) (e.cast 0) = false) :
    ∃ l, view_checks e (rect 256 256 fun i j => e.cast (c + (i * 256 + j))) = .ok l ∧ false ∈ l := by
  obtain ⟨tiled, hm, hv⟩ := tiled_from e hj c
  unfold view_checks
  rw [hm, M_bind_ok]
  have tile : ∀ a b, a < 64 → b < 64 → ∀ ref : Array Nat, ref.size = 16 → ∀ l,
      ∃ l', compare_tile e tiled #[a, b] ref l = .ok (l ++ l') ∧
        (e.close (e.cast (c + ((a * 4 + 0) * 256 + (b * 4 + 0)))) (e.cast (ref.getD 0 0)) = false →
          false ∈ l') := by
    intro a b ha hb ref hr l
    obtain ⟨v, h1, -, h2⟩ := hv a b ha hb
    unfold compare_tile
    rw [h1, M_bind_ok]
    exact compare_view_app e tiled v ref _ h2 hr l
  obtain ⟨l1, t1, hf⟩ := tile 0 0 (by decide) (by decide) reference_first rfl []
  obtain ⟨l2, t2, -⟩ := tile 0 63 (by decide) (by decide) reference_first_end rfl ([] ++ l1)
  obtain ⟨l3, t3, -⟩ := tile 63 0 (by decide) (by decide) reference_first_last rfl ([] ++ l1 ++ l2)
  obtain ⟨l4, t4, -⟩ := tile 63 63 (by decide) (by decide) reference_last rfl ([] ++ l1 ++ l2 ++ l3)
  refine ⟨[] ++ l1 ++ l2 ++ l3 ++ l4, ?_, ?_⟩
  · rw [t1, M_bind_ok, show 256 / 4 - 1 = 63 from rfl, t2, M_bind_ok, t3, M_bind_ok, t4]
  · have := hf hc
    simp [this]

/-- **C89.** The test case `iterate` depends on its static counter in the same way. -/
theorem C89_iterate_tiles_counter (e : TileEnv α) (hj : ∀ k, (e.junk k).size = 2) (c : Nat)
    (hc : e.close (e.cast c) (e.cast 0) = false) :
    ∃ l, iterate_checks e (rect 256 256 fun i j => e.cast (c + (i * 256 + j))) = .ok l ∧ false ∈ l := by
  obtain ⟨tiled, hm, hv⟩ := tiled_from e hj c
  unfold iterate_checks
  rw [hm, M_bind_ok]
  have hit := C44_iterate_tiles (t0 := 4) (t1 := 4) (by decide) (by decide) 256 256 (hj 2)
    (iterate_body e tiled) ⟨0, 0, Array.replicate 4 false, []⟩
  obtain ⟨s, h1, h2, h3⟩ := fold_inv (n := 4096) (s := (⟨0, 0, Array.replicate 4 false, []⟩ : IterState))
    (f := fun s k => iterate_body e tiled ⟨k * (4 * 4), #[k / 64, k % 64], #[64, 64], tile_info, 4 * 4⟩ s)
    (P := fun k s => (s.i = k / 64 ∧ s.j = k % 64 ∧ s.cases.size = 4) ∧ (0 < k → false ∈ s.l))
    ⟨⟨rfl, rfl, by simp⟩, fun h => absurd h (by omega)⟩ (by
      rintro k hk s ⟨⟨hi, hj', hs⟩, hf⟩
      obtain ⟨v, -, h4, h5⟩ := hv (k / 64) (k % 64) (by omega) (by omega)
      rw [Nat.div_add_mod' k 64] at h4
      rw [h4] at h5
      unfold iterate_body
      rw [show rd #[k / 64, k % 64] 0 = .ok (k / 64) from rfl, M_bind_ok,
        show rd #[k / 64, k % 64] 1 = .ok (k % 64) from rfl, M_bind_ok]
      have el : ∀ l, ∃ cs l', iterate_elements e tiled
          ⟨k * (4 * 4), #[k / 64, k % 64], #[64, 64], tile_info, 4 * 4⟩ s.i s.j s.cases l =
            .ok (cs, l ++ l') ∧ cs.size = 4 ∧ (k = 0 → false ∈ l') := by
        intro l
        have cmp : ∀ (q : Nat) (ref : Array Nat), q < 4 → ref.size = 16 → ∃ cs l', (do
            pure (← wr s.cases q true, ← compare_view e tiled
              ⟨k * (4 * 4), #[k / 64, k % 64], #[64, 64], tile_info, 4 * 4⟩ ref l) :
              M (Array Bool × List Bool)) = .ok (cs, l ++ l') ∧ cs.size = 4 ∧
              (e.close (e.cast (c + ((k / 64 * 4 + 0) * 256 + (k % 64 * 4 + 0)))) (e.cast (ref.getD 0 0)) =
                false → false ∈ l') := by
          intro q ref hq hr
          obtain ⟨l', h6, h7⟩ := compare_view_app e tiled _ ref _ h5 hr l
          refine ⟨s.cases.setIfInBounds q true, l', ?_, by simpa using hs, h7⟩
          unfold wr
          rw [if_pos (by omega)]
          show (do pure (_, ← compare_view e tiled _ ref l) : M (Array Bool × List Bool)) = _
          rw [h6]
          rfl
        unfold iterate_elements
        split
        · next h =>
          have hk0 : k = 0 := by omega
          obtain ⟨cs, l', h8, h9, h10⟩ := cmp 0 reference_first (by decide) rfl
          refine ⟨cs, l', h8, h9, fun _ => h10 ?_⟩
          rw [hk0]
          exact hc
        split
        · next h0 h =>
          obtain ⟨cs, l', h8, h9, -⟩ := cmp 1 reference_first_end (by decide) rfl
          exact ⟨cs, l', h8, h9, fun hk => absurd ⟨by omega, by omega⟩ h0⟩
        split
        · next h0 _ h =>
          obtain ⟨cs, l', h8, h9, -⟩ := cmp 2 reference_first_last (by decide) rfl
          exact ⟨cs, l', h8, h9, fun hk => absurd ⟨by omega, by omega⟩ h0⟩
        split
        · next h0 _ _ h =>
          obtain ⟨cs, l', h8, h9, -⟩ := cmp 3 reference_last (by decide) rfl
          exact ⟨cs, l', h8, h9, fun hk => absurd ⟨by omega, by omega⟩ h0⟩
        · next h0 _ _ _ =>
          exact ⟨s.cases, [], by rw [List.append_nil]; rfl, hs, fun hk => absurd ⟨by omega, by omega⟩ h0⟩
      obtain ⟨cs, l', h6, h7, h8⟩ := el (s.l ++ [k / 64 == s.i, k % 64 == s.j])
      rw [h6, M_bind_ok]
      have hl : 0 < k + 1 → false ∈ s.l ++ [k / 64 == s.i, k % 64 == s.j] ++ l' := by
        intro _
        rcases Nat.eq_zero_or_pos k with h0 | h0
        · exact List.mem_append_right _ (h8 h0)
        · exact List.mem_append_left _ (List.mem_append_left _ (hf h0))
      split
      · next h => exact ⟨_, rfl, ⟨by show s.i + 1 = _; omega, by show 0 = _; omega, h7⟩, hl⟩
      · next h => exact ⟨_, rfl, ⟨by show s.i = _; omega, by show s.j + 1 = _; omega, h7⟩, hl⟩)
  have hit' : iterate_tiles 2 (e.junk 2) tile_info (iterate_body e tiled)
    ⟨0, 0, Array.replicate 4 false, []⟩ = .ok s := hit.trans h1
  have hrd : ∀ q, q < 4 → rd s.cases q = .ok (s.cases.getD q false) := by
    intro q hq
    refine rd_ok ?_
    rw [Array.getElem?_eq_getElem (by omega), Array.getD_eq_getD_getElem?,
      Array.getElem?_eq_getElem (by omega)]
    rfl
  rw [hit', M_bind_ok]
  unfold seen_checks
  rw [hrd 0 (by decide), M_bind_ok, hrd 1 (by decide), M_bind_ok, hrd 2 (by decide),
    M_bind_ok, hrd 3 (by decide), M_bind_ok]
  exact ⟨_, rfl, List.mem_append_left _ (h3 (by decide))⟩

/-- The counters at which the four corner tiles are expected. -/
private def corner : Nat → Nat × Nat
  | 0 => (0, 0)
  | 1 => (0, 63)
  | 2 => (63, 0)
  | _ => (63, 63)

omit [Arith α] in
private theorem elements_cases {e : TileEnv α} {tiled : Array α} {v : TileView} {i j : Nat}
    {cases cases' : Array Bool} {l l' : List Bool}
    (h : iterate_elements e tiled v i j cases l = .ok (cases', l')) (hs : cases.size = 4) :
    cases'.size = 4 ∧ ∀ q, q < 4 → (cases'[q]? = some true ↔ cases[q]? = some true ∨ (i, j) = corner q) := by
  have wrote : ∀ (p : Nat) (ref : Array Nat), p < 4 → (i, j) = corner p → (do
      pure (← wr cases p true, ← compare_view e tiled v ref l) : M (Array Bool × List Bool)) =
        .ok (cases', l') → cases'.size = 4 ∧
        ∀ q, q < 4 → (cases'[q]? = some true ↔ cases[q]? = some true ∨ (i, j) = corner q) := by
    intro p ref hp hc h
    unfold wr at h
    rw [if_pos (by omega)] at h
    cases hv : compare_view e tiled v ref l with
    | error x => rw [hv] at h; cases h
    | ok y =>
      rw [hv] at h
      cases h
      refine ⟨by simpa using hs, fun q hq => ?_⟩
      rw [hc, Array.getElem?_setIfInBounds]
      by_cases hpq : p = q
      · subst hpq
        simp [hs, hp]
      · rw [if_neg hpq]
        have : corner p ≠ corner q := by
          match p, q, hp, hq with
          | 0, 0, _, _ | 1, 1, _, _ | 2, 2, _, _ | 3, 3, _, _ => exact absurd rfl hpq
          | 0, 1, _, _ | 0, 2, _, _ | 0, 3, _, _ | 1, 0, _, _ | 1, 2, _, _ | 1, 3, _, _
          | 2, 0, _, _ | 2, 1, _, _ | 2, 3, _, _ | 3, 0, _, _ | 3, 1, _, _ | 3, 2, _, _ =>
            simp [corner]
        simp [this]
  unfold iterate_elements at h
  split at h
  · next hc => exact wrote 0 _ (by decide) (by rw [hc.1, hc.2]; rfl) h
  split at h
  · next hc => exact wrote 1 _ (by decide) (by rw [hc.1, hc.2]; rfl) h
  split at h
  · next hc => exact wrote 2 _ (by decide) (by rw [hc.1, hc.2]; rfl) h
  split at h
  · next hc => exact wrote 3 _ (by decide) (by rw [hc.1, hc.2]; rfl) h
  · next h0 h1 h2 h3 =>
    cases h
    refine ⟨hs, fun q hq => ?_⟩
    have : (i, j) ≠ corner q := by
      intro hc
      match q, hq with
      | 0, _ => exact h0 (Prod.mk.inj hc)
      | 1, _ => exact h1 (Prod.mk.inj hc)
      | 2, _ => exact h2 (Prod.mk.inj hc)
      | 3, _ => exact h3 (Prod.mk.inj hc)
    simp [this]

omit [Arith α] in
/-- **C89.** The four checks at the end of `iterate` are about the four corner tiles: after calls for any
sequence of tiles and counters they all hold if and only if all four corners were among the counters. -/
theorem C89_iterate_tiles_seen (e : TileEnv α) (tiled : Array α) (calls : List (TileView × Nat × Nat))
    (cases : Array Bool) (l : List Bool)
    (h : calls.foldlM (fun (s : Array Bool × List Bool) c =>
      iterate_elements e tiled c.1 c.2.1 c.2.2 s.1 s.2) (Array.replicate 4 false, []) = .ok (cases, l)) :
    ∃ r, seen_checks cases = .ok r ∧ ((∀ b ∈ r, b = true) ↔
      ∀ p ∈ [(0, 0), (0, 63), (63, 0), (63, 63)], p ∈ calls.map Prod.snd) := by
  have gen : ∀ (calls : List (TileView × Nat × Nat)) (s : Array Bool × List Bool), s.1.size = 4 →
      calls.foldlM (fun (s : Array Bool × List Bool) c =>
        iterate_elements e tiled c.1 c.2.1 c.2.2 s.1 s.2) s = .ok (cases, l) →
      cases.size = 4 ∧
      ∀ q, q < 4 → (cases[q]? = some true ↔ s.1[q]? = some true ∨ corner q ∈ calls.map Prod.snd) := by
    intro calls
    induction calls with
    | nil =>
      intro s hs h
      cases h
      exact ⟨hs, fun q _ => by simp⟩
    | cons c calls ih =>
      intro s hs h
      rw [List.foldlM_cons] at h
      cases hx : iterate_elements e tiled c.1 c.2.1 c.2.2 s.1 s.2 with
      | error x => rw [hx] at h; cases h
      | ok y =>
        rw [hx, M_bind_ok] at h
        obtain ⟨h1, h2⟩ := elements_cases hx hs
        obtain ⟨h3, h4⟩ := ih y h1 h
        refine ⟨h3, fun q hq => ?_⟩
        rw [h4 q hq, h2 q hq, List.map_cons, List.mem_cons, or_assoc]
        exact or_congr_right (or_congr_left eq_comm)
  obtain ⟨hs, hq⟩ := gen calls _ (by simp) h
  have hrd : ∀ q, q < 4 → rd cases q = .ok (cases.getD q false) := by
    intro q hq
    refine rd_ok ?_
    rw [Array.getElem?_eq_getElem (by omega), Array.getD_eq_getD_getElem?,
      Array.getElem?_eq_getElem (by omega)]
    rfl
  have hd : ∀ q, q < 4 → (cases.getD q false = true ↔ corner q ∈ calls.map Prod.snd) := by
    intro q hq4
    have := hq q hq4
    rw [Array.getElem?_replicate, if_pos hq4] at this
    rw [Array.getD_eq_getD_getElem?]
    rw [Array.getElem?_eq_getElem (by omega)] at this ⊢
    simpa using this
  refine ⟨[cases.getD 0 false, cases.getD 1 false, cases.getD 2 false, cases.getD 3 false], ?_, ?_⟩
  · unfold seen_checks
    rw [hrd 0 (by decide), M_bind_ok, hrd 1 (by decide), M_bind_ok, hrd 2 (by decide),
      M_bind_ok, hrd 3 (by decide), M_bind_ok]
    rfl
  · simp only [List.forall_mem_cons, hd 0 (by decide), hd 1 (by decide), hd 2 (by decide),
      hd 3 (by decide)]
    simp [corner]

/-- The comparisons for the tile `(a, b)` of a matrix with the elements `f`: in row-major order, every
element of the tile with the position of this element in the matrix. -/
def tileChecks (e : TileEnv α) (f : Nat → Nat → α) (a b : Nat) : List Bool :=
  (List.range 4).flatMap fun i => (List.range 4).map fun j =>
    e.close (f (a * 4 + i) (b * 4 + j)) (e.cast ((a * 4 + i) * 256 + (b * 4 + j)))

omit [Arith α] in
private theorem compare_view_eq (e : TileEnv α) (tiled : Array α) (v : TileView) (ref : Array Nat)
    (f : Nat → Nat → α) (a b : Nat)
    (hv : ∀ i, i < 4 → ∀ j, j < 4 → v.get 2 tiled #[i, j] = .ok (f (a * 4 + i) (b * 4 + j)))
    (hr : ∀ i, i < 4 → ∀ j, j < 4 → ref[i * 4 + j]? = some ((a * 4 + i) * 256 + (b * 4 + j)))
    (l : List Bool) : compare_view e tiled v ref l = .ok (l ++ tileChecks e f a b) := by
  have step : ∀ i, i < 4 → ∀ l, (forStep 0 4 1 l fun j l => do
      let x ← v.get 2 tiled #[i, j]
      let y ← rd ref (i * 4 + j)
      pure (l ++ [e.close x (e.cast y)]) : M (List Bool)) = .ok (l ++ (List.range 4).map fun j =>
        e.close (f (a * 4 + i) (b * 4 + j)) (e.cast ((a * 4 + i) * 256 + (b * 4 + j)))) := by
    intro i hi l
    rw [forStep_eq (by decide), steps_one]
    obtain ⟨s, h1, h2⟩ := fold_inv (n := 4) (s := l)
      (f := fun l j => do
        let x ← v.get 2 tiled #[i, j]
        let y ← rd ref (i * 4 + j)
        pure (l ++ [e.close x (e.cast y)]))
      (P := fun k s => s = l ++ (List.range k).map fun j =>
        e.close (f (a * 4 + i) (b * 4 + j)) (e.cast ((a * 4 + i) * 256 + (b * 4 + j)))) (by simp) (by
        rintro k hk s rfl
        refine ⟨_, ?_, rfl⟩
        rw [hv i hi k hk, M_bind_ok, rd_ok (hr i hi k hk), M_bind_ok, List.range_succ, List.map_append,
          ← List.append_assoc]
        rfl)
    rw [h1, h2]
  show (forStep 0 4 1 l fun i l => forStep 0 4 1 l fun j l => do
      let x ← v.get 2 tiled #[i, j]
      let y ← rd ref (i * 4 + j)
      pure (l ++ [e.close x (e.cast y)]) : M (List Bool)) = _
  rw [forStep_eq (by decide), steps_one]
  obtain ⟨s, h1, h2⟩ := fold_inv (n := 4) (s := l)
    (f := fun l i => (forStep 0 4 1 l fun j l => do
        let x ← v.get 2 tiled #[i, j]
        let y ← rd ref (i * 4 + j)
        pure (l ++ [e.close x (e.cast y)]) : M (List Bool)))
    (P := fun k s => s = l ++ (List.range k).flatMap fun i => (List.range 4).map fun j =>
        e.close (f (a * 4 + i) (b * 4 + j)) (e.cast ((a * 4 + i) * 256 + (b * 4 + j)))) (by simp) (by
      rintro k hk s rfl
      refine ⟨_, step k hk _, ?_⟩
      rw [List.range_succ (n := k), List.flatMap_append, List.append_assoc, List.flatMap_singleton])
  rw [h1, h2]
  rfl

private theorem tiled_of (e : TileEnv α) (hj : ∀ k, (e.junk k).size = 2) (f : Nat → Nat → α) :
    ∃ tiled, make_tiled 2 (e.junk 0) (e.junk 1) (rect 256 256 f) tile_info = .ok tiled ∧
      ∀ a b, a < 64 → b < 64 → ∃ v, TileView.new 2 #[a, b] tile_info = .ok v ∧
        v = ⟨(a * 64 + b) * (4 * 4), #[a, b], #[64, 64], tile_info, 4 * 4⟩ ∧
        ∀ i, i < 4 → ∀ j, j < 4 → v.get 2 tiled #[i, j] = .ok (f (a * 4 + i) (b * 4 + j)) := by
  obtain ⟨tiled, hm, _⟩ := C42_make_tiled (α := α) (tile := [4, 4]) (ext := [256, 256])
    (fits_two (by decide) (by decide) (by decide) (by decide)) (hj 0) (hj 1)
    (rect 256 256 f) (by simp [rect])
  have hm' : make_tiled 2 (e.junk 0) (e.junk 1) (rect 256 256 f) tile_info = .ok tiled := hm
  refine ⟨tiled, hm', fun a b ha hb => ?_⟩
  obtain ⟨v, h1, _, _, _, h2⟩ := C43_tile_view (t0 := 4) (t1 := 4) (s0 := 256) (s1 := 256) (by decide)
    (by decide) (by decide) (by decide) (hj 0) (hj 1) _ tiled _ rfl hm' a b ha hb
  refine ⟨v, h1, ?_, fun i hi j hj => (h2 i hi j hj).1⟩
  rw [new_ok rfl (pos_two (by decide) (by decide)) (t := [a, b]) rfl] at h1
  cases h1
  unfold view
  rw [num_two, flatPos_two, tile_two, prod_two]
  rfl

/-- **C89.** What the test case `view` checks, for any matrix: the elements of the four corner tiles. -/
theorem C89_tile_view_compares (e : TileEnv α) (hj : ∀ k, (e.junk k).size = 2) (f : Nat → Nat → α) :
    view_checks e (rect 256 256 f) = .ok (tileChecks e f 0 0 ++ tileChecks e f 0 63 ++
      tileChecks e f 63 0 ++ tileChecks e f 63 63) := by
  obtain ⟨tiled, hm, hv⟩ := tiled_of e hj f
  unfold view_checks
  rw [hm, M_bind_ok]
  have tile : ∀ a b, a < 64 → b < 64 → ∀ ref : Array Nat,
      (∀ i, i < 4 → ∀ j, j < 4 → ref[i * 4 + j]? = some ((a * 4 + i) * 256 + (b * 4 + j))) →
      ∀ l, compare_tile e tiled #[a, b] ref l = .ok (l ++ tileChecks e f a b) := by
    intro a b ha hb ref hr l
    obtain ⟨v, h1, -, h2⟩ := hv a b ha hb
    unfold compare_tile
    rw [h1, M_bind_ok]
    exact compare_view_eq e tiled v ref f a b h2 hr l
  rw [tile 0 0 (by decide) (by decide) _ fun i hi j hj => (references i hi j hj).1, M_bind_ok,
    show 256 / 4 - 1 = 63 from rfl,
    tile 0 63 (by decide) (by decide) _ fun i hi j hj => (references i hi j hj).2.1, M_bind_ok,
    tile 63 0 (by decide) (by decide) _ fun i hi j hj => (references i hi j hj).2.2.1, M_bind_ok,
    tile 63 63 (by decide) (by decide) _ fun i hi j hj => (references i hi j hj).2.2.2, List.nil_append]

/-- **C89.** What the test case `iterate` checks, for any matrix: for each of the 4096 tiles its two
indices (these hold), for the corners then the elements, and at the end the four flags (these hold). -/
theorem C89_iterate_tiles_compares (e : TileEnv α) (hj : ∀ k, (e.junk k).size = 2) (f : Nat → Nat → α) :
    iterate_checks e (rect 256 256 f) = .ok ((List.range 4096).flatMap (fun k => [true, true] ++
      if (k / 64, k % 64) ∈ [(0, 0), (0, 63), (63, 0), (63, 63)] then tileChecks e f (k / 64) (k % 64)
      else []) ++ [true, true, true, true]) := by
  obtain ⟨tiled, hm, hv⟩ := tiled_of e hj f
  unfold iterate_checks
  rw [hm, M_bind_ok]
  have hit := C44_iterate_tiles (t0 := 4) (t1 := 4) (by decide) (by decide) 256 256 (hj 2)
    (iterate_body e tiled) ⟨0, 0, Array.replicate 4 false, []⟩
  obtain ⟨s, h1, h2⟩ := fold_inv (n := 4096) (s := (⟨0, 0, Array.replicate 4 false, []⟩ : IterState))
    (f := fun s k => iterate_body e tiled ⟨k * (4 * 4), #[k / 64, k % 64], #[64, 64], tile_info, 4 * 4⟩ s)
    (P := fun k s => s = ⟨k / 64, k % 64,
      #[decide (0 < k), decide (63 < k), decide (4032 < k), decide (4095 < k)],
      (List.range k).flatMap (fun k => [true, true] ++
        if (k / 64, k % 64) ∈ [(0, 0), (0, 63), (63, 0), (63, 63)] then tileChecks e f (k / 64) (k % 64)
        else [])⟩) (by simp; rfl) (by
      rintro k hk s rfl
      obtain ⟨v, -, h4, h5⟩ := hv (k / 64) (k % 64) (by omega) (by omega)
      rw [Nat.div_add_mod' k 64] at h4
      rw [h4] at h5
      rw [List.range_succ, List.flatMap_append, List.flatMap_singleton]
      generalize (List.range k).flatMap _ = L
      unfold iterate_body
      rw [show rd #[k / 64, k % 64] 0 = .ok (k / 64) from rfl, M_bind_ok,
        show rd #[k / 64, k % 64] 1 = .ok (k % 64) from rfl, M_bind_ok]
      simp only [beq_self_eq_true]
      have cv : ∀ (a b : Nat) (ref : Array Nat), k / 64 = a → k % 64 = b →
          (∀ i, i < 4 → ∀ j, j < 4 → ref[i * 4 + j]? = some ((a * 4 + i) * 256 + (b * 4 + j))) →
          compare_view e tiled ⟨k * (4 * 4), #[k / 64, k % 64], #[64, 64], tile_info, 4 * 4⟩ ref
            (L ++ [true, true]) = .ok (L ++ [true, true] ++ tileChecks e f a b) := by
        rintro a b ref rfl rfl hr
        exact compare_view_eq e tiled _ ref f _ _ h5 hr _
      have fin : ∀ (x : M (Array Bool × List Bool)) (T : List Bool),
          x = .ok (#[decide (0 < k + 1), decide (63 < k + 1), decide (4032 < k + 1), decide (4095 < k + 1)],
            L ++ [true, true] ++ T) →
          ∃ s', (do
            let r ← x
            if k % 64 + 1 = 64 then pure ⟨k / 64 + 1, 0, r.1, r.2⟩
            else pure ⟨k / 64, k % 64 + 1, r.1, r.2⟩ : M IterState) = .ok s' ∧
          s' = ⟨(k + 1) / 64, (k + 1) % 64,
            #[decide (0 < k + 1), decide (63 < k + 1), decide (4032 < k + 1), decide (4095 < k + 1)],
            L ++ ([true, true] ++ T)⟩ := by
        rintro x T rfl
        rw [← List.append_assoc]
        refine ⟨_, ?_, rfl⟩
        rw [M_bind_ok]
        split
        · next h =>
          rw [show (k + 1) / 64 = k / 64 + 1 by omega, show (k + 1) % 64 = 0 by omega]
          rfl
        · next h =>
          rw [show (k + 1) / 64 = k / 64 by omega, show (k + 1) % 64 = k % 64 + 1 by omega]
          rfl
      refine fin _ _ ?_
      unfold iterate_elements
      split
      · next h =>
        rw [cv 0 0 _ h.1 h.2 fun i hi j hj => (references i hi j hj).1, h.1, h.2,
          show k = 0 by omega]
        rfl
      split
      · next h =>
        rw [cv 0 63 _ h.1 h.2 fun i hi j hj => (references i hi j hj).2.1, h.1, h.2,
          show k = 63 by omega]
        rfl
      split
      · next h =>
        rw [cv 63 0 _ h.1 h.2 fun i hi j hj => (references i hi j hj).2.2.1, h.1, h.2,
          show k = 4032 by omega]
        rfl
      split
      · next h =>
        rw [cv 63 63 _ h.1 h.2 fun i hi j hj => (references i hi j hj).2.2.2, h.1, h.2,
          show k = 4095 by omega]
        rfl
      · next n0 n1 n2 n3 =>
        rw [if_neg (by
            simp only [List.mem_cons, Prod.mk.injEq, List.not_mem_nil, or_false]
            rintro (h | h | h | h)
            exacts [n0 h, n1 h, n2 h, n3 h]), List.append_nil,
          decide_eq_decide.2 (by omega : 0 < k + 1 ↔ 0 < k),
          decide_eq_decide.2 (by omega : 63 < k + 1 ↔ 63 < k),
          decide_eq_decide.2 (by omega : 4032 < k + 1 ↔ 4032 < k),
          decide_eq_decide.2 (by omega : 4095 < k + 1 ↔ 4095 < k)]
        rfl)
  have hit' : iterate_tiles 2 (e.junk 2) tile_info (iterate_body e tiled)
    ⟨0, 0, Array.replicate 4 false, []⟩ = .ok s := hit.trans h1
  rw [hit', M_bind_ok, h2]
  generalize (List.range 4096).flatMap _ = L
  rfl

section Examples

/-- Numbers, with uninitialised arrays that hold large indices. -/
private def env : TileEnv Int := ⟨fun n => n, fun x y => x == y, fun k => #[k + 1000, 77]⟩

@[reducible] private def ints : Arith Int := ⟨0, (· + ·), fun c x y => c + x * y⟩

example : @test_tile_view Int ints env = .ok (List.replicate 64 true) :=
  @C89_tile_view Int ints env (fun _ _ => beq_self_eq_true _) fun _ => rfl

example : @test_iterate_tiles Int ints env = .ok (List.replicate 8260 true) :=
  @C89_iterate_tiles Int ints env (fun _ _ => beq_self_eq_true _) fun _ => rfl

/-- Calls for the first tile and for one that is no corner: a check at the end fails. -/
example : ∃ cases l r,
    [(⟨0, #[0, 0], #[64, 64], tile_info, 16⟩, 0, 0), (⟨0, #[5, 7], #[64, 64], tile_info, 16⟩, 5, 7)].foldlM
      (fun (s : Array Bool × List Bool) (c : TileView × Nat × Nat) =>
        iterate_elements env (Array.replicate 16 0) c.1 c.2.1 c.2.2 s.1 s.2)
      (Array.replicate 4 false, []) = .ok (cases, l) ∧
    seen_checks cases = .ok r ∧ ¬ ∀ b ∈ r, b = true := by
  have h : ∃ cases l, [(⟨0, #[0, 0], #[64, 64], tile_info, 16⟩, 0, 0),
      (⟨0, #[5, 7], #[64, 64], tile_info, 16⟩, 5, 7)].foldlM
      (fun (s : Array Bool × List Bool) (c : TileView × Nat × Nat) =>
        iterate_elements env (Array.replicate 16 0) c.1 c.2.1 c.2.2 s.1 s.2)
      (Array.replicate 4 false, []) = .ok (cases, l) := ⟨_, _, rfl⟩
  obtain ⟨cases, l, h⟩ := h
  obtain ⟨r, h1, h2⟩ := C89_iterate_tiles_seen env _ _ cases l h
  refine ⟨cases, l, r, h, h1, fun hr => ?_⟩
  have := h2.1 hr (0, 63) (by simp)
  simp at this

/-- A matrix of zeros: only the check of the very first element holds. -/
example : @view_checks Int ints env (rect 256 256 fun _ _ => 0) =
    .ok (true :: List.replicate 63 false) :=
  (@C89_tile_view_compares Int ints env (fun _ => rfl) _).trans (by decide)

example : ∃ l, @iterate_checks Int ints env (rect 256 256 fun _ _ => 0) = .ok l ∧ l.length ≠ 0 :=
  ⟨_, @C89_iterate_tiles_compares Int ints env (fun _ => rfl) _, by simp⟩

end Examples

end Verif.Props
