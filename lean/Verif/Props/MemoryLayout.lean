import Verif.Proof.MemoryLayout
import Mathlib.Data.List.Perm.Subperm
import Mathlib.Logic.Nontrivial.Defs
/-
src/memory_layout: properties C42 to C46.
-/
namespace Verif.Props
open Verif.MemoryLayout
variable {α σ : Type}

/-- The tiling description with the given tile sizes and extents. -/
def tiling (tile ext : List Nat) : Array TilingInfo := (tile.zipWith TilingInfo.mk ext).toArray

theorem tiling_size {tile ext : List Nat} (h : tile.length = ext.length) :
    (tiling tile ext).size = ext.length := by simp [tiling, h]

theorem tile_tiling : ∀ {tile ext : List Nat}, tile.length = ext.length →
    MemoryLayout.tile (tiling tile ext) = tile
  | [], [], _ => rfl
  | m :: ms, n :: ns, h => by
    have := tile_tiling (tile := ms) (ext := ns) (by simpa using h)
    simpa [tiling, MemoryLayout.tile] using this

theorem ext_tiling : ∀ {tile ext : List Nat}, tile.length = ext.length →
    MemoryLayout.ext (tiling tile ext) = ext
  | [], [], _ => rfl
  | m :: ms, n :: ns, h => by
    have := ext_tiling (tile := ms) (ext := ns) (by simpa using h)
    simpa [tiling, MemoryLayout.ext] using this

theorem num_tiling {tile ext : List Nat} (h : tile.length = ext.length) :
    num (tiling tile ext) = ext.zipWith (· / ·) tile := by
  rw [num, tile_tiling h, ext_tiling h]

theorem pos_tiling {tile ext : List Nat} (h : Fits tile ext) : Pos (tiling tile ext) := by
  intro d hd
  rw [tile_tiling h.length]
  rw [tiling_size h.length, ← h.length] at hd
  exact (h.get d hd).1

theorem dvd_tiling {tile ext : List Nat} (h : Fits tile ext) (d : Nat)
    (hd : d < (tiling tile ext).size) : (MemoryLayout.tile (tiling tile ext)).getD d 0 ∣
      (MemoryLayout.ext (tiling tile ext)).getD d 0 := by
  rw [tile_tiling h.length, ext_tiling h.length]
  rw [tiling_size h.length, ← h.length] at hd
  exact (h.get d hd).2

theorem ext_eq_mul {tile ext : List Nat} (h : Fits tile ext) :
    (ext.zipWith (· / ·) tile).zipWith (· * ·) tile = ext :=
  zipWith_mul_div h.length.symm fun d hd => (h.get d hd).2

theorem divMod_inRange {tile ext c : List Nat} (h : Fits tile ext) (hc : InRange c ext) :
    InRange (c.zipWith (· / ·) tile) (ext.zipWith (· / ·) tile) ∧
      InRange (c.zipWith (· % ·) tile) tile ∧
      joinIdx tile (c.zipWith (· / ·) tile) (c.zipWith (· % ·) tile) = c := by
  rw [← ext_eq_mul h] at hc
  exact joinIdx_divMod hc (by simp [h.length])

/-- **C42.** The positions after tiling are below the number of elements … -/
theorem C42_position_lt {tile ext c : List Nat} (h : Fits tile ext) (hc : InRange c ext) :
    tiledPos ext tile c < ext.prod := by
  obtain ⟨h1, h2, _⟩ := divMod_inRange h hc
  have := idx_lt (flatPos_lt h1) (flatPos_lt h2)
  rwa [← prod_zipWith_mul (by simp [h.length]), ext_eq_mul h] at this

/-- **C42.** … and different for different indices. -/
theorem C42_position_injective {tile ext c c' : List Nat} (h : Fits tile ext) (hc : InRange c ext)
    (hc' : InRange c' ext) (he : tiledPos ext tile c = tiledPos ext tile c') : c = c' := by
  obtain ⟨h1, h2, h3⟩ := divMod_inRange h hc
  obtain ⟨h1', h2', h3'⟩ := divMod_inRange h hc'
  obtain ⟨e1, e2⟩ := idx_inj (flatPos_lt h2) (flatPos_lt h2') he
  rw [← h3, ← h3', flatPos_inj h1 h1' e1, flatPos_inj h2 h2' e2]

/-- A vector whose elements are those of another one in a different order. -/
theorem perm_of_positions {v org : Array α} {ext : List Nat} {pos : List Nat → Nat}
    (hv : v.size = ext.prod) (ho : org.size = ext.prod)
    (hlt : ∀ c, InRange c ext → pos c < ext.prod)
    (hinj : ∀ c c', InRange c ext → InRange c' ext → pos c = pos c' → c = c')
    (h : ∀ c, InRange c ext → v[pos c]? = org[flatPos ext c]?) : v.toList.Perm org.toList := by
  have hall : ∀ (a : Array α), a.toList.map some = (List.range a.size).map (a[·]?) := by
    intro a
    apply List.ext_getElem (by simp)
    intro i h1 h2
    simp at h1 h2 ⊢
  have hnd : ((coords ext).map pos).Nodup :=
    (List.pairwise_map).2 ((List.Pairwise.and_mem.1 (coords_nodup ext)).imp
      fun ⟨hc, hc', hne⟩ e => hne (hinj _ _ (mem_coords.1 hc) (mem_coords.1 hc') e))
  have hlen : ((coords ext).map pos).length = ext.prod := by
    have := congrArg List.length (coords_map ext)
    simpa using this
  have hperm : ((coords ext).map pos).Perm (List.range ext.prod) := by
    refine (List.subperm_of_subset hnd ?_).perm_of_length_le (by simp [hlen])
    intro p hp
    obtain ⟨c, hc, rfl⟩ := List.mem_map.1 hp
    exact List.mem_range.2 (hlt c (mem_coords.1 hc))
  have h1 : (v.toList.map some).Perm (org.toList.map some) := by
    rw [hall, hall, hv, ho]
    refine (hperm.symm.map _).trans ?_
    rw [← coords_map ext, List.map_map, List.map_map]
    refine List.Perm.of_eq (List.map_congr_left fun c hc => ?_)
    exact h c (mem_coords.1 hc)
  have h2 := h1.filterMap id
  simpa using h2

/-- **C42.** `make_tiled` in any dimension: with positive tile sizes dividing the extents, and
whatever the uninitialised index arrays contain, there is no error; the result is a permutation of
the original, tiles and elements of each tile being in row-major order. -/
theorem C42_make_tiled [Arith α] {tile ext : List Nat} (h : Fits tile ext) {junk junk' : Array Nat}
    (hj : junk.size = ext.length) (hj' : junk'.size = ext.length) (org : Array α)
    (ho : org.size = ext.prod) :
    ∃ v, make_tiled ext.length junk junk' org (tiling tile ext) = .ok v ∧
      v.size = org.size ∧ v.toList.Perm org.toList ∧
      ∀ c, InRange c ext → v[tiledPos ext tile c]? = org[flatPos ext c]? := by
  obtain ⟨v, hv, hsz, hget⟩ := make_tiled_ok (tiling_size h.length) hj hj' (pos_tiling h)
    (dvd_tiling h) org (by rw [ext_tiling h.length, ho])
  have hc : ∀ c, InRange c ext → v[tiledPos ext tile c]? = org[flatPos ext c]? := by
    intro c hc
    obtain ⟨h1, h2, h3⟩ := divMod_inRange h hc
    have := hget _ _ (num_tiling h.length ▸ h1) (tile_tiling h.length ▸ h2)
    rw [dst, src, tile_tiling h.length, ext_tiling h.length, num_tiling h.length, h3] at this
    exact this
  exact ⟨v, hv, hsz, perm_of_positions (hsz.trans ho) ho (fun c => C42_position_lt h)
    (fun c c' => C42_position_injective h) hc, hc⟩

/-- **C42.** A tiling description of the wrong length raises `memory_layout_exception`. -/
theorem C42_wrong_length [Arith α] (dim : Nat) (junk junk' : Array Nat) (org : Array α)
    (ti : Array TilingInfo) (h : ti.size ≠ dim) :
    make_tiled dim junk junk' org ti = .error (.exception "memory_layout_exception") := by
  unfold make_tiled
  rw [if_pos h]
  rfl

theorem fits_two {t0 t1 s0 s1 : Nat} (h0 : 0 < t0) (h1 : 0 < t1) (d0 : t0 ∣ s0) (d1 : t1 ∣ s1) :
    Fits [t0, t1] [s0, s1] := ⟨⟨h0, d0⟩, ⟨h1, d1⟩, trivial⟩

theorem num_two (t0 t1 s0 s1 : Nat) : num #[⟨t0, s0⟩, ⟨t1, s1⟩] = [s0 / t0, s1 / t1] := rfl
theorem tile_two (t0 t1 s0 s1 : Nat) : MemoryLayout.tile #[⟨t0, s0⟩, ⟨t1, s1⟩] = [t0, t1] := rfl

theorem prod_two (a b : Nat) : [a, b].prod = a * b := by simp

theorem pos_two {t0 t1 s0 s1 : Nat} (h0 : 0 < t0) (h1 : 0 < t1) :
    Pos #[⟨t0, s0⟩, ⟨t1, s1⟩] := by
  intro d hd
  rw [tile_two]
  match d, hd with
  | 0, _ => exact h0
  | 1, _ => exact h1

/-- **C43.** Reading a tiled matrix through a `tile_view`: both access operators return the element
of the original matrix, and `size()` is the number of elements of a tile. -/
theorem C43_tile_view [Arith α] {t0 t1 s0 s1 : Nat} (h0 : 0 < t0) (h1 : 0 < t1) (d0 : t0 ∣ s0)
    (d1 : t1 ∣ s1) {junk junk' : Array Nat} (hj : junk.size = 2) (hj' : junk'.size = 2)
    (org tiled : Array α) (f : Nat → Nat → α) (hf : org = rect s0 s1 f)
    (hm : make_tiled 2 junk junk' org #[⟨t0, s0⟩, ⟨t1, s1⟩] = .ok tiled)
    (a b : Nat) (ha : a < s0 / t0) (hb : b < s1 / t1) :
    ∃ v, TileView.new 2 #[a, b] #[⟨t0, s0⟩, ⟨t1, s1⟩] = .ok v ∧ v.size = t0 * t1 ∧
      v.tile_index = #[a, b] ∧ v.tiles_dir = #[s0 / t0, s1 / t1] ∧
      ∀ i, i < t0 → ∀ j, j < t1 →
        v.get 2 tiled #[i, j] = .ok (f (a * t0 + i) (b * t1 + j)) ∧
        v.getOffset tiled (i * t1 + j) = .ok (f (a * t0 + i) (b * t1 + j)) := by
  have hfit := fits_two h0 h1 d0 d1
  have hp := pos_two (s0 := s0) (s1 := s1) h0 h1
  refine ⟨_, new_ok rfl hp (t := [a, b]) rfl, prod_two _ _, rfl, rfl, fun i hi j hj0 => ?_⟩
  subst hf
  have hdv : ∀ d, d < 2 → (MemoryLayout.tile #[⟨t0, s0⟩, ⟨t1, s1⟩]).getD d 0 ∣
      (MemoryLayout.ext #[⟨t0, s0⟩, ⟨t1, s1⟩]).getD d 0 := fun d hd => (hfit.get d hd).2
  obtain ⟨v, hv, _, hget⟩ := make_tiled_ok (ti := #[⟨t0, s0⟩, ⟨t1, s1⟩]) rfl hj hj' hp hdv
    (rect s0 s1 f) (by
      show _ = [s0, s1].prod
      rw [rect_size, prod_two])
  have hv := hm.symm.trans hv
  cases hv
  have := hget [a, b] [i, j] ⟨ha, hb, trivial⟩ ⟨hi, hj0, trivial⟩
  have e : src #[⟨t0, s0⟩, ⟨t1, s1⟩] [a, b] [i, j] = (a * t0 + i) * s1 + (b * t1 + j) :=
    flatPos_two _ _ _ _
  have b1 : a * t0 + i < s0 := by
    have := idx_lt ha hi
    rwa [Nat.div_mul_cancel d0] at this
  have b2 : b * t1 + j < s1 := by
    have := idx_lt hb hj0
    rwa [Nat.div_mul_cancel d1] at this
  rw [e, holds_rect _ _ _ _ b1 _ b2] at this
  constructor
  · rw [show (#[i, j] : Array Nat) = [i, j].toArray from rfl, view_get rfl rfl]
    exact rd_ok this
  · unfold TileView.getOffset
    refine rd_ok ?_
    have e' : (view #[⟨t0, s0⟩, ⟨t1, s1⟩] [a, b]).base_offset + (i * t1 + j) =
        dst #[⟨t0, s0⟩, ⟨t1, s1⟩] [a, b] [i, j] := by
      show _ = _ + flatPos [t0, t1] [i, j]
      rw [flatPos_two]
      rfl
    rw [e']
    exact this

theorem foldlM_range_coords (n0 n1 : Nat) (f : σ → List Nat → M σ) (s : σ) :
    (coords [n0, n1]).foldlM f s =
      (List.range (n0 * n1)).foldlM (fun s k => f s [k / n1, k % n1]) s := by
  rw [← prod_two n0 n1, ← coords_map, List.foldlM_map]
  refine foldlM_congr (fun c hc s => ?_) s
  match c, mem_coords.1 hc with
  | [a, b], ⟨_, hb, _⟩ => rw [flatPos_two, idx_div hb, idx_mod hb]

/-- **C44.** `iterate_tiles<2>` calls the function once for every tile, in row-major order: call
number `k` gets the tile `(k / n1, k % n1)`, whose elements start at `k * (t0 * t1)`. -/
theorem C44_iterate_tiles {t0 t1 : Nat} (h0 : 0 < t0) (h1 : 0 < t1) (s0 s1 : Nat)
    {junk : Array Nat} (hj : junk.size = 2) (f : TileView → σ → M σ) (s : σ) :
    iterate_tiles 2 junk #[⟨t0, s0⟩, ⟨t1, s1⟩] f s =
      (List.range ((s0 / t0) * (s1 / t1))).foldlM (fun s k =>
        f ⟨k * (t0 * t1), #[k / (s1 / t1), k % (s1 / t1)], #[s0 / t0, s1 / t1],
          #[⟨t0, s0⟩, ⟨t1, s1⟩], t0 * t1⟩ s) s := by
  rw [iterate_tiles_ok rfl hj (pos_two h0 h1), num_two, foldlM_range_coords]
  refine foldlM_congr (fun k hk s => ?_) s
  unfold view
  rw [num_two, flatPos_two, tile_two, prod_two, Nat.div_add_mod']

/-- **C44.** The views passed to the function partition the tiled vector: they are different, and
every element belongs to exactly one of them. -/
theorem C44_partition {t0 t1 s0 s1 : Nat} (h0 : 0 < t0) (h1 : 0 < t1) (d0 : t0 ∣ s0) (d1 : t1 ∣ s1)
    {junk : Array Nat} (hj : junk.size = 2) :
    ∃ views, iterate_tiles 2 junk #[⟨t0, s0⟩, ⟨t1, s1⟩] (fun v l => .ok (l ++ [v])) [] = .ok views ∧
      views.Nodup ∧ views.length = (s0 / t0) * (s1 / t1) ∧
      (∀ v ∈ views, v.base_offset + v.size ≤ s0 * s1) ∧
      ∀ p, p < s0 * s1 → ∃ v, (v ∈ views ∧ v.base_offset ≤ p ∧ p < v.base_offset + v.size) ∧
        ∀ v', v' ∈ views ∧ v'.base_offset ≤ p ∧ p < v'.base_offset + v'.size → v' = v := by
  have hT : 0 < t0 * t1 := Nat.mul_pos h0 h1
  have hsz : s0 * s1 = (s0 / t0) * (s1 / t1) * (t0 * t1) := by
    conv_lhs => rw [← Nat.div_mul_cancel d0, ← Nat.div_mul_cancel d1]
    ac_rfl
  have hfold : ∀ (g : Nat → TileView) (l : List Nat) (acc : List TileView),
      l.foldlM (fun acc k => (Except.ok (acc ++ [g k]) : M (List TileView))) acc =
        .ok (acc ++ l.map g) := by
    intro g l
    induction l with
    | nil => intro acc; simp [pure, Except.pure]
    | cons k l ih => intro acc; rw [List.foldlM_cons, M_bind_ok, ih]; simp
  rw [C44_iterate_tiles h0 h1 s0 s1 hj, hfold, List.nil_append]
  refine ⟨_, rfl, ?_, by simp, ?_, ?_⟩
  · refine List.pairwise_map.2 (List.nodup_range.imp fun hne e => hne ?_)
    have := congrArg TileView.base_offset e
    exact Nat.eq_of_mul_eq_mul_right hT this
  · intro v hv
    obtain ⟨k, hk, rfl⟩ := List.mem_map.1 hv
    have := List.mem_range.1 hk
    show k * (t0 * t1) + t0 * t1 ≤ _
    rw [hsz, ← Nat.succ_mul]
    exact Nat.mul_le_mul_right _ this
  · intro p hp
    rw [hsz] at hp
    refine ⟨_, ⟨List.mem_map.2 ⟨p / (t0 * t1),
      List.mem_range.2 (Nat.div_lt_of_lt_mul (Nat.mul_comm _ (t0 * t1) ▸ hp)), rfl⟩, ?_, ?_⟩, ?_⟩
    · exact Nat.div_mul_le_self _ _
    · show p < p / (t0 * t1) * (t0 * t1) + t0 * t1
      have := Nat.div_add_mod' p (t0 * t1)
      have := Nat.mod_lt p hT
      omega
    · rintro v' ⟨hv, h2, h3⟩
      obtain ⟨k, hk, rfl⟩ := List.mem_map.1 hv
      have h2 : k * (t0 * t1) ≤ p := h2
      have h3 : p < k * (t0 * t1) + t0 * t1 := h3
      have : p / (t0 * t1) = k := by
        rw [Nat.div_eq_iff hT]
        omega
      rw [this]

/-- **C45.** Whatever the arguments, `undo_tiling` does not return: it divides by zero, accesses a
vector out of bounds, raises `memory_layout_exception`, or flows off its end. -/
theorem C45_never_returns [Arith α] (junk junk' : Array Nat) (tiled : Array α)
    (ti : Array TilingInfo) : undo_tiling junk junk' tiled ti = .error .noReturn ∨
      undo_tiling junk junk' tiled ti = .error .oob ∨
      undo_tiling junk junk' tiled ti = .error .divZero ∨
      undo_tiling junk junk' tiled ti = .error (.exception "memory_layout_exception") := by
  unfold undo_tiling
  cases h : undo_buffer junk junk' tiled ti with
  | ok v => exact .inl rfl
  | error e =>
    rcases bad_undo junk junk' tiled ti e h with rfl | rfl | rfl
    · exact .inr (.inl rfl)
    · exact .inr (.inr (.inl rfl))
    · exact .inr (.inr (.inr rfl))

/-- **C45.** For a fitting tiling with as many rows as columns, or a single row, the local vector
`untiled` ends up as the original matrix before the function flows off its end. -/
theorem C45_square [Arith α] {t0 t1 s0 s1 : Nat} (h0 : 0 < t0) (h1 : 0 < t1) (d0 : t0 ∣ s0)
    (d1 : t1 ∣ s1) (hs : s0 = s1 ∨ s0 = 1) {j1 j2 j3 j4 : Array Nat} (hj1 : j1.size = 2)
    (hj2 : j2.size = 2) (hj3 : j3.size = 2) (hj4 : j4.size = 2) (org tiled : Array α)
    (ho : org.size = s0 * s1)
    (hm : make_tiled 2 j1 j2 org #[⟨t0, s0⟩, ⟨t1, s1⟩] = .ok tiled) :
    undo_buffer j3 j4 tiled #[⟨t0, s0⟩, ⟨t1, s1⟩] = .ok org ∧
      undo_tiling j3 j4 tiled #[⟨t0, s0⟩, ⟨t1, s1⟩] = .error .noReturn := by
  have hfit := fits_two h0 h1 d0 d1
  have := undo_make (ti := #[⟨t0, s0⟩, ⟨t1, s1⟩]) rfl hj1 hj2 hj3 hj4 (pos_two h0 h1)
    (fun d hd => (hfit.get d hd).2) org tiled (by
      show _ = [s0, s1].prod
      rw [ho, prod_two]) hm (by
      intro c hc
      match c, hc with
      | [a, b], ⟨ha, _, _⟩ =>
        show flatBad [s0, s1] [a, b] = flatPos [s0, s1] [a, b]
        rw [flatBad_two, flatPos_two]
        rcases hs with rfl | rfl
        · rfl
        · obtain rfl : a = 0 := by
            have : a < 1 := ha
            omega
          simp)
  refine ⟨this, ?_⟩
  unfold undo_tiling
  rw [this]
  rfl

theorem undst_two (t0 t1 s0 s1 a b i j : Nat) :
    undst #[⟨t0, s0⟩, ⟨t1, s1⟩] [a, b] [i, j] = (a * t0 + i) * s0 + (b * t1 + j) :=
  flatBad_two _ _ _ _

/-- **C45.** With more rows than columns (at least two rows) it writes out of bounds. -/
theorem C45_more_rows [Arith α] {t0 t1 s0 s1 : Nat} (h0 : 0 < t0) (h1 : 0 < t1) (d0 : t0 ∣ s0)
    (d1 : t1 ∣ s1) (hs1 : 1 ≤ s1) (hs : s1 < s0) {junk junk' : Array Nat} (hj : junk.size = 2)
    (hj' : junk'.size = 2) (tiled : Array α) (ht : tiled.size = s0 * s1) :
    undo_tiling junk junk' tiled #[⟨t0, s0⟩, ⟨t1, s1⟩] = .error .oob := by
  have hfit := fits_two h0 h1 d0 d1
  have hdv : ∀ d, d < 2 → (MemoryLayout.tile #[⟨t0, s0⟩, ⟨t1, s1⟩]).getD d 0 ∣
      (MemoryLayout.ext #[⟨t0, s0⟩, ⟨t1, s1⟩]).getD d 0 := fun d hd => (hfit.get d hd).2
  obtain ⟨t, i, hti, hii, hji⟩ := joinIdx_surj (ti := #[⟨t0, s0⟩, ⟨t1, s1⟩]) hdv
    (c := [s0 - 1, s1 - 1]) ⟨show s0 - 1 < s0 by omega, show s1 - 1 < s1 by omega, trivial⟩
  have hprod : (num #[⟨t0, s0⟩, ⟨t1, s1⟩]).prod * (MemoryLayout.tile #[⟨t0, s0⟩, ⟨t1, s1⟩]).prod =
      s0 * s1 := by
    rw [← prod_zipWith_mul (by simp), ext_eq (ti := #[⟨t0, s0⟩, ⟨t1, s1⟩]) hdv]
    exact prod_two _ _
  have hb : undo_buffer junk junk' tiled #[⟨t0, s0⟩, ⟨t1, s1⟩] = .error .oob := by
    rw [undo_eq rfl hj hj' (pos_two h0 h1)]
    refine foldlM_oob (q0 := (t, i)) (fun q hq => ?_) (mem_pairs.2 ⟨hti, hii⟩) ?_
    · obtain ⟨ha, hb⟩ := mem_pairs.1 hq
      rw [ht, ← hprod]
      exact dst_lt ha hb
    · show _ ≤ flatBad [s0, s1] _
      rw [hji, flatBad_two, zeros_size, ht]
      have : (s0 - 1) * (s1 + 1) ≤ (s0 - 1) * s0 := Nat.mul_le_mul_left _ (by omega)
      rw [Nat.mul_add, Nat.sub_mul s0 1 s1, Nat.mul_one, Nat.one_mul] at this
      have : s1 ≤ s0 * s1 := Nat.le_mul_of_pos_left _ (by omega)
      omega
  unfold undo_tiling
  rw [hb]
  rfl

/-- **C45.** With fewer rows than columns (but at least two) it completes, but loses the last
element. -/
theorem C45_fewer_rows [Arith α] {t0 t1 s0 s1 : Nat} (h0 : 0 < t0) (h1 : 0 < t1) (d0 : t0 ∣ s0)
    (d1 : t1 ∣ s1) (hs0 : 2 ≤ s0) (hs : s0 < s1) {junk junk' : Array Nat} (hj : junk.size = 2)
    (hj' : junk'.size = 2) (tiled : Array α) (ht : tiled.size = s0 * s1) :
    ∃ w, undo_buffer junk junk' tiled #[⟨t0, s0⟩, ⟨t1, s1⟩] = .ok w ∧ w.size = s0 * s1 ∧
      w[s0 * s1 - 1]? = some Arith.zero := by
  have hfit := fits_two h0 h1 d0 d1
  have hdv : ∀ d, d < 2 → (MemoryLayout.tile #[⟨t0, s0⟩, ⟨t1, s1⟩]).getD d 0 ∣
      (MemoryLayout.ext #[⟨t0, s0⟩, ⟨t1, s1⟩]).getD d 0 := fun d hd => (hfit.get d hd).2
  have hprod : (num #[⟨t0, s0⟩, ⟨t1, s1⟩]).prod * (MemoryLayout.tile #[⟨t0, s0⟩, ⟨t1, s1⟩]).prod =
      s0 * s1 := by
    rw [← prod_zipWith_mul (by simp), ext_eq (ti := #[⟨t0, s0⟩, ⟨t1, s1⟩]) hdv]
    exact prod_two _ _
  have hlt : ∀ q ∈ ((coords (num #[⟨t0, s0⟩, ⟨t1, s1⟩])).flatMap fun t =>
      (coords (MemoryLayout.tile #[⟨t0, s0⟩, ⟨t1, s1⟩])).map fun i => (t, i)),
      undst #[⟨t0, s0⟩, ⟨t1, s1⟩] q.1 q.2 < s0 * s1 - 1 := by
    intro q hq
    obtain ⟨ha, hb⟩ := mem_pairs.1 hq
    have hc := joinIdx_ext (ti := #[⟨t0, s0⟩, ⟨t1, s1⟩]) hdv ha hb
    unfold undst
    generalize joinIdx (MemoryLayout.tile #[⟨t0, s0⟩, ⟨t1, s1⟩]) q.1 q.2 = c at hc
    match c, hc with
    | [x, y], ⟨hx, hy, _⟩ =>
      have hx : x < s0 := hx
      have hy : y < s1 := hy
      show flatBad [s0, s1] [x, y] < _
      rw [flatBad_two]
      have h1 : x * s0 ≤ (s0 - 1) * s0 := Nat.mul_le_mul_right _ (by omega)
      have h2 : (s0 - 1) * (s0 + 1) ≤ (s0 - 1) * s1 := Nat.mul_le_mul_left _ (by omega)
      rw [Nat.mul_add, Nat.sub_mul s0 1 s1, Nat.mul_one, Nat.one_mul] at h2
      have : s1 ≤ s0 * s1 := Nat.le_mul_of_pos_left _ (by omega)
      omega
  obtain ⟨w, hw, hsz, h⟩ := foldlM_wr (org := tiled) (v := zeros tiled.size)
    (s := fun q : List Nat × List Nat => dst #[⟨t0, s0⟩, ⟨t1, s1⟩] q.1 q.2)
    (d := fun q : List Nat × List Nat => undst #[⟨t0, s0⟩, ⟨t1, s1⟩] q.1 q.2)
    (fun q hq => by
      obtain ⟨ha, hb⟩ := mem_pairs.1 hq
      rw [ht, ← hprod]
      exact dst_lt ha hb)
    (fun q hq => by
      have := hlt q hq
      rw [zeros_size, ht]
      omega)
  refine ⟨w, ?_, by rw [hsz, zeros_size, ht], ?_⟩
  · rw [undo_eq rfl hj hj' (pos_two h0 h1)]
    exact hw
  · rw [h _ fun q hq => by have := hlt q hq; omega]
    have : 0 < s0 * s1 := Nat.mul_pos (by omega) (by omega)
    have : s0 * s1 - 1 < s0 * s1 := by omega
    rw [zeros, ht, Array.getElem?_replicate, if_pos this]

/-- **C45.** For which shapes the vector filled by `undo_tiling` is the inverse of `make_tiled`. -/
theorem C45_inverse_iff [Arith α] [Nontrivial α] {t0 t1 s0 s1 : Nat} (h0 : 0 < t0) (h1 : 0 < t1)
    (d0 : t0 ∣ s0) (d1 : t1 ∣ s1) (hs0 : 1 ≤ s0) (hs1 : 1 ≤ s1) {j1 j2 j3 j4 : Array Nat}
    (hj1 : j1.size = 2) (hj2 : j2.size = 2) (hj3 : j3.size = 2) (hj4 : j4.size = 2) :
    (∀ org tiled : Array α, org.size = s0 * s1 →
      make_tiled 2 j1 j2 org #[⟨t0, s0⟩, ⟨t1, s1⟩] = .ok tiled →
      undo_buffer j3 j4 tiled #[⟨t0, s0⟩, ⟨t1, s1⟩] = .ok org) ↔ s0 = s1 ∨ s0 = 1 := by
  constructor
  · intro h
    by_contra hne
    obtain ⟨x, hx⟩ := exists_ne (Arith.zero : α)
    obtain ⟨v, hv, hsz, _⟩ := C42_make_tiled (fits_two h0 h1 d0 d1) hj1 hj2
      (Array.replicate (s0 * s1) x) (by simp)
    have hu := h _ v (by simp) hv
    have hsz : v.size = s0 * s1 := by simpa using hsz
    rcases Nat.lt_or_gt_of_ne (show s0 ≠ s1 by omega) with hlt | hgt
    · obtain ⟨w, hw, _, hz⟩ := C45_fewer_rows h0 h1 d0 d1 (by omega) hlt hj3 hj4 v hsz
      rw [hu] at hw
      cases hw
      have hpos : 0 < s0 * s1 := Nat.mul_pos (by omega) (by omega)
      rw [Array.getElem?_replicate, if_pos (by omega)] at hz
      exact hx (Option.some.inj hz)
    · have := C45_more_rows h0 h1 d0 d1 hs1 hgt hj3 hj4 v hsz
      unfold undo_tiling at this
      rw [hu] at this
      cases this
  · exact fun hs org tiled ho hm =>
      (C45_square h0 h1 d0 d1 hs hj1 hj2 hj3 hj4 org tiled ho hm).1

/-- **C46.** `flat_index` is the row-major position if the extents after the first one read the same
backwards as the extents before the last one. -/
theorem C46_palindrome {ext idx : List Nat} (h : idx.length = ext.length)
    (hpal : ∀ d, d + 1 < ext.length → ext.getD d 0 = ext.getD (ext.length - 1 - d) 0) :
    flat_index ext.length idx.toArray ext.toArray = .ok (flatPos ext idx) := by
  rw [flat_index_ok h rfl]
  have key := flatRev_fold ext idx h _ rfl
  refine congrArg Except.ok ?_
  cases hn : ext.length with
  | zero =>
    obtain rfl := List.eq_nil_of_length_eq_zero hn
    obtain rfl := List.eq_nil_of_length_eq_zero (by simpa using h)
    rfl
  | succ n =>
    have e : ∀ d, d ∈ List.range n → ∀ s : Nat × Nat,
        (s.1 + idx.getD (n + 1 - 1 - d) 0 * s.2, s.2 * ext.getD d 0) =
        (s.1 + idx.getD (n + 1 - 1 - d) 0 * s.2, s.2 * ext.getD (n + 1 - 1 - d) 0) := by
      intro d hd s
      have := hpal d (by have := List.mem_range.1 hd; omega)
      rw [hn] at this
      rw [this]
    rw [hn, List.range_succ, List.foldl_append] at key
    unfold flatBad
    rw [hn, List.range_succ, List.foldl_append, foldl_congr' e]
    have := congrArg Prod.fst key
    simpa using this

/-- **C46.** In two dimensions: `flat_index` is the row-major position of every index exactly if the
extents are equal or there is at most one row (or no column). -/
theorem C46_two (s0 s1 : Nat) :
    (∀ a b, a < s0 → b < s1 → flat_index 2 #[a, b] #[s0, s1] = .ok (a * s1 + b)) ↔
      s0 = s1 ∨ s0 ≤ 1 ∨ s1 = 0 := by
  have e : ∀ a b, flat_index 2 #[a, b] #[s0, s1] = .ok (a * s0 + b) := by
    intro a b
    rw [← flatBad_two s0 s1 a b]
    exact flat_index_ok (idx := [a, b]) (ext := [s0, s1]) rfl rfl
  simp only [e, Except.ok.injEq, Nat.add_right_cancel_iff]
  constructor
  · intro h
    by_contra hn
    have := h 1 0 (by omega) (by omega)
    omega
  · rintro (rfl | h | h) a b ha hb
    · rfl
    · obtain rfl : a = 0 := by omega
      simp
    · omega

section Examples

/-- A 2 × 6 × 4 array in tiles of 1 × 3 × 2. -/
example [Arith α] (org : Array α) (ho : org.size = 48) :
    ∃ v, make_tiled 3 #[7, 7, 7] #[9, 9, 9] org #[⟨1, 2⟩, ⟨3, 6⟩, ⟨2, 4⟩] = .ok v ∧
      v[44]? = org[42]? := by
  obtain ⟨v, hv, _, _, hc⟩ := C42_make_tiled (tile := [1, 3, 2]) (ext := [2, 6, 4])
    (by simp [Fits]) (junk := #[7, 7, 7]) (junk' := #[9, 9, 9]) rfl rfl org ho
  exact ⟨v, hv, hc [1, 4, 2] (by simp [InRange])⟩

example : Fits [1, 3, 2] [2, 6, 4] := by simp [Fits]

example [Arith α] (org : Array α) :
    make_tiled 2 #[0, 0] #[0, 0] org #[⟨1, 1⟩] = .error (.exception "memory_layout_exception") :=
  C42_wrong_length 2 _ _ org _ (by decide)

/-- The matrix of test_tile_view.cpp: 256 × 256 in tiles of 4 × 4. -/
example [Arith α] (f : Nat → Nat → α) (tiled : Array α)
    (hm : make_tiled 2 #[0, 0] #[0, 0] (rect 256 256 f) #[⟨4, 256⟩, ⟨4, 256⟩] = .ok tiled) :
    ∃ v, TileView.new 2 #[0, 63] #[⟨4, 256⟩, ⟨4, 256⟩] = .ok v ∧
      v.get 2 tiled #[3, 1] = .ok (f 3 253) := by
  obtain ⟨v, hv, _, _, _, h⟩ := C43_tile_view (t0 := 4) (t1 := 4) (s0 := 256) (s1 := 256)
    (by omega) (by omega) (by omega) (by omega) rfl rfl _ tiled f rfl hm 0 63 (by omega) (by omega)
  exact ⟨v, hv, (h 3 (by omega) 1 (by omega)).1⟩

/-- … and of test_iterate_tiles.cpp: the 64-th call is for tile (1, 0). -/
example (f : TileView → σ → M σ) (s : σ) :
    iterate_tiles 2 #[0, 0] #[⟨4, 256⟩, ⟨4, 256⟩] f s =
      (List.range 4096).foldlM (fun s k => f ⟨k * 16, #[k / 64, k % 64], #[64, 64],
        #[⟨4, 256⟩, ⟨4, 256⟩], 16⟩ s) s :=
  C44_iterate_tiles (t0 := 4) (t1 := 4) (by omega) (by omega) 256 256 (junk := #[0, 0]) rfl f s

example : ∃ views, iterate_tiles 2 #[0, 0] #[⟨4, 256⟩, ⟨4, 256⟩] (fun v l => .ok (l ++ [v])) [] =
    .ok views ∧ views.length = 4096 := by
  obtain ⟨l, h, _, hl, _⟩ := C44_partition (t0 := 4) (t1 := 4) (s0 := 256) (s1 := 256)
    (by omega) (by omega) (by omega) (by omega) (junk := #[0, 0]) rfl
  exact ⟨l, h, hl⟩

/-- A 4 × 4 matrix in tiles of 2 × 2, a 4 × 2 and a 2 × 4 matrix in tiles of 2 × 1. -/
example [Arith α] (org tiled : Array α) (ho : org.size = 16)
    (hm : make_tiled 2 #[0, 0] #[0, 0] org #[⟨2, 4⟩, ⟨2, 4⟩] = .ok tiled) :
    undo_buffer #[0, 0] #[0, 0] tiled #[⟨2, 4⟩, ⟨2, 4⟩] = .ok org :=
  (C45_square (t0 := 2) (t1 := 2) (s0 := 4) (s1 := 4) (by omega) (by omega) (by omega) (by omega)
    (.inl rfl) rfl rfl rfl rfl org tiled ho hm).1

example [Arith α] (tiled : Array α) (ht : tiled.size = 8) :
    undo_tiling #[0, 0] #[0, 0] tiled #[⟨2, 4⟩, ⟨1, 2⟩] = .error .oob :=
  C45_more_rows (t0 := 2) (t1 := 1) (s0 := 4) (s1 := 2) (by omega) (by omega) (by omega) (by omega)
    (by omega) (by omega) rfl rfl tiled ht

example [Arith α] (tiled : Array α) (ht : tiled.size = 8) :
    ∃ w, undo_buffer #[0, 0] #[0, 0] tiled #[⟨2, 2⟩, ⟨1, 4⟩] = .ok w ∧ w[7]? = some Arith.zero := by
  obtain ⟨w, hw, _, h⟩ := C45_fewer_rows (t0 := 2) (t1 := 1) (s0 := 2) (s1 := 4) (by omega)
    (by omega) (by omega) (by omega) (by omega) (by omega) (junk := #[0, 0]) (junk' := #[0, 0])
    rfl rfl tiled ht
  exact ⟨w, hw, h⟩

/-- Extents 5 × 7 × 5. -/
example : flat_index 3 #[4, 6, 3] #[5, 7, 5] = .ok 173 :=
  C46_palindrome (ext := [5, 7, 5]) (idx := [4, 6, 3]) rfl (by
    intro d hd
    match d, hd with
    | 0, _ => rfl
    | 1, _ => rfl)

example : ∃ a b, a < 3 ∧ b < 2 ∧ flat_index 2 #[a, b] #[3, 2] ≠ .ok (a * 2 + b) := by
  by_contra h
  push Not at h
  have := (C46_two 3 2).1 fun a b ha hb => h a b ha hb
  omega

end Examples
end Verif.Props
