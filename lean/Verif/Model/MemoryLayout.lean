import Verif.Core.Basic
/-
src/memory_layout: tiling of vectors (`loop_nest.hpp`, `util.hpp`, `tile_array.hpp`,
`tile_view.hpp`, `tile_iterator.hpp`, `tiling_info_dim.hpp`).

A `std::array<size_t, dim>` (or `size_t[dim]`) is an `Array Nat` with `dim` elements.  Arrays the
code leaves uninitialised (`partial_index`, `tile_index`) are an arbitrary argument `junk`.
`size_t` arithmetic does not wrap here: on the inputs covered by the theorems all products are at
most the size of a vector.  `tile_view_iterator.hpp` is not modelled: it is included nowhere and
names `tile_view` with the wrong number of template arguments.
-/
namespace Verif.MemoryLayout
variable {α σ : Type}

/-- tiling_info_dim.hpp:4–7. -/
structure TilingInfo where
  tile_size_dir : Nat
  stride : Nat
  deriving DecidableEq, Repr, Inhabited

/-- `a / b` for `size_t` (tile_array.hpp:36, 162, tile_iterator.hpp:33, tile_view.hpp:29, 41). -/
def udiv (a b : Nat) : M Nat := if b = 0 then throw .divZero else pure (a / b)

/-- The template recursion over `cur_dim` shared by `execute_looped` (loop_nest.hpp:8–25 and
28–43), `tile_dim` (tile_array.hpp:146–167) and `iterate_tile_dim` (tile_iterator.hpp:17–40):
`bounds cur_dim` gives start, end and step of the loop for dimension `cur_dim`; the loop writes
entry `cur_dim` of the index (passed by reference).  The first argument after `f` is
`dim - cur_dim`. -/
def nestLoop (dim : Nat) (bounds : Nat → M (Nat × Nat × Nat)) (f : Array Nat → σ → M σ) :
    Nat → Array Nat × σ → M (Array Nat × σ)
  | 0, (index, s) => do
    let s ← f index s
    pure (index, s)
  | rem + 1, s => do
    let cur_dim := dim - (rem + 1)
    let b ← bounds cur_dim
    forStep b.1 b.2.1 b.2.2 s fun cur s => do
      let partial_index ← wr s.1 cur_dim cur
      nestLoop dim bounds f rem (partial_index, s.2)

/-- loop_nest.hpp:46–59 `loop_nest` (both overloads). -/
def loop_nest (dim : Nat) (junk mn mx step : Array Nat) (f : Array Nat → σ → M σ) (s : σ) : M σ := do
  let r ← nestLoop dim (fun d => do pure (← rd mn d, ← rd mx d, ← rd step d)) f dim (junk, s)
  pure r.2

/-- The loop `for d: flat += index[(dim-1)-d] * cur_stride; cur_stride *= ext((dim-1)-d)` that
occurs in tile_array.hpp:32–38, 114–119, 120–135 and tile_view.hpp:37–43, 68–76. -/
def flatRev (dim : Nat) (index : Nat → M Nat) (ext : Nat → M Nat) : M Nat := do
  let r ← forStep 0 dim 1 (0, 1) fun d (s : Nat × Nat) => do
    let i ← index ((dim - 1) - d)
    let e ← ext ((dim - 1) - d)
    pure (s.1 + i * s.2, s.2 * e)
  pure r.1

/-- `for d: p *= tiling_info[d].tile_size_dir` (tile_array.hpp:42–44, tile_view.hpp:32–35). -/
def mulTiles (dim : Nat) (tiling_info : Array TilingInfo) (p : Nat) : M Nat :=
  forStep 0 dim 1 p fun d p => do
    let t ← rd tiling_info d
    pure (p * t.tile_size_dir)

/-- `tiling_info[d].stride / tiling_info[d].tile_size_dir` (tile_array.hpp:36–37, 162,
tile_iterator.hpp:33, tile_view.hpp:29, 41–42). -/
def tilesDir (tiling_info : Array TilingInfo) (d : Nat) : M Nat := do
  let t ← rd tiling_info d
  udiv t.stride t.tile_size_dir

/-- `max[d] = tiling_info[d].tile_size_dir` (tile_array.hpp:60–63 and 205–208). -/
def tileSizes (dim : Nat) (tiling_info : Array TilingInfo) : M (Array Nat) :=
  forStep 0 dim 1 (Array.replicate dim 0) fun d mx => do
    let t ← rd tiling_info d
    wr mx d t.tile_size_dir

/-- tile_array.hpp:18–144 `tile_dim_indices`: copy one tile. -/
def tile_dim_indices (dim : Nat) (junk : Array Nat) (org : Array α) (tiling_info : Array TilingInfo)
    (tile_index : Array Nat) (tiled : Array α) : M (Array α) := do
  let skipped_blocks ← flatRev dim (rd tile_index) (tilesDir tiling_info)
  let skipped_blocks ← mulTiles dim tiling_info skipped_blocks
  let mx ← tileSizes dim tiling_info
  loop_nest dim junk (Array.replicate dim 0) mx (Array.replicate dim 1) (fun inner_index tiled => do
    let inner_flat_index ← flatRev dim (rd inner_index) fun d => do
      pure (← rd tiling_info d).tile_size_dir
    let original_flat_index ← flatRev dim
      (fun d => do
        pure ((← rd tile_index d) * (← rd tiling_info d).tile_size_dir + (← rd inner_index d)))
      fun d => do pure (← rd tiling_info d).stride
    let v ← rd org original_flat_index
    wr tiled (skipped_blocks + inner_flat_index) v) tiled

/-- tile_array.hpp:146–167 `tile_dim` and 171–185 `make_tiled`.  `junk` and `junk'` are the
uninitialised index arrays. -/
def make_tiled [Arith α] (dim : Nat) (junk junk' : Array Nat) (org : Array α)
    (tiling_info : Array TilingInfo) : M (Array α) :=
  let tiled : Array α := zeros org.size
  if tiling_info.size ≠ dim then throw (.exception "memory_layout_exception")
  else do
    let r ← nestLoop dim (fun d => do pure (0, ← tilesDir tiling_info d, 1))
      (fun tile_index tiled => tile_dim_indices dim junk' org tiling_info tile_index tiled)
      dim (junk, tiled)
    pure r.2

/-- util.hpp:4–25 `flat_index` (both overloads). -/
def flat_index (dim : Nat) (index strides : Array Nat) : M Nat := do
  let r ← forStep 0 dim 1 (0, 1) fun d (s : Nat × Nat) => do
    let i ← rd index ((dim - 1) - d)
    let e ← rd strides d
    pure (s.1 + i * s.2, s.2 * e)
  pure r.1

/-- tile_view.hpp:11–18; the reference to the vector is left out. -/
structure TileView where
  base_offset : Nat
  tile_index : Array Nat
  tiles_dir : Array Nat
  tiling_info : Array TilingInfo
  tile_size : Nat
  deriving DecidableEq, Repr

/-- tile_view.hpp:21–46, the constructor. -/
def TileView.new (dim : Nat) (tile_index : Array Nat) (tiling_info : Array TilingInfo) :
    M TileView := do
  let i0 ← rd tile_index 0
  let i1 ← rd tile_index 1
  let this_tile_index ← wr (Array.replicate dim 0) 0 i0
  let this_tile_index ← wr this_tile_index 1 i1
  let tiles_dir ← forStep 0 dim 1 (Array.replicate dim 0) fun d tiles_dir => do
    let t ← tilesDir tiling_info d
    wr tiles_dir d t
  let tile_size ← mulTiles dim tiling_info 1
  let base_offset ← flatRev dim (rd tile_index) (tilesDir tiling_info)
  pure ⟨base_offset * tile_size, this_tile_index, tiles_dir, tiling_info, tile_size⟩

/-- tile_view.hpp:68–76 `flat_index`. -/
def TileView.flat_index (v : TileView) (dim : Nat) (coord : Array Nat) : M Nat :=
  flatRev dim (rd coord) fun d => do pure (← rd v.tiling_info d).tile_size_dir

/-- tile_view.hpp:48 `operator[](size_t)`; `tiled` is the vector the view refers to. -/
def TileView.getOffset (v : TileView) (tiled : Array α) (tile_offset : Nat) : M α :=
  rd tiled (v.base_offset + tile_offset)

/-- tile_view.hpp:50–53 `operator[](std::array)` and 55–60 `operator()`. -/
def TileView.get (v : TileView) (dim : Nat) (tiled : Array α) (inner_index : Array Nat) : M α := do
  let tile_offset ← v.flat_index dim inner_index
  rd tiled (v.base_offset + tile_offset)

/-- tile_view.hpp:62 `size`. -/
def TileView.size (v : TileView) : Nat := v.tile_size

/-- tile_iterator.hpp:17–48 `iterate_tiles`.  The views are `tile_view<2, …>` for every `dim`. -/
def iterate_tiles (dim : Nat) (junk : Array Nat) (tiling_info : Array TilingInfo)
    (f : TileView → σ → M σ) (s : σ) : M σ := do
  let r ← nestLoop dim (fun d => do pure (0, ← tilesDir tiling_info d, 1))
    (fun tile_index s => do
      let v ← TileView.new 2 tile_index tiling_info
      f v s) dim (junk, s)
  pure r.2

/-- tile_array.hpp:191–240: the part of `undo_tiling<2>` up to the end of its body; the result is
the local vector `untiled`.  (With `dim ≠ 2` the template does not compile.) -/
def undo_buffer [Arith α] (junk junk' : Array Nat) (tiled : Array α)
    (tiling_info : Array TilingInfo) : M (Array α) :=
  let untiled : Array α := zeros tiled.size
  if tiling_info.size ≠ 2 then throw (.exception "memory_layout_exception")
  else do
    let mx ← tileSizes 2 tiling_info
    let untiled_strides ← forStep 0 2 1 (Array.replicate 2 0) fun d s => do
      let t ← rd tiling_info d
      wr s d t.stride
    iterate_tiles 2 junk tiling_info (fun view untiled => do
      let index_offset ← forStep 0 2 1 (Array.replicate 2 0) fun d o => do
        let i ← rd view.tile_index d
        let t ← rd tiling_info d
        wr o d (i * t.tile_size_dir)
      loop_nest 2 junk' (Array.replicate 2 0) mx (Array.replicate 2 1) (fun inner_index untiled => do
        let outer_index ← forStep 0 2 1 (Array.replicate 2 0) fun d o => do
          let i ← rd inner_index d
          let j ← rd index_offset d
          wr o d (i + j)
        let flat_outer_index ← flat_index 2 outer_index untiled_strides
        let v ← view.get 2 tiled inner_index
        wr untiled flat_outer_index v) untiled) untiled

/-- tile_array.hpp:189–241 `undo_tiling<2>`: there is no `return` statement. -/
def undo_tiling [Arith α] (junk junk' : Array Nat) (tiled : Array α)
    (tiling_info : Array TilingInfo) : M (Array α) := do
  let _ ← undo_buffer junk junk' tiled tiling_info
  throw .noReturn

end Verif.MemoryLayout
