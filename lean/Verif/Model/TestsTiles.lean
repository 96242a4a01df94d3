import Verif.Model.MemoryLayout
/-
Model of test_tile_view.cpp and test_iterate_tiles.cpp in /repo/src/tests.
-/
namespace Verif.Tests
open MemoryLayout
variable {α : Type} [Arith α]

/-- What these two tests use of their environment: the conversion of an integer to `double`, the check
of two numbers (`BOOST_CHECK_CLOSE(…, 1E-15)` resp. `BOOST_CHECK_EQUAL`), and the uninitialised index
arrays. -/
structure TileEnv (α : Type) where
  cast : Nat → α
  close : α → α → Bool
  junk : Nat → Array Nat

/-- test_tile_view.cpp:23–31 and test_iterate_tiles.cpp:11–19: the matrix filled by `std::for_each`
with a static counter; the result is the matrix and the new value of the counter. -/
def counting (e : TileEnv α) (counter n : Nat) : M (Array α × Nat) :=
  forStep 0 n 1 ((zeros n : Array α), counter) fun k (s : Array α × Nat) => do
    let m ← wr s.1 k (e.cast s.2)
    pure (m, s.2 + 1)

/-- test_tile_view.cpp:33–37 and test_iterate_tiles.cpp:21–25. -/
def tile_info : Array TilingInfo := #[⟨4, 256⟩, ⟨4, 256⟩]

/-- test_tile_view.cpp:44–45 and test_iterate_tiles.cpp:45–46 `reference_first`. -/
def reference_first : Array Nat := #[0, 1, 2, 3, 256, 257, 258, 259, 512, 513, 514, 515, 768, 769, 770, 771]

/-- test_tile_view.cpp:53–54 and test_iterate_tiles.cpp:55–56 `reference_first_end`. -/
def reference_first_end : Array Nat :=
  #[252, 253, 254, 255, 508, 509, 510, 511, 764, 765, 766, 767, 1020, 1021, 1022, 1023]

/-- test_tile_view.cpp:62–63 and test_iterate_tiles.cpp:65–67 `reference_first_last`. -/
def reference_first_last : Array Nat :=
  #[64512, 64513, 64514, 64515, 64768, 64769, 64770, 64771, 65024, 65025, 65026, 65027, 65280, 65281,
    65282, 65283]

/-- test_tile_view.cpp:71–72 and test_iterate_tiles.cpp:76–77 `reference_last`. -/
def reference_last : Array Nat :=
  #[64764, 64765, 64766, 64767, 65020, 65021, 65022, 65023, 65276, 65277, 65278, 65279, 65532, 65533,
    65534, 65535]

/-- test_tile_view.cpp:13–17 and the loops of test_iterate_tiles.cpp (e.g. 47–51): the checks of one
tile; `l` is the list of the outcomes so far. -/
def compare_view (e : TileEnv α) (tiled_matrix : Array α) (view : TileView) (reference : Array Nat)
    (l : List Bool) : M (List Bool) := do
  let n0 := (← rd tile_info 0).tile_size_dir
  let n1 := (← rd tile_info 1).tile_size_dir
  forStep 0 n0 1 l fun i l => forStep 0 n1 1 l fun j l => do
    let x ← view.get 2 tiled_matrix #[i, j]
    let y ← rd reference (i * 4 + j)
    pure (l ++ [e.close x (e.cast y)])

/-- test_tile_view.cpp:7–18 `compare_tile`. -/
def compare_tile (e : TileEnv α) (tiled_matrix : Array α) (tile_index : Array Nat)
    (reference : Array Nat) (l : List Bool) : M (List Bool) := do
  let view ← TileView.new 2 tile_index tile_info
  compare_view e tiled_matrix view reference l

/-- test_tile_view.cpp:39–78: the checks for the matrix `m`. -/
def view_checks (e : TileEnv α) (m : Array α) : M (List Bool) := do
  let tiled_matrix ← make_tiled 2 (e.junk 0) (e.junk 1) m tile_info
  let l ← compare_tile e tiled_matrix #[0, 0] reference_first []
  let l ← compare_tile e tiled_matrix #[0, 256 / 4 - 1] reference_first_end l
  let l ← compare_tile e tiled_matrix #[256 / 4 - 1, 0] reference_first_last l
  compare_tile e tiled_matrix #[256 / 4 - 1, 256 / 4 - 1] reference_last l

/-- test_tile_view.cpp:22–79, test case `view`, run for the first time (the static counter is 0). -/
def test_tile_view (e : TileEnv α) : M (List Bool) := do
  let r ← counting e 0 (256 * 256)
  view_checks e r.1

/-- The variables `i`, `j` and `cases` captured by the lambda of test_iterate_tiles.cpp:38, and the
outcomes of the checks. -/
structure IterState where
  i : Nat
  j : Nat
  cases : Array Bool
  l : List Bool

/-- test_iterate_tiles.cpp:43–83: the elements of the four tiles in the corners; the result is the new
value of `cases` and the outcomes. -/
def iterate_elements (e : TileEnv α) (tiled_matrix : Array α) (view : TileView) (i j : Nat)
    (cases : Array Bool) (l : List Bool) : M (Array Bool × List Bool) :=
  if i = 0 ∧ j = 0 then do
    pure (← wr cases 0 true, ← compare_view e tiled_matrix view reference_first l)
  else if i = 0 ∧ j = 63 then do
    pure (← wr cases 1 true, ← compare_view e tiled_matrix view reference_first_end l)
  else if i = 63 ∧ j = 0 then do
    pure (← wr cases 2 true, ← compare_view e tiled_matrix view reference_first_last l)
  else if i = 63 ∧ j = 63 then do
    pure (← wr cases 3 true, ← compare_view e tiled_matrix view reference_last l)
  else pure (cases, l)

/-- test_iterate_tiles.cpp:38–92: the lambda. -/
def iterate_body (e : TileEnv α) (tiled_matrix : Array α) (view : TileView) (s : IterState) :
    M IterState := do
  let t0 ← rd view.tile_index 0
  let t1 ← rd view.tile_index 1
  let r ← iterate_elements e tiled_matrix view s.i s.j s.cases (s.l ++ [t0 == s.i, t1 == s.j])
  if s.j + 1 = 64 then pure ⟨s.i + 1, 0, r.1, r.2⟩ else pure ⟨s.i, s.j + 1, r.1, r.2⟩

/-- test_iterate_tiles.cpp:93–96: the checks of `cases` at the end. -/
def seen_checks (cases : Array Bool) : M (List Bool) := do
  pure [← rd cases 0, ← rd cases 1, ← rd cases 2, ← rd cases 3]

/-- test_iterate_tiles.cpp:27–96: the checks for the matrix `m`. -/
def iterate_checks (e : TileEnv α) (m : Array α) : M (List Bool) := do
  let tiled_matrix ← make_tiled 2 (e.junk 0) (e.junk 1) m tile_info
  let s ← iterate_tiles 2 (e.junk 2) tile_info (iterate_body e tiled_matrix)
    ⟨0, 0, Array.replicate 4 false, []⟩
  let seen ← seen_checks s.cases
  pure (s.l ++ seen)

/-- test_iterate_tiles.cpp:10–97, test case `iterate`, run for the first time (the static counter
is 0). -/
def test_iterate_tiles (e : TileEnv α) : M (List Bool) := do
  let r ← counting e 0 (256 * 256)
  iterate_checks e r.1

end Verif.Tests
