import Verif.Model.MemoryLayout
import Verif.Model.Tiled
import Verif.Model.Util
/-
Model of /repo/src/variants/proposal.cpp.  The macros are those of `Tiled.Blocking`; console output
and the parameters that are only stored (`transposed`, `block_result`, `block_input`, `repetitions`)
are left out.
-/
namespace Verif.Proposal
open Tiled MemoryLayout
variable {α : Type} [Arith α]

/-- proposal.cpp:20–42: the values of the macros. -/
def blocking : Blocking where
  L3_X := 420
  L3_Y := 256
  L3_K_STEP := 256
  L2_X := 70
  L2_Y := 64
  L2_K_STEP := 128
  L1_X := 35
  L1_Y := 16
  L1_K_STEP := 64

/-- The members set by the constructor (proposal.hpp:15–22). -/
structure Obj (α : Type) where
  N_org : Nat
  X_size : Nat
  Y_size : Nat
  K_size : Nat
  A_trans : Array α
  B : Array α

/-- proposal.cpp:69–123, the constructor; `verify_blocking_setup` (51–67) and the computation of the
padding (78–89) are the same code as in combined.cpp. -/
def new (b : Blocking) (N : Nat) (A_org B_org : Array α) : M (Obj α) := do
  verify_blocking_setup b
  let k_pad := padOf N b.L3_K_STEP
  let x_pad := padOf N b.L3_X
  let y_pad := padOf N b.L3_Y
  let X_size := N + x_pad
  let Y_size := N + y_pad
  let K_size := N + k_pad
  let A_trans ← forStep 0 N 1 (zeros (K_size * X_size)) fun x A_trans =>
    forStep 0 N 1 A_trans fun k A_trans => do
      let v ← rdAt A_org (x * N + k)
      wrAt A_trans (x * K_size + k) v
  let A_trans ← Util.transpose_rect K_size X_size A_trans
  let B ← forStep 0 N 1 (zeros (K_size * Y_size)) fun y B =>
    forStep 0 N 1 B fun k B => do
      let v ← rdAt B_org (k * N + y)
      wrAt B (k * Y_size + y) v
  pure ⟨N, X_size, Y_size, K_size, A_trans, B⟩

/-- proposal.cpp:127 -/
def tile_size : Nat := 128

/-- proposal.cpp:316–325: what follows `undo_tiling`: copy the result, then overwrite it. -/
def finish (N_org Y_size : Nat) (C_untiled_padded : Array α) : M (Array α) := do
  let C_return ← forStep 0 N_org 1 (zeros (N_org * N_org)) fun x C_return =>
    forStep 0 N_org 1 C_return fun y C_return => do
      let v ← rd C_untiled_padded (x * Y_size + y)
      wr C_return (x * N_org + y) v
  pure (zeros C_return.size)

/-- proposal.cpp:125–364 `matrix_multiply` (lines 166–313 and 327–361 are comments).
`junk n` are the uninitialised index arrays of the calls into memory_layout. -/
def matrix_multiply (b : Blocking) (junk : Nat → Array Nat) (o : Obj α) : M (Array α) := do
  let tiling_info_A : Array TilingInfo := #[⟨tile_size, b.L3_X⟩, ⟨tile_size, b.L3_K_STEP⟩]
  let _A_trans_tiled ← make_tiled 2 (junk 0) (junk 1) o.A_trans tiling_info_A
  let tiling_info_B : Array TilingInfo := #[⟨tile_size, b.L3_Y⟩, ⟨tile_size, b.L3_K_STEP⟩]
  let _B_padded_tiled ← make_tiled 2 (junk 2) (junk 3) o.A_trans tiling_info_B
  let tiling_info_C : Array TilingInfo := #[⟨tile_size, b.L3_X⟩, ⟨tile_size, b.L3_Y⟩]
  let C_padded_tiled : Array α := zeros (o.X_size * o.Y_size)
  let C_untiled_padded ← undo_tiling (junk 4) (junk 5) C_padded_tiled tiling_info_C
  finish o.N_org o.Y_size C_untiled_padded

/-- Construction followed by `matrix_multiply` (test_hpx_main.cpp:83–86). -/
def run (b : Blocking) (junk : Nat → Array Nat) (N : Nat) (A B : Array α) : M (Array α) := do
  let o ← new b N A B
  matrix_multiply b junk o

end Verif.Proposal
