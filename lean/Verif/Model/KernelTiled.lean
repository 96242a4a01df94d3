import Verif.Model.Tiled
/-
Model of /repo/src/reference_kernels/kernel_tiled.cpp.
-/
namespace Verif.KernelTiled
open Tiled
variable {α : Type} [Arith α]

/-- kernel_tiled.cpp:12–14, 20–25 -/
def blocking : Blocking where
  L3_X := 420
  L3_Y := 256
  L3_K_STEP := 256
  L2_X := 70
  L2_Y := 64
  L2_K_STEP := 128
  L1_X := 35
  L1_Y := 16
  L1_K_STEP := 64

/-- kernel_tiled.cpp:240–482: one iteration of the parallel loops. -/
def task (b : Blocking) (X_size Y_size K_size : Nat) (A_trans B_padded : Array α)
    (l3_x l3_y : Nat) : Act α Unit :=
  forStep 0 K_size b.L3_K_STEP () fun l3_k _ =>
    forStep l3_x (l3_x + b.L3_X) b.L2_X () fun l2_x _ =>
      forStep l3_y (l3_y + b.L3_Y) b.L2_Y () fun l2_y _ =>
        forStep l3_k (l3_k + b.L3_K_STEP) b.L2_K_STEP () fun l2_k _ =>
          forStep l2_x (l2_x + b.L2_X) b.L1_X () fun l1_x _ =>
            forStep l2_y (l2_y + b.L2_Y) b.L1_Y () fun l1_y _ =>
              forStep l2_k (l2_k + b.L2_K_STEP) b.L1_K_STEP () fun l1_k _ =>
                block b X_size Y_size A_trans B_padded l1_x l1_y l1_k

/-- kernel_tiled.cpp:237–485: `omp parallel for collapse(2)`; all iterations of the two outer loops
may run concurrently (fewer threads and groups of iterations: C123). -/
def tree (b : Blocking) (X_size Y_size K_size : Nat) (A_trans B_padded : Array α) : Tree α :=
  .par (((steps 0 X_size b.L3_X).flatMap fun l3_x => (steps 0 Y_size b.L3_Y).map fun l3_y =>
    (l3_x, l3_y)).map fun q => .act (task b X_size Y_size K_size A_trans B_padded q.1 q.2))

/-- kernel_tiled.cpp:64–112 (constructor; `transposed` is not used) and 114–546
`matrix_multiply`. -/
def matrix_multiply (b : Blocking) (N : Nat) (A_org B_org : Array α) (_transposed : Bool)
    (repetitions : Nat) : ND (Array α) := do
  let p ← ND.ofM (setup b N A_org B_org)
  let C_padded := zeros (p.X_size * p.Y_size)
  let A_trans ← ND.ofM (tileA b p)
  let B_padded ← ND.ofM (tileB b p)
  let C_padded ← (List.range repetitions).foldlM (fun (C_padded : Array α) _ =>
    ND.runOn (zeros C_padded.size) (tree b p.X_size p.Y_size p.K_size A_trans B_padded)) C_padded
  ND.ofM (extract b N p.X_size p.Y_size C_padded)

end Verif.KernelTiled
