import Verif.Model.Tiled
/-
Model of /repo/src/variants/combined.cpp.
-/
namespace Verif.Combined
open IndexIterator Tiled
variable {α : Type} [Arith α]

/-- combined.cpp:15–23 -/
def blocking : Blocking where
  L3_X := 420
  L3_Y := 256
  L3_K_STEP := 256
  L2_X := 70
  L2_Y := 64
  L2_K_STEP := 128
  L1_X := 35
  L1_Y := 16
  L1_K_STEP := 64

/-- combined.cpp:121–127 (the result is not used later on). -/
def A_trans_untiled (p : Padded α) : M (Array α) :=
  forStep 0 p.K_size 1 (zeros (p.K_size * p.X_size)) fun i v =>
    forStep 0 p.X_size 1 v fun j v => do
      let x ← rd p.A (j * p.K_size + i)
      wr v (i * p.X_size + j) x

/-- combined.cpp:322–324: flag 0 is the captured variable `first`. -/
def clearFirst : Act α Unit :=
  .rdFlag 0 fun first => if first then .wrFlag 0 false (.ret ()) else .ret ()

/-- combined.cpp:189–326: the function called for each `(l1_x, l1_y, l1_k)`. -/
def body (b : Blocking) (X_size Y_size : Nat) (A_trans B_padded : Array α) (p : List Nat) :
    Act α Unit := do
  block b X_size Y_size A_trans B_padded (p.getD 0 0) (p.getD 1 0) (p.getD 2 0)
  clearFirst

/-- combined.cpp:177–182 -/
def policy (b : Blocking) : M Policy := do
  let p ← Policy.new 3
  let p := p.set_final_steps [b.L1_X, b.L1_Y, b.L1_K_STEP]
  let p ← p.add_blocking [b.L2_X, b.L2_Y, b.L2_K_STEP] [false, false, false]
  p.add_blocking [b.L3_X, b.L3_Y, b.L3_K_STEP] [true, true, false]

/-- combined.cpp:187–326: one repetition; the flags are set at its start. -/
def tree (b : Blocking) (pol : Policy) (X_size Y_size K_size : Nat) (A_trans B_padded : Array α) :
    Tree α :=
  (iterate_indices 3 pol [0, 0, 0] [X_size, Y_size, K_size]).toTree
    (body b X_size Y_size A_trans B_padded)

/-- combined.cpp:61–109 (constructor) and 111–373 `matrix_multiply`. -/
def matrix_multiply (b : Blocking) (N : Nat) (A_org B_org : Array α) (repetitions : Nat) :
    ND (Array α) := do
  let p ← ND.ofM (setup b N A_org B_org)
  let C_padded := zeros (p.X_size * p.Y_size)
  let _ ← ND.ofM (A_trans_untiled p)
  let A_trans ← ND.ofM (tileA b p)
  let B_padded ← ND.ofM (tileB b p)
  let C_padded ← (List.range repetitions).foldlM (fun C_padded _ => do
    let pol ← ND.ofM (policy b)
    ND.runOn C_padded (tree b pol p.X_size p.Y_size p.K_size A_trans B_padded)) C_padded
  ND.ofM (extract b N p.X_size p.Y_size C_padded)

end Verif.Combined
