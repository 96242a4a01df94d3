import Verif.Model.Tiled
/-
Model of /repo/src/reference_kernels/kernel_test.cpp.  Simplifications as in Model/Tiled.lean.
-/
namespace Verif.KernelTest
open Tiled
variable {α : Type} [Arith α]

/-- kernel_test.cpp:6 -/
def PADDING : Nat := 64
/-- kernel_test.cpp:7 -/
def L3_X : Nat := 256
/-- kernel_test.cpp:8 -/
def L3_Y : Nat := 256
/-- kernel_test.cpp:9 -/
def L3_K_STEP : Nat := 512
/-- kernel_test.cpp:10 -/
def L2_X : Nat := 128
/-- kernel_test.cpp:11 -/
def L2_Y : Nat := 128
/-- kernel_test.cpp:12 -/
def L2_K_STEP : Nat := 64
/-- kernel_test.cpp:13 -/
def L1_X : Nat := 64
/-- kernel_test.cpp:14 -/
def L1_Y : Nat := 32
/-- kernel_test.cpp:15 -/
def L1_K_STEP : Nat := 16
/-- kernel_test.cpp:16 -/
def X_REG : Nat := 5
/-- kernel_test.cpp:17 -/
def Y_REG : Nat := 8

/-- kernel_test.cpp:31–37 `A_padded` (not used later on). -/
def padA (N : Nat) (A : Array α) : M (Array α) :=
  forStep 0 N 1 (zeros ((N + PADDING) * (N + PADDING))) fun i A_padded =>
    forStep 0 N 1 A_padded fun j A_padded => do
      let v ← rd A (i * N + j)
      wr A_padded (i * (N + PADDING) + j) v

/-- kernel_test.cpp:40–46 `A_trans` -/
def transA (N : Nat) (A : Array α) : M (Array α) :=
  forStep 0 N 1 (zeros ((N + PADDING) * (N + PADDING))) fun i A_trans =>
    forStep 0 N 1 A_trans fun j A_trans => do
      let v ← rd A (j * N + i)
      wr A_trans (i * (N + PADDING) + j) v

/-- kernel_test.cpp:48–54 `B_padded` -/
def padB (N : Nat) (B : Array α) : M (Array α) :=
  forStep 0 N 1 (zeros ((N + PADDING) * (N + PADDING))) fun i B_padded =>
    forStep 0 N 1 B_padded fun j B_padded => do
      let v ← rd B (i * N + j)
      wr B_padded (i * (N + PADDING) + j) v

/-- kernel_test.cpp:102–138: one iteration of the loop over `k_inner`; the values of `B` for the
next iteration are loaded at its end. -/
def step (N : Nat) (A_trans B_padded : Array α) (x y k_inner : Nat)
    (s : Acc α × V4 α × V4 α) : M (Acc α × V4 α × V4 α) := do
  let acc := s.1
  let b_temp_1 := s.2.1
  let b_temp_2 := s.2.2
  let a_temp_1 := V4.splat (← rd A_trans (k_inner * (N + PADDING) + (x + 0)))
  let a_temp_2 := V4.splat (← rd A_trans (k_inner * (N + PADDING) + (x + 1)))
  let a_temp_3 := V4.splat (← rd A_trans (k_inner * (N + PADDING) + (x + 2)))
  let acc_11 := acc.acc_11.mac a_temp_1 b_temp_1
  let acc_21 := acc.acc_21.mac a_temp_2 b_temp_1
  let acc_12 := acc.acc_12.mac a_temp_1 b_temp_2
  let acc_22 := acc.acc_22.mac a_temp_2 b_temp_2
  let a_temp_4 := V4.splat (← rd A_trans (k_inner * (N + PADDING) + (x + 3)))
  let a_temp_5 := V4.splat (← rd A_trans (k_inner * (N + PADDING) + (x + 4)))
  let acc_31 := acc.acc_31.mac a_temp_3 b_temp_1
  let acc_41 := acc.acc_41.mac a_temp_4 b_temp_1
  let acc_51 := acc.acc_51.mac a_temp_5 b_temp_1
  let b_temp_1 ← loadAligned B_padded ((k_inner + 1) * (N + PADDING) + y)
  let acc_42 := acc.acc_42.mac a_temp_4 b_temp_2
  let acc_52 := acc.acc_52.mac a_temp_5 b_temp_2
  let acc_32 := acc.acc_32.mac a_temp_3 b_temp_2
  let b_temp_2 ← loadAligned B_padded ((k_inner + 1) * (N + PADDING) + (y + 4))
  pure (⟨acc_11, acc_21, acc_31, acc_41, acc_51, acc_12, acc_22, acc_32, acc_42, acc_52⟩,
    b_temp_1, b_temp_2)

/-- kernel_test.cpp:80–139: the accumulators of one register block. -/
def inner (N : Nat) (A_trans B_padded : Array α) (l1_k x y : Nat) : M (Acc α) := do
  let b_temp_1 ← loadAligned B_padded (l1_k * (N + PADDING) + y)
  let b_temp_2 ← loadAligned B_padded (l1_k * (N + PADDING) + (y + 4))
  let s ← forStep l1_k (l1_k + L1_K_STEP) 1 (Acc.init, b_temp_1, b_temp_2) fun k_inner s =>
    step N A_trans B_padded x y k_inner s
  pure s.1

/-- `if (c) { … }` around one of the updates of kernel_test.cpp:146–167, 189–210. -/
def addIf (c : Prop) [Decidable c] (n i : Nat) (acc : V4 α) : Act α Unit :=
  if c then addV n i acc else pure ()

/-- kernel_test.cpp:141–228: add the accumulators to the result; rows beyond the L1 block are
skipped. -/
def store (N l1_x x y : Nat) (s : Acc α) : Act α Unit := do
  let n := (N + PADDING) * (N + PADDING)
  addV n ((x + 0) * (N + PADDING) + y) s.acc_11
  addIf (x + 1 < l1_x + L1_X) n ((x + 1) * (N + PADDING) + y) s.acc_21
  addIf (x + 2 < l1_x + L1_X) n ((x + 2) * (N + PADDING) + y) s.acc_31
  addIf (x + 3 < l1_x + L1_X) n ((x + 3) * (N + PADDING) + y) s.acc_41
  addIf (x + 4 < l1_x + L1_X) n ((x + 4) * (N + PADDING) + y) s.acc_51
  addV n ((x + 0) * (N + PADDING) + (y + 4)) s.acc_12
  addIf (x + 1 < l1_x + L1_X) n ((x + 1) * (N + PADDING) + (y + 4)) s.acc_22
  addIf (x + 2 < l1_x + L1_X) n ((x + 2) * (N + PADDING) + (y + 4)) s.acc_32
  addIf (x + 3 < l1_x + L1_X) n ((x + 3) * (N + PADDING) + (y + 4)) s.acc_42
  addIf (x + 4 < l1_x + L1_X) n ((x + 4) * (N + PADDING) + (y + 4)) s.acc_52

/-- kernel_test.cpp:77–230: one L1 block. -/
def block (N : Nat) (A_trans B_padded : Array α) (l1_x l1_y l1_k : Nat) : Act α Unit :=
  forStep (l1_x + 0) (l1_x + L1_X) X_REG () fun x _ =>
    forStep (l1_y + 0) (l1_y + L1_Y) Y_REG () fun y _ => do
      let s ← Act.ofM (inner N A_trans B_padded l1_k x y)
      store N l1_x x y s

/-- kernel_test.cpp:65–237: one iteration of the parallel loops. -/
def task (N : Nat) (A_trans B_padded : Array α) (l3_x l3_y : Nat) : Act α Unit :=
  forStep 0 N L3_K_STEP () fun l3_k _ =>
    forStep l3_x (l3_x + L3_X) L2_X () fun l2_x _ =>
      forStep l3_y (l3_y + L3_Y) L2_Y () fun l2_y _ =>
        forStep l3_k (l3_k + L3_K_STEP) L2_K_STEP () fun l2_k _ =>
          forStep l2_x (l2_x + L2_X) L1_X () fun l1_x _ =>
            forStep l2_y (l2_y + L2_Y) L1_Y () fun l1_y _ =>
              forStep l2_k (l2_k + L2_K_STEP) L1_K_STEP () fun l1_k _ =>
                block N A_trans B_padded l1_x l1_y l1_k

/-- kernel_test.cpp:62–239: `omp parallel for collapse(2)`; all iterations of the two outer loops
may run concurrently. -/
def tree (N : Nat) (A_trans B_padded : Array α) : Tree α :=
  .par (((steps 0 N L3_X).flatMap fun l3_x => (steps 0 N L3_Y).map fun l3_y =>
    (l3_x, l3_y)).map fun q => .act (task N A_trans B_padded q.1 q.2))

/-- kernel_test.cpp:242–249: copy the result without the padding. -/
def extract (N : Nat) (C_padded : Array α) : M (Array α) :=
  forStep 0 N 1 (zeros (N * N)) fun i C =>
    forStep 0 N 1 C fun j C => do
      let v ← rd C_padded (i * (N + PADDING) + j)
      wr C (i * N + j) v

/-- kernel_test.cpp:21–24 (constructor; `transposed` is not used) and 26–252 `matrix_multiply`. -/
def matrix_multiply (N : Nat) (A B : Array α) (_transposed : Bool) (repetitions : Nat) :
    ND (Array α) := do
  let C_padded := zeros ((N + PADDING) * (N + PADDING))
  let _ ← ND.ofM (padA N A)
  let A_trans ← ND.ofM (transA N A)
  let B_padded ← ND.ofM (padB N B)
  let C_padded ← (List.range repetitions).foldlM (fun (C_padded : Array α) _ =>
    ND.runOn (zeros C_padded.size) (tree N A_trans B_padded)) C_padded
  ND.ofM (extract N C_padded)

end Verif.KernelTest
