import Verif.Model.Variants64
/-
The tiled kernels (/repo/src/variants/combined.cpp, /repo/src/reference_kernels/kernel_tiled.cpp,
kernel_test.cpp) with `size_t` arithmetic modulo 2^64.  Line numbers c: combined.cpp,
t: kernel_tiled.cpp.  The parallel loops are canonical OpenMP loops, whose number of iterations is
computed before they start (`steps`).
-/
namespace Verif.Size64
variable {α : Type} [Arith α]

namespace Tiled
open _root_.Verif.Tiled (Blocking Padded V4 Acc verify_blocking_setup padOf X_REG Y_REG)

/-- c:61–109, t:64–112: the constructors. -/
def setup (b : Blocking) (N : Nat) (A_org B_org : Array α) : M (Padded α) := do
  verify_blocking_setup b
  let k_pad := padOf N b.L3_K_STEP
  let x_pad := padOf N b.L3_X
  let y_pad := padOf N b.L3_Y
  let X_size := u64 (N + x_pad)
  let Y_size := u64 (N + y_pad)
  let K_size := u64 (N + k_pad)
  let A ← forStep 0 N 1 (zeros (u64 (X_size * K_size))) fun x A =>
    forStep 0 N 1 A fun k A => do
      let v ← rdAt A_org (u64 (x * N + k))
      wrAt A (u64 (x * K_size + k)) v
  let B ← forStep 0 N 1 (zeros (u64 (K_size * Y_size))) fun y B =>
    forStep 0 N 1 B fun k B => do
      let v ← rdAt B_org (u64 (k * N + y))
      wrAt B (u64 (k * Y_size + y)) v
  pure ⟨X_size, Y_size, K_size, A, B⟩

/-- c:132–145, t:125–138: `A` as matrix of transposed L1 tiles. -/
def tileA (b : Blocking) (p : Padded α) : M (Array α) :=
  forStep 0 (p.X_size / b.L1_X) 1 (zeros (u64 (p.K_size * p.X_size))) fun l1_x A_trans =>
    forStep 0 (p.K_size / b.L1_K_STEP) 1 A_trans fun l1_k A_trans =>
      let base_index := u64 ((b.L1_X * b.L1_K_STEP) * (l1_k * (p.X_size / b.L1_X) + l1_x))
      forStep 0 b.L1_X 1 A_trans fun x A_trans =>
        forStep 0 b.L1_K_STEP 1 A_trans fun k A_trans => do
          let v ← rd p.A (u64 ((l1_x * b.L1_X + x) * p.K_size + (l1_k * b.L1_K_STEP + k)))
          wr A_trans (u64 (base_index + k * b.L1_X + x)) v

/-- c:148–161, t:141–154: `B` as matrix of L1 tiles. -/
def tileB (b : Blocking) (p : Padded α) : M (Array α) :=
  forStep 0 (p.Y_size / b.L1_Y) 1 (zeros (u64 (p.K_size * p.Y_size))) fun l1_y B_padded =>
    forStep 0 (p.K_size / b.L1_K_STEP) 1 B_padded fun l1_k B_padded =>
      let base_index := u64 ((b.L1_Y * b.L1_K_STEP) * (l1_k * (p.Y_size / b.L1_Y) + l1_y))
      forStep 0 b.L1_Y 1 B_padded fun y B_padded =>
        forStep 0 b.L1_K_STEP 1 B_padded fun k B_padded => do
          let v ← rd p.B (u64 ((l1_k * b.L1_K_STEP + k) * p.Y_size + (l1_y * b.L1_Y + y)))
          wr B_padded (u64 (base_index + k * b.L1_Y + y)) v

/-- `double_v(&v[i], vector_aligned)`, c:221–226; the other three elements follow in memory. -/
def loadAligned (v : Array α) (i : Nat) : M (V4 α) :=
  _root_.Verif.Tiled.loadAligned v (u64 i)

/-- c:256–318: add a register to four elements that follow each other in memory. -/
def addV (n i : Nat) (acc : V4 α) : Act α Unit := _root_.Verif.Tiled.addV n (u64 i) acc

/-- c:219–254, t:297–375: the loop over `k_inner`. -/
def inner (b : Blocking) (A_trans B_padded : Array α) (A_base_index B_base_index x y : Nat) :
    M (Acc α) :=
  forStep 0 b.L1_K_STEP 1 Acc.init fun k_inner s => do
    let b_temp_1 ← loadAligned B_padded (B_base_index + k_inner * b.L1_Y + y)
    let b_temp_2 ← loadAligned B_padded (B_base_index + k_inner * b.L1_Y + (y + 4))
    let a_temp_1 := V4.splat (← rd A_trans (u64 (A_base_index + k_inner * b.L1_X + (x + 0))))
    let a_temp_2 := V4.splat (← rd A_trans (u64 (A_base_index + k_inner * b.L1_X + (x + 1))))
    let a_temp_3 := V4.splat (← rd A_trans (u64 (A_base_index + k_inner * b.L1_X + (x + 2))))
    let acc_11 := s.acc_11.mac a_temp_1 b_temp_1
    let acc_21 := s.acc_21.mac a_temp_2 b_temp_1
    let acc_12 := s.acc_12.mac a_temp_1 b_temp_2
    let acc_22 := s.acc_22.mac a_temp_2 b_temp_2
    let a_temp_4 := V4.splat (← rd A_trans (u64 (A_base_index + k_inner * b.L1_X + (x + 3))))
    let a_temp_5 := V4.splat (← rd A_trans (u64 (A_base_index + k_inner * b.L1_X + (x + 4))))
    let acc_31 := s.acc_31.mac a_temp_3 b_temp_1
    let acc_32 := s.acc_32.mac a_temp_3 b_temp_2
    let acc_41 := s.acc_41.mac a_temp_4 b_temp_1
    let acc_51 := s.acc_51.mac a_temp_5 b_temp_1
    let acc_42 := s.acc_42.mac a_temp_4 b_temp_2
    let acc_52 := s.acc_52.mac a_temp_5 b_temp_2
    pure ⟨acc_11, acc_21, acc_31, acc_41, acc_51, acc_12, acc_22, acc_32, acc_42, acc_52⟩

/-- c:192–320, t:248–473: one L1 block. -/
def block (b : Blocking) (X_size Y_size : Nat) (A_trans B_padded : Array α) (l1_x l1_y l1_k : Nat) :
    Act α Unit :=
  let l1_block_x := l1_x / b.L1_X
  let l1_block_y := l1_y / b.L1_Y
  let C_base_index := u64 ((b.L1_X * b.L1_Y) * (l1_block_x * (Y_size / b.L1_Y) + l1_block_y))
  let l1_block_k := l1_k / b.L1_K_STEP
  let A_base_index := u64 ((b.L1_X * b.L1_K_STEP) * (l1_block_k * (X_size / b.L1_X) + l1_block_x))
  let B_base_index := u64 ((b.L1_Y * b.L1_K_STEP) * (l1_block_k * (Y_size / b.L1_Y) + l1_block_y))
  let n := u64 (X_size * Y_size)
  for64 0 b.L1_X X_REG () fun x _ =>
    for64 0 b.L1_Y Y_REG () fun y _ => do
      let s ← Act.ofM (inner b A_trans B_padded A_base_index B_base_index x y)
      addV n (C_base_index + (x + 0) * b.L1_Y + y) s.acc_11
      addV n (C_base_index + (x + 1) * b.L1_Y + y) s.acc_21
      addV n (C_base_index + (x + 2) * b.L1_Y + y) s.acc_31
      addV n (C_base_index + (x + 3) * b.L1_Y + y) s.acc_41
      addV n (C_base_index + (x + 4) * b.L1_Y + y) s.acc_51
      addV n (C_base_index + (x + 0) * b.L1_Y + (y + 4)) s.acc_12
      addV n (C_base_index + (x + 1) * b.L1_Y + (y + 4)) s.acc_22
      addV n (C_base_index + (x + 2) * b.L1_Y + (y + 4)) s.acc_32
      addV n (C_base_index + (x + 3) * b.L1_Y + (y + 4)) s.acc_42
      addV n (C_base_index + (x + 4) * b.L1_Y + (y + 4)) s.acc_52

/-- c:337–354, t:518–535: extract the result from the tiles, skipping the padding. -/
def extract (b : Blocking) (N X_size Y_size : Nat) (C_padded : Array α) : M (Array α) :=
  forStep 0 (X_size / b.L1_X) 1 (zeros (u64 (N * N))) fun l1_x C_return =>
    forStep 0 (Y_size / b.L1_Y) 1 C_return fun l1_y C_return =>
      let base_index := u64 ((b.L1_X * b.L1_Y) * (l1_x * (Y_size / b.L1_Y) + l1_y))
      forStep 0 b.L1_X 1 C_return fun x C_return =>
        forStep 0 b.L1_Y 1 C_return fun y C_return =>
          if u64 (l1_x * b.L1_X + x) < N ∧ u64 (l1_y * b.L1_Y + y) < N then do
            let v ← rdAt C_padded (u64 (base_index + x * b.L1_Y + y))
            wrAt C_return (u64 ((l1_x * b.L1_X + x) * N + (l1_y * b.L1_Y + y))) v
          else pure C_return

end Tiled

namespace KernelTiled
open _root_.Verif.Size64.Tiled
open _root_.Verif.Tiled (Blocking)

/-- kernel_tiled.cpp:240–482: one iteration of the parallel loops. -/
def task (b : Blocking) (X_size Y_size K_size : Nat) (A_trans B_padded : Array α)
    (l3_x l3_y : Nat) : Act α Unit :=
  for64 0 K_size b.L3_K_STEP () fun l3_k _ =>
    for64 l3_x (u64 (l3_x + b.L3_X)) b.L2_X () fun l2_x _ =>
      for64 l3_y (u64 (l3_y + b.L3_Y)) b.L2_Y () fun l2_y _ =>
        for64 l3_k (u64 (l3_k + b.L3_K_STEP)) b.L2_K_STEP () fun l2_k _ =>
          for64 l2_x (u64 (l2_x + b.L2_X)) b.L1_X () fun l1_x _ =>
            for64 l2_y (u64 (l2_y + b.L2_Y)) b.L1_Y () fun l1_y _ =>
              for64 l2_k (u64 (l2_k + b.L2_K_STEP)) b.L1_K_STEP () fun l1_k _ =>
                block b X_size Y_size A_trans B_padded l1_x l1_y l1_k

/-- kernel_tiled.cpp:237–485: `omp parallel for collapse(2)`. -/
def tree (b : Blocking) (X_size Y_size K_size : Nat) (A_trans B_padded : Array α) : Tree α :=
  .par (((steps 0 X_size b.L3_X).flatMap fun l3_x => (steps 0 Y_size b.L3_Y).map fun l3_y =>
    (l3_x, l3_y)).map fun q => .act (task b X_size Y_size K_size A_trans B_padded q.1 q.2))

/-- kernel_tiled.cpp:64–112 (constructor) and 114–546 `matrix_multiply`. -/
def matrix_multiply (b : Blocking) (N : Nat) (A_org B_org : Array α) (_transposed : Bool)
    (repetitions : Nat) : ND (Array α) := do
  let p ← ND.ofM (setup b N A_org B_org)
  let C_padded := zeros (u64 (p.X_size * p.Y_size))
  let A_trans ← ND.ofM (tileA b p)
  let B_padded ← ND.ofM (tileB b p)
  let C_padded ← (List.range repetitions).foldlM (fun (C_padded : Array α) _ =>
    ND.runOn (zeros C_padded.size) (tree b p.X_size p.Y_size p.K_size A_trans B_padded)) C_padded
  ND.ofM (extract b N p.X_size p.Y_size C_padded)

end KernelTiled

namespace Combined
open _root_.Verif.Size64.Tiled
open _root_.Verif.Tiled (Blocking Padded)
open _root_.Verif.IndexIterator (Policy)
open _root_.Verif.Combined (clearFirst policy)

/-- combined.cpp:121–127 (the result is not used later on). -/
def A_trans_untiled (p : Padded α) : M (Array α) :=
  forStep 0 p.K_size 1 (zeros (u64 (p.K_size * p.X_size))) fun i v =>
    forStep 0 p.X_size 1 v fun j v => do
      let x ← rd p.A (u64 (j * p.K_size + i))
      wr v (u64 (i * p.X_size + j)) x

/-- combined.cpp:189–326: the function called for each `(l1_x, l1_y, l1_k)`. -/
def body (b : Blocking) (X_size Y_size : Nat) (A_trans B_padded : Array α) (p : List Nat) :
    Act α Unit := do
  block b X_size Y_size A_trans B_padded (p.getD 0 0) (p.getD 1 0) (p.getD 2 0)
  clearFirst

/-- combined.cpp:187–326: one repetition. -/
def tree (b : Blocking) (pol : Policy) (X_size Y_size K_size : Nat) (A_trans B_padded : Array α) :
    Tree α :=
  (IndexIterator.iterate_indices 3 pol [0, 0, 0] [X_size, Y_size, K_size]).toTree
    (body b X_size Y_size A_trans B_padded)

/-- combined.cpp:61–109 (constructor) and 111–373 `matrix_multiply`. -/
def matrix_multiply (b : Blocking) (N : Nat) (A_org B_org : Array α) (repetitions : Nat) :
    ND (Array α) := do
  let p ← ND.ofM (setup b N A_org B_org)
  let C_padded := zeros (u64 (p.X_size * p.Y_size))
  let _ ← ND.ofM (A_trans_untiled p)
  let A_trans ← ND.ofM (tileA b p)
  let B_padded ← ND.ofM (tileB b p)
  let C_padded ← (List.range repetitions).foldlM (fun C_padded _ => do
    let pol ← ND.ofM (policy b)
    ND.runOn C_padded (tree b pol p.X_size p.Y_size p.K_size A_trans B_padded)) C_padded
  ND.ofM (extract b N p.X_size p.Y_size C_padded)

end Combined

namespace KernelTest
open _root_.Verif.Size64.Tiled
open _root_.Verif.Tiled (V4 Acc)
open _root_.Verif.KernelTest (PADDING L3_X L3_Y L3_K_STEP L2_X L2_Y L2_K_STEP L1_X L1_Y L1_K_STEP X_REG
  Y_REG)

/-- kernel_test.cpp:31–37 `A_padded` (not used later on). -/
def padA (N : Nat) (A : Array α) : M (Array α) :=
  forStep 0 N 1 (zeros (u64 ((N + PADDING) * (N + PADDING)))) fun i A_padded =>
    forStep 0 N 1 A_padded fun j A_padded => do
      let v ← rd A (u64 (i * N + j))
      wr A_padded (u64 (i * (N + PADDING) + j)) v

/-- kernel_test.cpp:40–46 `A_trans` -/
def transA (N : Nat) (A : Array α) : M (Array α) :=
  forStep 0 N 1 (zeros (u64 ((N + PADDING) * (N + PADDING)))) fun i A_trans =>
    forStep 0 N 1 A_trans fun j A_trans => do
      let v ← rd A (u64 (j * N + i))
      wr A_trans (u64 (i * (N + PADDING) + j)) v

/-- kernel_test.cpp:48–54 `B_padded` -/
def padB (N : Nat) (B : Array α) : M (Array α) :=
  forStep 0 N 1 (zeros (u64 ((N + PADDING) * (N + PADDING)))) fun i B_padded =>
    forStep 0 N 1 B_padded fun j B_padded => do
      let v ← rd B (u64 (i * N + j))
      wr B_padded (u64 (i * (N + PADDING) + j)) v

/-- kernel_test.cpp:102–138: one iteration of the loop over `k_inner`. -/
def step (N : Nat) (A_trans B_padded : Array α) (x y k_inner : Nat)
    (s : Acc α × V4 α × V4 α) : M (Acc α × V4 α × V4 α) := do
  let acc := s.1
  let b_temp_1 := s.2.1
  let b_temp_2 := s.2.2
  let a_temp_1 := V4.splat (← rd A_trans (u64 (k_inner * (N + PADDING) + (x + 0))))
  let a_temp_2 := V4.splat (← rd A_trans (u64 (k_inner * (N + PADDING) + (x + 1))))
  let a_temp_3 := V4.splat (← rd A_trans (u64 (k_inner * (N + PADDING) + (x + 2))))
  let acc_11 := acc.acc_11.mac a_temp_1 b_temp_1
  let acc_21 := acc.acc_21.mac a_temp_2 b_temp_1
  let acc_12 := acc.acc_12.mac a_temp_1 b_temp_2
  let acc_22 := acc.acc_22.mac a_temp_2 b_temp_2
  let a_temp_4 := V4.splat (← rd A_trans (u64 (k_inner * (N + PADDING) + (x + 3))))
  let a_temp_5 := V4.splat (← rd A_trans (u64 (k_inner * (N + PADDING) + (x + 4))))
  let acc_31 := acc.acc_31.mac a_temp_3 b_temp_1
  let acc_41 := acc.acc_41.mac a_temp_4 b_temp_1
  let acc_51 := acc.acc_51.mac a_temp_5 b_temp_1
  let b_temp_1 ← loadAligned B_padded ((k_inner + 1) * (N + PADDING) + y)
  let acc_42 := acc.acc_42.mac a_temp_4 b_temp_2
  let acc_52 := acc.acc_52.mac a_temp_5 b_temp_2
  let acc_32 := acc.acc_32.mac a_temp_3 b_temp_2
  let b_temp_2 ← loadAligned B_padded ((k_inner + 1) * (N + PADDING) + (y + 4))
  pure (⟨acc_11, acc_21, acc_31, acc_41, acc_51, acc_12, acc_22, acc_32, acc_42, acc_52⟩,
    b_temp_1, b_temp_2)

/-- kernel_test.cpp:80–139: the accumulators of one register block. -/
def inner (N : Nat) (A_trans B_padded : Array α) (l1_k x y : Nat) : M (Acc α) := do
  let b_temp_1 ← loadAligned B_padded (l1_k * (N + PADDING) + y)
  let b_temp_2 ← loadAligned B_padded (l1_k * (N + PADDING) + (y + 4))
  let s ← for64 l1_k (u64 (l1_k + L1_K_STEP)) 1 (Acc.init, b_temp_1, b_temp_2) fun k_inner s =>
    step N A_trans B_padded x y k_inner s
  pure s.1

/-- `if (c) { … }` around one of the updates of kernel_test.cpp:146–167, 189–210. -/
def addIf (c : Prop) [Decidable c] (n i : Nat) (acc : V4 α) : Act α Unit :=
  if c then addV n i acc else pure ()

/-- kernel_test.cpp:141–228: add the accumulators to the result. -/
def store (N l1_x x y : Nat) (s : Acc α) : Act α Unit := do
  let n := u64 ((N + PADDING) * (N + PADDING))
  let inside d := u64 (x + d) < u64 (l1_x + L1_X)
  addV n ((x + 0) * (N + PADDING) + y) s.acc_11
  addIf (inside 1) n ((x + 1) * (N + PADDING) + y) s.acc_21
  addIf (inside 2) n ((x + 2) * (N + PADDING) + y) s.acc_31
  addIf (inside 3) n ((x + 3) * (N + PADDING) + y) s.acc_41
  addIf (inside 4) n ((x + 4) * (N + PADDING) + y) s.acc_51
  addV n ((x + 0) * (N + PADDING) + (y + 4)) s.acc_12
  addIf (inside 1) n ((x + 1) * (N + PADDING) + (y + 4)) s.acc_22
  addIf (inside 2) n ((x + 2) * (N + PADDING) + (y + 4)) s.acc_32
  addIf (inside 3) n ((x + 3) * (N + PADDING) + (y + 4)) s.acc_42
  addIf (inside 4) n ((x + 4) * (N + PADDING) + (y + 4)) s.acc_52

/-- kernel_test.cpp:77–230: one L1 block. -/
def block (N : Nat) (A_trans B_padded : Array α) (l1_x l1_y l1_k : Nat) : Act α Unit :=
  for64 (u64 (l1_x + 0)) (u64 (l1_x + L1_X)) X_REG () fun x _ =>
    for64 (u64 (l1_y + 0)) (u64 (l1_y + L1_Y)) Y_REG () fun y _ => do
      let s ← Act.ofM (inner N A_trans B_padded l1_k x y)
      store N l1_x x y s

/-- kernel_test.cpp:65–237: one iteration of the parallel loops. -/
def task (N : Nat) (A_trans B_padded : Array α) (l3_x l3_y : Nat) : Act α Unit :=
  for64 0 N L3_K_STEP () fun l3_k _ =>
    for64 l3_x (u64 (l3_x + L3_X)) L2_X () fun l2_x _ =>
      for64 l3_y (u64 (l3_y + L3_Y)) L2_Y () fun l2_y _ =>
        for64 l3_k (u64 (l3_k + L3_K_STEP)) L2_K_STEP () fun l2_k _ =>
          for64 l2_x (u64 (l2_x + L2_X)) L1_X () fun l1_x _ =>
            for64 l2_y (u64 (l2_y + L2_Y)) L1_Y () fun l1_y _ =>
              for64 l2_k (u64 (l2_k + L2_K_STEP)) L1_K_STEP () fun l1_k _ =>
                block N A_trans B_padded l1_x l1_y l1_k

/-- kernel_test.cpp:62–239: `omp parallel for collapse(2)`. -/
def tree (N : Nat) (A_trans B_padded : Array α) : Tree α :=
  .par (((steps 0 N L3_X).flatMap fun l3_x => (steps 0 N L3_Y).map fun l3_y =>
    (l3_x, l3_y)).map fun q => .act (task N A_trans B_padded q.1 q.2))

/-- kernel_test.cpp:242–249: copy the result without the padding. -/
def extract (N : Nat) (C_padded : Array α) : M (Array α) :=
  forStep 0 N 1 (zeros (u64 (N * N))) fun i C =>
    forStep 0 N 1 C fun j C => do
      let v ← rd C_padded (u64 (i * (N + PADDING) + j))
      wr C (u64 (i * N + j)) v

/-- kernel_test.cpp:21–24 (constructor) and 26–252 `matrix_multiply`. -/
def matrix_multiply (N : Nat) (A B : Array α) (_transposed : Bool) (repetitions : Nat) :
    ND (Array α) := do
  let C_padded := zeros (u64 ((N + PADDING) * (N + PADDING)))
  let _ ← ND.ofM (padA N A)
  let A_trans ← ND.ofM (transA N A)
  let B_padded ← ND.ofM (padB N B)
  let C_padded ← (List.range repetitions).foldlM (fun (C_padded : Array α) _ =>
    ND.runOn (zeros C_padded.size) (tree N A_trans B_padded)) C_padded
  ND.ofM (extract N C_padded)

end KernelTest
end Verif.Size64
