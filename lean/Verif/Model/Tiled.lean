import Verif.Model.IndexIterator
/-
Code shared by /repo/src/variants/combined.cpp and /repo/src/reference_kernels/kernel_tiled.cpp:
padding, tiling, the register-blocked kernel and the extraction of the result.  Line numbers are
given for both files (c: combined.cpp, t: kernel_tiled.cpp).

The block sizes are macros in the code; here they are parameters (`Blocking`), each file
instantiates them.  Simplifications: `double_v` has 4 lanes (AVX); vectors with the
`aligned_allocator<double, 32>` start at a multiple of 32 bytes, so an aligned load of element
`i` requires `i % 4 = 0`; output to the console and time measurement are left out.
-/
namespace Verif.Tiled
variable {α : Type} [Arith α]

/-- The macros of c:15–23, t:12–25. -/
structure Blocking where
  L3_X : Nat
  L3_Y : Nat
  L3_K_STEP : Nat
  L2_X : Nat
  L2_Y : Nat
  L2_K_STEP : Nat
  L1_X : Nat
  L1_Y : Nat
  L1_K_STEP : Nat

/-- c:24, t:26 `X_REG` -/
def X_REG : Nat := 5
/-- c:25, t:27 `Y_REG` -/
def Y_REG : Nat := 8

/-- c:43–59, t:46–62 `verify_blocking_setup`; `throw;` without an active exception calls
`std::terminate`. -/
def verify_blocking_setup (b : Blocking) : M Unit := do
  if ¬ (b.L2_X % b.L1_X = 0 ∧ b.L3_X % b.L2_X = 0) then throw .terminate
  if ¬ (b.L2_Y % b.L1_Y = 0 ∧ b.L3_Y % b.L2_Y = 0) then throw .terminate
  if ¬ (b.L2_K_STEP % b.L1_K_STEP = 0 ∧ b.L3_K_STEP % b.L2_K_STEP = 0) then throw .terminate

/-- c:68–71, t:71–74 and the same for the other two directions (c:72–79, t:75–82). -/
def padOf (N L3 : Nat) : Nat :=
  let pad := L3 - N % L3
  if pad = L3 then 0 else pad

/-- Members set by the constructors, c:86–88, 95, 102 and t:89–91, 98, 105. -/
structure Padded (α : Type) where
  X_size : Nat
  Y_size : Nat
  K_size : Nat
  A : Array α
  B : Array α

/-- c:61–109, t:64–112: the constructors. -/
def setup (b : Blocking) (N : Nat) (A_org B_org : Array α) : M (Padded α) := do
  verify_blocking_setup b
  let k_pad := padOf N b.L3_K_STEP
  let x_pad := padOf N b.L3_X
  let y_pad := padOf N b.L3_Y
  let X_size := N + x_pad
  let Y_size := N + y_pad
  let K_size := N + k_pad
  let A ← forStep 0 N 1 (zeros (X_size * K_size)) fun x A =>
    forStep 0 N 1 A fun k A => do
      let v ← rdAt A_org (x * N + k)
      wrAt A (x * K_size + k) v
  let B ← forStep 0 N 1 (zeros (K_size * Y_size)) fun y B =>
    forStep 0 N 1 B fun k B => do
      let v ← rdAt B_org (k * N + y)
      wrAt B (k * Y_size + y) v
  pure ⟨X_size, Y_size, K_size, A, B⟩

/-- c:132–145, t:125–138: `A` as matrix of transposed L1 tiles. -/
def tileA (b : Blocking) (p : Padded α) : M (Array α) :=
  forStep 0 (p.X_size / b.L1_X) 1 (zeros (p.K_size * p.X_size)) fun l1_x A_trans =>
    forStep 0 (p.K_size / b.L1_K_STEP) 1 A_trans fun l1_k A_trans =>
      let base_index := (b.L1_X * b.L1_K_STEP) * (l1_k * (p.X_size / b.L1_X) + l1_x)
      forStep 0 b.L1_X 1 A_trans fun x A_trans =>
        forStep 0 b.L1_K_STEP 1 A_trans fun k A_trans => do
          let v ← rd p.A ((l1_x * b.L1_X + x) * p.K_size + (l1_k * b.L1_K_STEP + k))
          wr A_trans (base_index + k * b.L1_X + x) v

/-- c:148–161, t:141–154: `B` as matrix of L1 tiles. -/
def tileB (b : Blocking) (p : Padded α) : M (Array α) :=
  forStep 0 (p.Y_size / b.L1_Y) 1 (zeros (p.K_size * p.Y_size)) fun l1_y B_padded =>
    forStep 0 (p.K_size / b.L1_K_STEP) 1 B_padded fun l1_k B_padded =>
      let base_index := (b.L1_Y * b.L1_K_STEP) * (l1_k * (p.Y_size / b.L1_Y) + l1_y)
      forStep 0 b.L1_Y 1 B_padded fun y B_padded =>
        forStep 0 b.L1_K_STEP 1 B_padded fun k B_padded => do
          let v ← rd p.B ((l1_k * b.L1_K_STEP + k) * p.Y_size + (l1_y * b.L1_Y + y))
          wr B_padded (base_index + k * b.L1_Y + y) v

/-- `Vc::double_v`, c:11, t:235. -/
structure V4 (α : Type) where
  l0 : α
  l1 : α
  l2 : α
  l3 : α

/-- `double_v v = x`, c:205–244. -/
def V4.splat (x : α) : V4 α := ⟨x, x, x, x⟩

/-- `acc += a * b`, c:235–253. -/
def V4.mac (acc a b : V4 α) : V4 α :=
  ⟨Arith.mac acc.l0 a.l0 b.l0, Arith.mac acc.l1 a.l1 b.l1, Arith.mac acc.l2 a.l2 b.l2,
    Arith.mac acc.l3 a.l3 b.l3⟩

/-- `double_v(&v[i], vector_aligned)`, c:221–226. -/
def loadAligned (v : Array α) (i : Nat) : M (V4 α) := do
  if i % 4 ≠ 0 then throw .misaligned
  let x0 ← rd v i
  let x1 ← rd v (i + 1)
  let x2 ← rd v (i + 2)
  let x3 ← rd v (i + 3)
  pure ⟨x0, x1, x2, x3⟩

/-- c:256–318: `res = double_v(&C[i], element_aligned); res += acc;
res.memstore(&C[i], element_aligned)` for a shared vector `C` of `n` elements; element by element, loads before stores. -/
def addV (n i : Nat) (acc : V4 α) : Act α Unit := do
  let r0 ← Act.read n i
  let r1 ← Act.read n (i + 1)
  let r2 ← Act.read n (i + 2)
  let r3 ← Act.read n (i + 3)
  Act.write n i (Arith.add r0 acc.l0)
  Act.write n (i + 1) (Arith.add r1 acc.l1)
  Act.write n (i + 2) (Arith.add r2 acc.l2)
  Act.write n (i + 3) (Arith.add r3 acc.l3)

/-- c:205–217, t:267–279: the accumulators. -/
structure Acc (α : Type) where
  acc_11 : V4 α
  acc_21 : V4 α
  acc_31 : V4 α
  acc_41 : V4 α
  acc_51 : V4 α
  acc_12 : V4 α
  acc_22 : V4 α
  acc_32 : V4 α
  acc_42 : V4 α
  acc_52 : V4 α

/-- c:205–217, t:267–279: all accumulators zero. -/
def Acc.init : Acc α :=
  let z := V4.splat Arith.zero
  ⟨z, z, z, z, z, z, z, z, z, z⟩

/-- c:219–254, t:297–375: the loop over `k_inner`. -/
def inner (b : Blocking) (A_trans B_padded : Array α) (A_base_index B_base_index x y : Nat) :
    M (Acc α) :=
  forStep 0 b.L1_K_STEP 1 Acc.init fun k_inner s => do
    let b_temp_1 ← loadAligned B_padded (B_base_index + k_inner * b.L1_Y + y)
    let b_temp_2 ← loadAligned B_padded (B_base_index + k_inner * b.L1_Y + (y + 4))
    let a_temp_1 := V4.splat (← rd A_trans (A_base_index + k_inner * b.L1_X + (x + 0)))
    let a_temp_2 := V4.splat (← rd A_trans (A_base_index + k_inner * b.L1_X + (x + 1)))
    let a_temp_3 := V4.splat (← rd A_trans (A_base_index + k_inner * b.L1_X + (x + 2)))
    let acc_11 := s.acc_11.mac a_temp_1 b_temp_1
    let acc_21 := s.acc_21.mac a_temp_2 b_temp_1
    let acc_12 := s.acc_12.mac a_temp_1 b_temp_2
    let acc_22 := s.acc_22.mac a_temp_2 b_temp_2
    let a_temp_4 := V4.splat (← rd A_trans (A_base_index + k_inner * b.L1_X + (x + 3)))
    let a_temp_5 := V4.splat (← rd A_trans (A_base_index + k_inner * b.L1_X + (x + 4)))
    let acc_31 := s.acc_31.mac a_temp_3 b_temp_1
    let acc_32 := s.acc_32.mac a_temp_3 b_temp_2
    let acc_41 := s.acc_41.mac a_temp_4 b_temp_1
    let acc_51 := s.acc_51.mac a_temp_5 b_temp_1
    let acc_42 := s.acc_42.mac a_temp_4 b_temp_2
    let acc_52 := s.acc_52.mac a_temp_5 b_temp_2
    pure ⟨acc_11, acc_21, acc_31, acc_41, acc_51, acc_12, acc_22, acc_32, acc_42, acc_52⟩

/-- c:192–320, t:248–473: one L1 block. In t the base indices are computed between the L1
loops. -/
def block (b : Blocking) (X_size Y_size : Nat) (A_trans B_padded : Array α) (l1_x l1_y l1_k : Nat) :
    Act α Unit :=
  let l1_block_x := l1_x / b.L1_X
  let l1_block_y := l1_y / b.L1_Y
  let C_base_index := (b.L1_X * b.L1_Y) * (l1_block_x * (Y_size / b.L1_Y) + l1_block_y)
  let l1_block_k := l1_k / b.L1_K_STEP
  let A_base_index := (b.L1_X * b.L1_K_STEP) * (l1_block_k * (X_size / b.L1_X) + l1_block_x)
  let B_base_index := (b.L1_Y * b.L1_K_STEP) * (l1_block_k * (Y_size / b.L1_Y) + l1_block_y)
  let n := X_size * Y_size
  forStep 0 b.L1_X X_REG () fun x _ =>
    forStep 0 b.L1_Y Y_REG () fun y _ => do
      let s ← Act.ofM (inner b A_trans B_padded A_base_index B_base_index x y)
      addV n (C_base_index + (x + 0) * b.L1_Y + y) s.acc_11
      addV n (C_base_index + (x + 1) * b.L1_Y + y) s.acc_21
      addV n (C_base_index + (x + 2) * b.L1_Y + y) s.acc_31
      addV n (C_base_index + (x + 3) * b.L1_Y + y) s.acc_41
      addV n (C_base_index + (x + 4) * b.L1_Y + y) s.acc_51
      addV n (C_base_index + (x + 0) * b.L1_Y + (y + 4)) s.acc_12
      addV n (C_base_index + (x + 1) * b.L1_Y + (y + 4)) s.acc_22
      addV n (C_base_index + (x + 2) * b.L1_Y + (y + 4)) s.acc_32
      addV n (C_base_index + (x + 3) * b.L1_Y + (y + 4)) s.acc_42
      addV n (C_base_index + (x + 4) * b.L1_Y + (y + 4)) s.acc_52

/-- c:337–354, t:518–535: extract the result from the tiles, skipping the padding. -/
def extract (b : Blocking) (N X_size Y_size : Nat) (C_padded : Array α) : M (Array α) :=
  forStep 0 (X_size / b.L1_X) 1 (zeros (N * N)) fun l1_x C_return =>
    forStep 0 (Y_size / b.L1_Y) 1 C_return fun l1_y C_return =>
      let base_index := (b.L1_X * b.L1_Y) * (l1_x * (Y_size / b.L1_Y) + l1_y)
      forStep 0 b.L1_X 1 C_return fun x C_return =>
        forStep 0 b.L1_Y 1 C_return fun y C_return =>
          if l1_x * b.L1_X + x < N ∧ l1_y * b.L1_Y + y < N then do
            let v ← rdAt C_padded (base_index + x * b.L1_Y + y)
            wrAt C_return ((l1_x * b.L1_X + x) * N + (l1_y * b.L1_Y + y)) v
          else pure C_return

end Verif.Tiled
