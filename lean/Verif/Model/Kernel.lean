import Verif.Core.Act
/-
Model of /repo/src/reference_kernels/kernel.hpp and
/repo/src/variants/components/multiplier.cpp.

The result vector `C` is the memory the `Act` programs operate on, `nC` its length.
`A`, `B` and the local buffers are ordinary vectors.
-/
namespace Verif.Kernel
variable {α : Type} [Arith α]

/-- kernel.hpp:18–20: loop over `k`, checked accesses. -/
def component (A B : Array α) (N x y i j : Nat) : M α :=
  forStep 0 N 1 Arith.zero fun k result_component => do
    let a ← rdAt A ((x + i) * N + k)
    let b ← rdAt B (k * N + (y + j))
    pure (Arith.mac result_component a b)

/-- kernel.hpp:15–23: the body of the `try` block. -/
def kernelBody (A B : Array α) (nC N x y blockSize : Nat) : Act α Unit :=
  forStep 0 blockSize 1 () fun i _ =>
    forStep 0 blockSize 1 () fun j _ => do
      let r ← Act.ofM (component A B N x y i j)
      Act.writeAt nC (i * blockSize + j) r

/-- kernel.hpp:11–27 `kernel::kernel`. -/
def kernel (A B : Array α) (nC N x y blockSize : Nat) : Act α Unit :=
  (kernelBody A B nC N x y blockSize).catchOutOfRange

/-- kernel.hpp:38–40: loop over `k`, unchecked accesses. -/
def componentT (A B : Array α) (N x y i j : Nat) : M α :=
  forStep 0 N 1 Arith.zero fun k result_component => do
    let a ← rd A ((x + i) * N + k)
    let b ← rd B ((y + j) * N + k)
    pure (Arith.mac result_component a b)

/-- kernel.hpp:32–44 `kernel::kernel_transposed`. -/
def kernel_transposed (A B : Array α) (nC N x y blockSize : Nat) : Act α Unit :=
  forStep 0 blockSize 1 () fun i _ =>
    forStep 0 blockSize 1 () fun j _ => do
      let r ← Act.ofM (componentT A B N x y i j)
      Act.write nC (i * blockSize + j) r

/-- kernel.hpp:79–83 (and 85–89 with `B`, `y`): copy `block_result` rows of
`block_input` elements into the small buffer. -/
def loadSmall (src : Array α) (N x k_block block_result block_input : Nat) (small : Array α) :
    M (Array α) :=
  forStep 0 block_result 1 small fun i small =>
    forStep 0 block_input 1 small fun k small => do
      let v ← rd src ((x + i) * N + k_block + k)
      wr small (i * block_input + k) v

/-- kernel.hpp:102–109: the eight accumulators. -/
structure Acc8 (α : Type) where
  r00 : α
  r01 : α
  r10 : α
  r11 : α
  r20 : α
  r21 : α
  r30 : α
  r31 : α

/-- kernel.hpp:102–109. -/
def Acc8.init : Acc8 α :=
  ⟨Arith.zero, Arith.zero, Arith.zero, Arith.zero,
   Arith.zero, Arith.zero, Arith.zero, Arith.zero⟩

/-- `r += As[p] * Bs[q]` on local buffers, kernel.hpp:112–128. -/
def macAt (As Bs : Array α) (p q : Nat) (r : α) : M α := do
  let a ← rd As p
  let b ← rd Bs q
  pure (Arith.mac r a b)

/-- kernel.hpp:111–129: innermost loop over `k`. -/
def inner8 (As Bs : Array α) (block_input i j : Nat) : M (Acc8 α) :=
  forStep 0 block_input 1 Acc8.init fun k s => do
    let r00 ← macAt As Bs ((i + 0) * block_input + k) ((j + 0) * block_input + k) s.r00
    let r01 ← macAt As Bs ((i + 0) * block_input + k) ((j + 1) * block_input + k) s.r01
    let r10 ← macAt As Bs ((i + 1) * block_input + k) ((j + 0) * block_input + k) s.r10
    let r11 ← macAt As Bs ((i + 1) * block_input + k) ((j + 1) * block_input + k) s.r11
    let r20 ← macAt As Bs ((i + 2) * block_input + k) ((j + 0) * block_input + k) s.r20
    let r21 ← macAt As Bs ((i + 2) * block_input + k) ((j + 1) * block_input + k) s.r21
    let r30 ← macAt As Bs ((i + 3) * block_input + k) ((j + 0) * block_input + k) s.r30
    let r31 ← macAt As Bs ((i + 3) * block_input + k) ((j + 1) * block_input + k) s.r31
    pure ⟨r00, r01, r10, r11, r20, r21, r30, r31⟩

/-- kernel.hpp:131–139: add the accumulators to `C`. -/
def store8 (nC block_result i j : Nat) (s : Acc8 α) : Act α Unit := do
  Act.addTo nC ((i + 0) * block_result + (j + 0)) s.r00
  Act.addTo nC ((i + 0) * block_result + (j + 1)) s.r01
  Act.addTo nC ((i + 1) * block_result + (j + 0)) s.r10
  Act.addTo nC ((i + 1) * block_result + (j + 1)) s.r11
  Act.addTo nC ((i + 2) * block_result + (j + 0)) s.r20
  Act.addTo nC ((i + 2) * block_result + (j + 1)) s.r21
  Act.addTo nC ((i + 3) * block_result + (j + 0)) s.r30
  Act.addTo nC ((i + 3) * block_result + (j + 1)) s.r31

/-- kernel.hpp:93–141: the 4×2 register-blocked multiplication of the two buffers. -/
def multSmall (As Bs : Array α) (nC block_result block_input : Nat) : Act α Unit :=
  forStep 0 block_result 4 () fun i _ =>
    forStep 0 block_result 2 () fun j _ => do
      let s ← Act.ofM (inner8 As Bs block_input i j)
      store8 nC block_result i j s

/-- kernel.hpp:54–149 `kernel::kernel_transposed_blocked`; the two buffers live across
the iterations of the `k_block` loop. -/
def kernel_transposed_blocked (A B : Array α) (nC N x y block_result block_input : Nat) :
    Act α Unit := do
  let _ ← forStep 0 N block_input
    ((zeros (block_input * block_result), zeros (block_input * block_result)) :
      Array α × Array α)
    fun k_block (As, Bs) => do
      let As ← Act.ofM (loadSmall A N x k_block block_result block_input As)
      let Bs ← Act.ofM (loadSmall B N y k_block block_result block_input Bs)
      multSmall As Bs nC block_result block_input
      pure (As, Bs)
  pure ()

/-- multiplier.hpp:12–30: the component state (without `verbose`). -/
structure Multiplier (α : Type) where
  N : Nat
  A : Array α
  B : Array α
  transposed : Bool
  block_input : Nat

/-- multiplier.cpp:16–35 `multiplier::calculate_submatrix`. -/
def calculate_submatrix (s : Multiplier α) (x y block_result : Nat) : M (Array α) :=
  let C : Array α := zeros (block_result * block_result)
  if !s.transposed then
    (kernel s.A s.B C.size s.N x y block_result).execOn C
  else if s.block_input = 0 ∨ block_result < 4 then
    (kernel_transposed s.A s.B C.size s.N x y block_result).execOn C
  else
    (kernel_transposed_blocked s.A s.B C.size s.N x y block_result s.block_input).execOn C

end Verif.Kernel
