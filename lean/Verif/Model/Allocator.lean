import Verif.Core.Basic
/-
Model of /repo/src/aligned_allocator.hpp and of the function `align` of
/repo/otherExperiments/benchmark.cpp.  Addresses are natural numbers below `2 ^ 64`.
-/
namespace Verif.Allocator

/-- `std::align(alignment, size, ptr, space)` (called in aligned_allocator.hpp:26) as
specified by the C++ standard ([ptr.align]): the first address from `ptr` on that is a multiple of
`alignment`, provided that `size` bytes starting there end inside the buffer of `space` bytes at `ptr`; otherwise the null pointer. -/
def std_align (alignment size ptr space : Nat) : Option Nat :=
  let aligned := ceilDiv ptr alignment * alignment
  if aligned + size ≤ ptr + space then some aligned else none

/-- aligned_allocator.hpp:8–9: the data members; `none` is the null pointer. -/
structure Aligned where
  data : Option Nat
  p : Option Nat
  deriving DecidableEq

/-- aligned_allocator.hpp:10: the constructor. -/
def Aligned.init : Aligned := ⟨none, none⟩

/-- Blocks obtained from `new[]` (aligned_allocator.hpp:24) and not yet deleted (line 14): address
and number of bytes. -/
abbrev Heap := List (Nat × Nat)

/-- What `new char[bytes]` may return: an address other than 0 such that the block lies in the
address space and is disjoint from the blocks in use. -/
structure Fresh (h : Heap) (base bytes : Nat) : Prop where
  ne : base ≠ 0
  fits : base + bytes ≤ 2 ^ 64
  disjoint : ∀ b ∈ h, base + bytes ≤ b.1 ∨ b.1 + b.2 ≤ base
  /-- blocks of zero bytes also have their own address -/
  distinct : ∀ b ∈ h, base ≠ b.1

/-- aligned_allocator.hpp:18–32 `alloc<T>(size, alignment)`; `sizeofT` is `sizeof(T)` and `base` the
address returned by `new char[size_bytes]`.  `throw;` outside of a handler ends the program. -/
def alloc (sizeofT size alignment base : Nat) (s : Aligned) (h : Heap) : M (Nat × Aligned × Heap) :=
  if s.data.isSome then throw .terminate
  else
    let size_bytes := sizeofT * size + alignment
    match std_align alignment sizeofT base size_bytes with
    | none => throw .terminate
    | some p => pure (p, ⟨some base, some p⟩, (base, size_bytes) :: h)

/-- `delete[] ptr`, aligned_allocator.hpp:14. -/
def delete (ptr : Nat) (h : Heap) : M Heap :=
  if h.any (fun b => b.1 = ptr) then pure (h.filter fun b => b.1 ≠ ptr) else throw .badFree

/-- aligned_allocator.hpp:12–16: the destructor. -/
def Aligned.destroy (s : Aligned) (h : Heap) : M Heap :=
  match s.data with
  | some d => delete d h
  | none => pure h

/-- The implicitly generated copy constructor of the struct in aligned_allocator.hpp:7–32: both
pointers are copied. -/
def Aligned.copy (s : Aligned) : Aligned := s

/-- benchmark.cpp:10–18 `align`, with 64-bit arithmetic as written.  The result is the returned
pointer, `none` being the null pointer (`ptr` is set to the same value). -/
def align (alignment size ptr space : BitVec 64) : Option (BitVec 64) :=
  let pn := ptr
  let aligned := (pn + alignment - 1) &&& (-alignment)
  let padding := aligned - pn
  if space < size + padding then none else some aligned

end Verif.Allocator
