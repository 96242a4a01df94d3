import Verif.Model.ExperimentsBlocked
import Verif.Model.Allocator
/-
Model of `main` in /repo/otherExperiments/benchmark.cpp.  Not modelled: the text printed to the
console except the number after "check: ", time measurement, the floating-point number `flops`.
The conversion of `n` to `uint32_t` in the calls is exact for `n = 4096`.
-/
namespace Verif.Benchmark
open Experiments
variable {α : Type} [Arith α]

/-- What the program gets from its environment: the literals `1.0` and `2.0`, the function `sqrt`,
the address and the contents of the five blocks allocated in lines 24–28 (numbered from 0 in the
order of the declarations), whether the kernels are compiled with FMA instructions, `__GNUC__`, the
uninitialised automatic arrays of the kernels with block sizes `bs` and `kc`, and the positions of
the automatic arrays `result`, `AA` and `BB`, counted in doubles. -/
structure Env (α : Type) where
  one : α
  two : α
  sqrt : α → α
  base : Nat → Nat
  block : Nat → Array α
  fma : Bool
  gnuc : Nat
  stack : Nat → Nat → Stack α
  oResult : Nat
  oAA : Nat
  oBB : Nat

/-- benchmark.cpp:24–39: the pointer returned by `align(64, sizeof(double), …, n * n + 8)` for block
number `b`; dereferencing the null pointer is an access out of bounds. -/
def pointer (e : Env α) (n b : Nat) : M Nat :=
  match Allocator.align 64 8 (BitVec.ofNat 64 (e.base b)) (BitVec.ofNat 64 (n * n + 8)) with
  | none => throw .oob
  | some p => pure p.toNat

/-- The `n * n` doubles from the address `p` on, as far as they belong to block number `b`.
(`new double[]` returns an address divisible by 8, so `p - base` is a multiple of `sizeof(double)`.)
Simplification: the up to 8 further doubles at the end of the block are regarded as out of bounds. -/
def view (e : Env α) (n b p : Nat) : Array α :=
  (e.block b).extract ((p - e.base b) / 8) ((p - e.base b) / 8 + n * n)

/-- benchmark.cpp:31–39: the five matrices. -/
structure Bufs (α : Type) where
  A : Array α
  ATransposed : Array α
  B : Array α
  BTransposed : Array α
  C : Array α

/-- benchmark.cpp:45–49 (`p = i * n + j`) and 51–55 (`p = j * n + i`): one entry of the identity
matrix. -/
def wrUnit (e : Env α) (i j p : Nat) (B : Array α) : M (Array α) :=
  if i = j then wr B p e.one else wr B p Arith.zero

/-- benchmark.cpp:43–58: the body of the loops over `i` and `j`. -/
def fillAt (e : Env α) (n i j : Nat) (s : Bufs α) : M (Bufs α) := do
  let A ← wr s.A (i * n + j) e.two
  let ATransposed ← wr s.ATransposed (j * n + i) e.two
  let B ← wrUnit e i j (i * n + j) s.B
  let BTransposed ← wrUnit e i j (j * n + i) s.BTransposed
  let C ← wr s.C (i * n + j) Arith.zero
  pure ⟨A, ATransposed, B, BTransposed, C⟩

/-- benchmark.cpp:41–60: fill the matrices. -/
def fill (e : Env α) (n : Nat) (s : Bufs α) : M (Bufs α) :=
  forStep 0 n 1 s fun i s => forStep 0 n 1 s fun j s => fillAt e n i j s

/-- benchmark.cpp:74–130: the kernel selected by the first argument and the matrices it gets;
`pA`, `pB`, `pBT`, `pC` are the addresses of the matrices.  `none`: unknown name. -/
def kernel (e : Env α) (n : Nat) (s : Bufs α) (pA pB pBT pC : Nat) (name : String) :
    Option (Array α → ND (Array α)) :=
  if name = "naive" then some fun C => multNaive s.A s.B C n
  else if name = "transposed" then some fun C => ND.ofM (multTransposed s.A s.BTransposed C n)
  else if name = "counter" then some fun C => multCounter s.A s.BTransposed C n
  else if name = "exchanged" then some fun C => multExchanged (e.stack 128 128) s.A s.B C n
  else if name = "blocked2" then some fun C => multBlocked2 s.A s.BTransposed C n
  else if name = "blocked4" then some fun C => multBlocked4 s.A s.BTransposed C n
  else if name = "asm" then some fun C => multASM e.gnuc (pA / 8) (pBT / 8) s.A s.BTransposed C n
  else if name = "gpu" then some fun C => multGPU (e.stack 128 128) s.A s.BTransposed C n
  else if name = "gpuasm" then
    some fun C => multGPUASM e.fma e.oAA e.oBB (e.stack 256 256) s.A s.BTransposed C n
  else if name = "register" then
    some fun C => multRegister e.fma e.oResult e.oBB (e.stack 256 64) s.A s.B C n
  else if name = "intrinLoop" then
    some fun C => multIntrinLoop (pA / 8) (pB / 8) (pC / 8) (e.stack 128 128) s.A s.B C n
  else none

/-- benchmark.cpp:143–148: the sum of the squares of the entries. -/
def squares (n : Nat) (C : Array α) : M α :=
  forStep 0 n 1 Arith.zero fun i check =>
    forStep 0 n 1 check fun j check => do
      let x ← rd C (i * n + j)
      let y ← rd C (i * n + j)
      pure (Arith.mac check x y)

/-- How the program ends: lines 67–70, lines 127–130, or with the matrix `C` and the number printed
after "check: ".  The exit status is always 0. -/
inductive Report (α : Type) where
  | nothing
  | unknown
  | done (C : Array α) (check : α)

/-- benchmark.cpp:62 `iter` -/
def iter : Nat := 1

/-- benchmark.cpp:67–155: run the selected kernel and compute the check.  `argv[1]` is outside of
`argv` if `argc = 0`. -/
def select (e : Env α) (n : Nat) (s : Bufs α) (pA pB pBT pC : Nat) (argv : List String) :
    ND (Report α) :=
  match argv with
  | [] => throw .oob
  | [_] => pure .nothing
  | _ :: name :: _ =>
    match kernel e n s pA pB pBT pC name with
    | none => pure .unknown
    | some mult => do
      let C ← forStep 0 iter 1 s.C fun _ C => mult C
      let check ← ND.ofM (squares n C)
      pure (.done C (e.sqrt check))

/-- benchmark.cpp:20–155 `main` with `n` as a parameter. -/
def run (e : Env α) (n : Nat) (argv : List String) : ND (Report α) := do
  let pA ← ND.ofM (pointer e n 0)
  let pAT ← ND.ofM (pointer e n 1)
  let pB ← ND.ofM (pointer e n 2)
  let pBT ← ND.ofM (pointer e n 3)
  let pC ← ND.ofM (pointer e n 4)
  let s ← ND.ofM (fill e n
    ⟨view e n 0 pA, view e n 1 pAT, view e n 2 pB, view e n 3 pBT, view e n 4 pC⟩)
  select e n s pA pB pBT pC argv

/-- benchmark.cpp:20–155 `main`: `n = 4096` (line 22). -/
def main (e : Env α) (argv : List String) : ND (Report α) := run e 4096 argv

end Verif.Benchmark
