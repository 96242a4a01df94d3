import Verif.Model.Experiments
import Verif.Model.Tiled
/-
Model of the larger kernels in /repo/otherExperiments: multExchanged.cpp, multGPU.cpp,
multGPUASM.cpp, multRegister.cpp, multIntrinLoop.cpp, multASM.cpp.

The block sizes are macros in the code; the functions below take them as parameters and the kernels
instantiate them.  The arrays `result`, `AA`, `BB` (and the register arrays) are uninitialised
automatic variables: their contents before the first write are the parameter `Stack`.
Simplifications: `_mm256_fmadd_pd` and the pair `_mm256_mul_pd`, `_mm256_add_pd` are both `V4.mac`;
arrays of four doubles that are filled completely where they are declared are a `V4`;
`omp_set_num_threads` has no effect on the set of executions (all interleavings are considered).
Addresses are counted in doubles; `o…` is the distance of an array from the preceding address
divisible by 32.
-/
namespace Verif.Experiments
open Tiled (V4)
variable {α : Type} [Arith α]

/-- Contents of the uninitialised automatic arrays of an iteration (declared in the lines given at
`Stack.Sized`, e.g. multExchanged.cpp:20, 30, 37): `result` of the block `(i, j)`, `AA` and `BB` of
the block `(i, j, kBlock)`, and the register array. -/
structure Stack (α : Type) where
  result : Nat → Nat → Array α
  AA : Nat → Nat → Nat → Array α
  BB : Nat → Nat → Nat → Array α
  resultReg : Array (V4 α)

/-- The automatic arrays have the sizes declared in the code: multExchanged.cpp:20, 30, 37,
multGPU.cpp:18, 28, 35, multGPUASM.cpp:24, 34, 41, multRegister.cpp:21, 32, 41, 57,
multIntrinLoop.cpp:21, 34, 45, 65. -/
structure Stack.Sized (st : Stack α) (bs kc : Nat) : Prop where
  result : ∀ i j, (st.result i j).size = bs * bs
  AA : ∀ i j k, (st.AA i j k).size = bs * kc
  BB : ∀ i j k, (st.BB i j k).size = kc * bs
  resultReg : st.resultReg.size = 16

/-- multExchanged.cpp:22–26, multGPU.cpp:20–24, multGPUASM.cpp:26–30, multRegister.cpp:23–27:
fill `result` with zeros. -/
def clear (bs : Nat) (result : Array α) : M (Array α) :=
  forStep 0 bs 1 result fun ii result =>
    forStep 0 bs 1 result fun jj result =>
      wr result (ii * bs + jj) Arith.zero

/-- Copy a block of `bs` rows and `kc` columns at `(x, kBlock)`: `AA` in multExchanged.cpp:30–35,
multGPU.cpp:28–33, multGPUASM.cpp:34–39, multRegister.cpp:32–39 and `BB` in multGPU.cpp:35–40,
multGPUASM.cpp:41–46. -/
def loadRows (src : Array α) (n x kBlock bs kc : Nat) (AA : Array α) : M (Array α) :=
  forStep 0 bs 1 AA fun ii AA =>
    forStep 0 kc 1 AA fun k AA => do
      let v ← rd src ((x + ii) * n + kBlock + k)
      wr AA (ii * kc + k) v

/-- multExchanged.cpp:101–105, multGPU.cpp:69–73, multGPUASM.cpp:269–273, multRegister.cpp:173–177:
copy `result` to `C`. -/
def storeBlock (n nC i j bs : Nat) (result : Array α) : Act α Unit :=
  forStep 0 bs 1 () fun ii _ =>
    forStep 0 bs 1 () fun jj _ => do
      let v ← Act.ofM (rd result (ii * bs + jj))
      Act.write nC ((i + ii) * n + (j + jj)) v

/-- The parallel loop over `i` and the loop over `j` of all these kernels (multExchanged.cpp:16–18,
multGPU.cpp:14–16, multRegister.cpp:17–19, multIntrinLoop.cpp:17–19, multGPUASM.cpp:20–22):
compute the block `(i, j)` in automatic arrays, then store it. -/
def blockTree (n bs : Nat) (compute : Nat → Nat → M (Array α))
    (store : Nat → Nat → Array α → Act α Unit) : Tree α :=
  .par ((steps 0 n bs).map fun i => .act <|
    forStep 0 n bs () fun j _ => do
      let result ← Act.ofM (compute i j)
      store i j result)

/-- `result[p] += v`, multGPU.cpp:63, multGPUASM.cpp:221–239. -/
def addAt (result : Array α) (p : Nat) (v : α) : M (Array α) := do
  let r ← rd result p
  wr result p (Arith.add r v)

/-- `result[p] += a * BB[pb]`, multExchanged.cpp:75–93. -/
def macCell (BB : Array α) (result : Array α) (p : Nat) (a : α) (pb : Nat) : M (Array α) := do
  let b ← rd BB pb
  let r ← rd result p
  wr result p (Arith.mac r a b)

/-- Element `kk` of an array of four doubles: `Aregister1[kk]` (multExchanged.cpp:75),
`resultChunk1[kk]` (multGPU.cpp:63), `out[kk]` (multGPUASM.cpp:221). -/
def lane (v : V4 α) (kk : Nat) : M α :=
  match kk with
  | 0 => pure v.l0
  | 1 => pure v.l1
  | 2 => pure v.l2
  | 3 => pure v.l3
  | _ => throw .oob

/-- `v[i … i+3]`, no alignment required. -/
def load4 (v : Array α) (i : Nat) : M (V4 α) := do
  let x0 ← rd v i
  let x1 ← rd v (i + 1)
  let x2 ← rd v (i + 2)
  let x3 ← rd v (i + 3)
  pure ⟨x0, x1, x2, x3⟩

/-- `_mm256_load_pd(v + i)` where `v` is `o` doubles away from an address divisible by 32. -/
def load (o : Nat) (v : Array α) (i : Nat) : M (V4 α) :=
  if (o + i) % 4 ≠ 0 then throw .misaligned else load4 v i

/-- `_mm256_store_pd(v + i, x)`. -/
def store (o : Nat) (v : Array α) (i : Nat) (x : V4 α) : M (Array α) :=
  if (o + i) % 4 ≠ 0 then throw .misaligned else do
    let v ← wr v i x.l0
    let v ← wr v (i + 1) x.l1
    let v ← wr v (i + 2) x.l2
    wr v (i + 3) x.l3

/-! ### multExchanged -/

/-- multExchanged.cpp:37–42: `BB` is the transposed block of `B`. -/
def loadCols (src : Array α) (n y kBlock bs kc : Nat) (BB : Array α) : M (Array α) :=
  forStep 0 kc 1 BB fun k BB =>
    forStep 0 bs 1 BB fun jj BB => do
      let v ← rd src ((kBlock + k) * n + (y + jj))
      wr BB (jj * kc + k) v

/-- multExchanged.cpp:75–93: the sixteen updates of `result`. -/
def exchangedStep (bs kc : Nat) (BB : Array α) (a1 a2 a3 a4 : α) (ii jj kk : Nat)
    (result : Array α) : M (Array α) := do
  let result ← macCell BB result ((ii + 0) * bs + jj + 0) a1 ((jj + 0) * kc + kk)
  let result ← macCell BB result ((ii + 0) * bs + jj + 1) a1 ((jj + 1) * kc + kk)
  let result ← macCell BB result ((ii + 0) * bs + jj + 2) a1 ((jj + 2) * kc + kk)
  let result ← macCell BB result ((ii + 0) * bs + jj + 3) a1 ((jj + 3) * kc + kk)
  let result ← macCell BB result ((ii + 1) * bs + jj + 0) a2 ((jj + 0) * kc + kk)
  let result ← macCell BB result ((ii + 1) * bs + jj + 1) a2 ((jj + 1) * kc + kk)
  let result ← macCell BB result ((ii + 1) * bs + jj + 2) a2 ((jj + 2) * kc + kk)
  let result ← macCell BB result ((ii + 1) * bs + jj + 3) a2 ((jj + 3) * kc + kk)
  let result ← macCell BB result ((ii + 2) * bs + jj + 0) a3 ((jj + 0) * kc + kk)
  let result ← macCell BB result ((ii + 2) * bs + jj + 1) a3 ((jj + 1) * kc + kk)
  let result ← macCell BB result ((ii + 2) * bs + jj + 2) a3 ((jj + 2) * kc + kk)
  let result ← macCell BB result ((ii + 2) * bs + jj + 3) a3 ((jj + 3) * kc + kk)
  let result ← macCell BB result ((ii + 3) * bs + jj + 0) a4 ((jj + 0) * kc + kk)
  let result ← macCell BB result ((ii + 3) * bs + jj + 1) a4 ((jj + 1) * kc + kk)
  let result ← macCell BB result ((ii + 3) * bs + jj + 2) a4 ((jj + 2) * kc + kk)
  macCell BB result ((ii + 3) * bs + jj + 3) a4 ((jj + 3) * kc + kk)

/-- multExchanged.cpp:44–98: multiply the blocks. -/
def exchangedInner (bs kc : Nat) (AA BB result : Array α) : M (Array α) :=
  forStep 0 bs 4 result fun ii result =>
    forStep 0 kc 4 result fun k result => do
      let Aregister1 ← load4 AA ((ii + 0) * kc + k)
      let Aregister2 ← load4 AA ((ii + 1) * kc + k)
      let Aregister3 ← load4 AA ((ii + 2) * kc + k)
      let Aregister4 ← load4 AA ((ii + 3) * kc + k)
      forStep 0 bs 4 result fun jj result =>
        forStep 0 4 1 result fun kk result => do
          let a1 ← lane Aregister1 kk
          let a2 ← lane Aregister2 kk
          let a3 ← lane Aregister3 kk
          let a4 ← lane Aregister4 kk
          exchangedStep bs kc BB a1 a2 a3 a4 ii jj (k + kk) result

/-- multExchanged.cpp:20–99: the block `(i, j)`. -/
def exchangedCompute (bs kc : Nat) (st : Stack α) (A B : Array α) (n i j : Nat) : M (Array α) := do
  let result ← clear bs (st.result i j)
  forStep 0 n kc result fun kBlock result => do
    let AA ← loadRows A n i kBlock bs kc (st.AA i j kBlock)
    let BB ← loadCols B n j kBlock bs kc (st.BB i j kBlock)
    exchangedInner bs kc AA BB result

/-- multExchanged.cpp:16–108, with the block sizes as parameters. -/
def exchangedTree (bs kc : Nat) (st : Stack α) (A B : Array α) (nC n : Nat) : Tree α :=
  blockTree n bs (exchangedCompute bs kc st A B n) fun i j => storeBlock n nC i j bs

/-- multExchanged.cpp:12–110 `multExchanged`: `BLOCKSIZEX = BLOCKSIZEY = KCHUNK = 128`. -/
def multExchanged (st : Stack α) (A B C : Array α) (n : Nat) : ND (Array α) :=
  ND.runOn C (exchangedTree 128 128 st A B C.size n)

/-! ### multGPU -/

/-- multGPU.cpp:57–59: one step of the four lane sums. -/
def laneMac (AA BB : Array α) (pa pb : Nat) (s : V4 α) : M (V4 α) := do
  let l0 ← macAt AA BB (pa + 0) (pb + 0) s.l0
  let l1 ← macAt AA BB (pa + 1) (pb + 1) s.l1
  let l2 ← macAt AA BB (pa + 2) (pb + 2) s.l2
  let l3 ← macAt AA BB (pa + 3) (pb + 3) s.l3
  pure ⟨l0, l1, l2, l3⟩

/-- multGPU.cpp:42–66: multiply the blocks. -/
def gpuInner (bs kc : Nat) (AA BB result : Array α) : M (Array α) :=
  forStep 0 bs 1 result fun ii result =>
    forStep 0 bs 1 result fun jj result => do
      let resultChunk1 ← forStep 0 kc 4 (V4.splat Arith.zero) fun k s =>
        laneMac AA BB ((ii + 0) * kc + k) ((jj + 0) * kc + k) s
      forStep 0 4 1 result fun kk result => do
        let v ← lane resultChunk1 kk
        addAt result ((ii + 0) * bs + jj + 0) v

/-- multGPU.cpp:18–67: the block `(i, j)`. -/
def gpuCompute (bs kc : Nat) (st : Stack α) (A B : Array α) (n i j : Nat) : M (Array α) := do
  let result ← clear bs (st.result i j)
  forStep 0 n kc result fun kBlock result => do
    let AA ← loadRows A n i kBlock bs kc (st.AA i j kBlock)
    let BB ← loadRows B n j kBlock bs kc (st.BB i j kBlock)
    gpuInner bs kc AA BB result

/-- multGPU.cpp:14–76, with the block sizes as parameters. -/
def gpuTree (bs kc : Nat) (st : Stack α) (A B : Array α) (nC n : Nat) : Tree α :=
  blockTree n bs (gpuCompute bs kc st A B n) fun i j => storeBlock n nC i j bs

/-- multGPU.cpp:10–77 `multGPU`: `BLOCKSIZE = KCHUNK = 128`. -/
def multGPU (st : Stack α) (A B C : Array α) (n : Nat) : ND (Array α) :=
  ND.runOn C (gpuTree 128 128 st A B C.size n)

/-! ### multGPUASM -/

/-- multGPUASM.cpp:52–70: sixteen accumulators of four lanes; `resultChunk`*rc* is
`result`*4(r-1)+c*. -/
def chunkInit : Acc16 (V4 α) :=
  let z := V4.splat Arith.zero
  ⟨z, z, z, z, z, z, z, z, z, z, z, z, z, z, z, z⟩

/-- multGPUASM.cpp:95–113. -/
def chunkMac (s : Acc16 (V4 α)) (a1 a2 a3 a4 b1 b2 b3 b4 : V4 α) : Acc16 (V4 α) :=
  ⟨V4.mac s.result1 a1 b1, V4.mac s.result2 a1 b2, V4.mac s.result3 a1 b3, V4.mac s.result4 a1 b4,
   V4.mac s.result5 a2 b1, V4.mac s.result6 a2 b2, V4.mac s.result7 a2 b3, V4.mac s.result8 a2 b4,
   V4.mac s.result9 a3 b1, V4.mac s.result10 a3 b2, V4.mac s.result11 a3 b3, V4.mac s.result12 a3 b4,
   V4.mac s.result13 a4 b1, V4.mac s.result14 a4 b2, V4.mac s.result15 a4 b3,
   V4.mac s.result16 a4 b4⟩

/-- multGPUASM.cpp:78–118: the loop over `k`; `fma` says whether `__FMA__` is defined. -/
def chunkLoop (fma : Bool) (oA oB kc : Nat) (AA BB : Array α) (ii jj : Nat) : M (Acc16 (V4 α)) :=
  forStep 0 kc 4 chunkInit fun k s => do
    let AAtemp1 ← load oA AA ((ii + 0) * kc + k)
    let AAtemp2 ← load oA AA ((ii + 1) * kc + k)
    let AAtemp3 ← load oA AA ((ii + 2) * kc + k)
    let AAtemp4 ← load oA AA ((ii + 3) * kc + k)
    let BBtemp1 ← load oB BB ((jj + 0) * kc + k)
    let BBtemp2 ← load oB BB ((jj + 1) * kc + k)
    let BBtemp3 ← load oB BB ((jj + 2) * kc + k)
    let BBtemp4 ← load oB BB ((jj + 3) * kc + k)
    pure (if fma then
      chunkMac s AAtemp1 AAtemp2 AAtemp3 AAtemp4 BBtemp1 BBtemp2 BBtemp3 BBtemp4 else s)

/-- `result[p] += converter.out[kk]`, multGPUASM.cpp:221–239. -/
def addLane (result : Array α) (p : Nat) (v : V4 α) (kk : Nat) : M (Array α) := do
  let x ← lane v kk
  addAt result p x

/-- multGPUASM.cpp:220–264: the statements for lane `kk` of the loops that add the four lanes of the
sixteen chunks to `result`. -/
def chunkAdd (bs ii jj : Nat) (s : Acc16 (V4 α)) (kk : Nat) (result : Array α) : M (Array α) := do
  let result ← addLane result ((ii + 0) * bs + jj + 0) s.result1 kk
  let result ← addLane result ((ii + 0) * bs + jj + 1) s.result2 kk
  let result ← addLane result ((ii + 0) * bs + jj + 2) s.result3 kk
  let result ← addLane result ((ii + 0) * bs + jj + 3) s.result4 kk
  let result ← addLane result ((ii + 1) * bs + jj + 0) s.result5 kk
  let result ← addLane result ((ii + 1) * bs + jj + 1) s.result6 kk
  let result ← addLane result ((ii + 1) * bs + jj + 2) s.result7 kk
  let result ← addLane result ((ii + 1) * bs + jj + 3) s.result8 kk
  let result ← addLane result ((ii + 2) * bs + jj + 0) s.result9 kk
  let result ← addLane result ((ii + 2) * bs + jj + 1) s.result10 kk
  let result ← addLane result ((ii + 2) * bs + jj + 2) s.result11 kk
  let result ← addLane result ((ii + 2) * bs + jj + 3) s.result12 kk
  let result ← addLane result ((ii + 3) * bs + jj + 0) s.result13 kk
  let result ← addLane result ((ii + 3) * bs + jj + 1) s.result14 kk
  let result ← addLane result ((ii + 3) * bs + jj + 2) s.result15 kk
  addLane result ((ii + 3) * bs + jj + 3) s.result16 kk

/-- multGPUASM.cpp:220–264: the horizontal sums. -/
def chunkStore (bs ii jj : Nat) (s : Acc16 (V4 α)) (result : Array α) : M (Array α) :=
  forStep 0 4 1 result fun kk result => chunkAdd bs ii jj s kk result

/-- multGPUASM.cpp:48–266: multiply the blocks. -/
def gpuasmInner (fma : Bool) (oA oB bs kc : Nat) (AA BB result : Array α) : M (Array α) :=
  forStep 0 bs 4 result fun ii result =>
    forStep 0 bs 4 result fun jj result => do
      let s ← chunkLoop fma oA oB kc AA BB ii jj
      chunkStore bs ii jj s result

/-- multGPUASM.cpp:24–267: the block `(i, j)`. -/
def gpuasmCompute (fma : Bool) (oA oB bs kc : Nat) (st : Stack α) (A B : Array α) (n i j : Nat) :
    M (Array α) := do
  let result ← clear bs (st.result i j)
  forStep 0 n kc result fun kBlock result => do
    let AA ← loadRows A n i kBlock bs kc (st.AA i j kBlock)
    let BB ← loadRows B n j kBlock bs kc (st.BB i j kBlock)
    gpuasmInner fma oA oB bs kc AA BB result

/-- multGPUASM.cpp:20–276, with the block sizes as parameters. -/
def gpuasmTree (fma : Bool) (oA oB bs kc : Nat) (st : Stack α) (A B : Array α) (nC n : Nat) :
    Tree α :=
  blockTree n bs (gpuasmCompute fma oA oB bs kc st A B n) fun i j => storeBlock n nC i j bs

/-- multGPUASM.cpp:11–277 `multGPUASM`: `BLOCKSIZE = KCHUNK = 256`.  `AA` and `BB` are arrays of
`double` without `alignas`, `oA` and `oB` are their positions. -/
def multGPUASM (fma : Bool) (oA oB : Nat) (st : Stack α) (A B C : Array α) (n : Nat) :
    ND (Array α) :=
  ND.runOn C (gpuasmTree fma oA oB 256 256 st A B C.size n)

/-! ### multRegister -/

/-- multRegister.cpp:41–46: `BB` is the block of `B`, `kc` rows of `bs` elements. -/
def loadBand (src : Array α) (n y kBlock bs kc : Nat) (BB : Array α) : M (Array α) :=
  forStep 0 kc 1 BB fun k BB =>
    forStep 0 bs 1 BB fun jj BB => do
      let v ← rd src ((kBlock + k) * n + (y + jj))
      wr BB (k * bs + jj) v

/-- multRegister.cpp:48–49 `II_BLOCKSIZE`, `JJ_BLOCKSIZE` -/
def II_BLOCKSIZE : Nat := 8
/-- multRegister.cpp:48–49 -/
def JJ_BLOCKSIZE : Nat := 2

/-- multRegister.cpp:60–64: load the registers. -/
def regLoad (oR bs ii jj : Nat) (result : Array α) (resultReg : Array (V4 α)) :
    M (Array (V4 α)) :=
  forStep 0 II_BLOCKSIZE 1 resultReg fun iii resultReg =>
    forStep 0 JJ_BLOCKSIZE 1 resultReg fun jjj resultReg => do
      let v ← load oR result ((ii + iii) * bs + jj + (jjj * 4))
      wr resultReg (iii * JJ_BLOCKSIZE + jjj) v

/-- multRegister.cpp:76–81: the register that is updated, with and without `__FMA__`. -/
def regIndex (fma : Bool) (iii jjj : Nat) : Nat :=
  if fma then iii * JJ_BLOCKSIZE + jjj else jjj * JJ_BLOCKSIZE + iii

/-- multRegister.cpp:66–82, 128–129: the loop over `k`. -/
def regLoop (fma : Bool) (oB bs kc ii jj : Nat) (AA BB : Array α) (resultReg : Array (V4 α)) :
    M (Array (V4 α)) :=
  forStep 0 kc 1 resultReg fun k resultReg =>
    forStep 0 II_BLOCKSIZE 1 resultReg fun iii resultReg => do
      let a ← rd AA ((ii + iii) * kc + (k + 0))
      forStep 0 JJ_BLOCKSIZE 1 resultReg fun jjj resultReg => do
        let Bregister1 ← load oB BB ((k + 0) * bs + jj + (jjj * 4))
        let r ← rd resultReg (regIndex fma iii jjj)
        wr resultReg (regIndex fma iii jjj) (V4.mac r (V4.splat a) Bregister1)

/-- multRegister.cpp:160–167: store the registers. -/
def regStore (oR bs ii jj : Nat) (resultReg : Array (V4 α)) (result : Array α) : M (Array α) :=
  forStep 0 II_BLOCKSIZE 1 result fun iii result =>
    forStep 0 JJ_BLOCKSIZE 1 result fun jjj result => do
      let v ← rd resultReg (iii * JJ_BLOCKSIZE + jjj)
      store oR result ((ii + iii) * bs + jj + (jjj * 4)) v

/-- multRegister.cpp:51–169: multiply the blocks. -/
def registerInner (fma : Bool) (oR oB bs kc : Nat) (reg0 : Array (V4 α)) (AA BB result : Array α) :
    M (Array α) :=
  forStep 0 bs II_BLOCKSIZE result fun ii result =>
    forStep 0 bs (JJ_BLOCKSIZE * 4) result fun jj result => do
      let resultReg ← regLoad oR bs ii jj result reg0
      let resultReg ← regLoop fma oB bs kc ii jj AA BB resultReg
      regStore oR bs ii jj resultReg result

/-- multRegister.cpp:21–170: the block `(i, j)`. -/
def registerCompute (fma : Bool) (oR oB bs kc : Nat) (st : Stack α) (A B : Array α) (n i j : Nat) :
    M (Array α) := do
  let result ← clear bs (st.result i j)
  forStep 0 n kc result fun kBlock result => do
    let AA ← loadRows A n i kBlock bs kc (st.AA i j kBlock)
    let BB ← loadBand B n j kBlock bs kc (st.BB i j kBlock)
    registerInner fma oR oB bs kc st.resultReg AA BB result

/-- multRegister.cpp:17–180, with the block sizes as parameters. -/
def registerTree (fma : Bool) (oR oB bs kc : Nat) (st : Stack α) (A B : Array α) (nC n : Nat) :
    Tree α :=
  blockTree n bs (registerCompute fma oR oB bs kc st A B n) fun i j => storeBlock n nC i j bs

/-- multRegister.cpp:12–182 `multRegister`: `BLOCKSIZEX = BLOCKSIZEY = 256`, `KCHUNK = 64`.
`result` and `BB` are arrays of `double` without `alignas`, `oR` and `oB` are their positions. -/
def multRegister (fma : Bool) (oR oB : Nat) (st : Stack α) (A B C : Array α) (n : Nat) :
    ND (Array α) :=
  ND.runOn C (registerTree fma oR oB 256 64 st A B C.size n)

/-! ### multIntrinLoop -/

/-- multIntrinLoop.cpp:56–60 `REG_BLOCK_II` -/
def REG_BLOCK_II : Nat := 4
/-- multIntrinLoop.cpp:56–60 `REG_BLOCK_JJ` -/
def REG_BLOCK_JJ : Nat := 4
/-- multIntrinLoop.cpp:56–60 `REG_BLOCK_JJ_STEP` -/
def REG_BLOCK_JJ_STEP : Nat := 4
/-- multIntrinLoop.cpp:56–60 `REG_BLOCK_II_STRIDE` -/
def REG_BLOCK_II_STRIDE : Nat := REG_BLOCK_II / REG_BLOCK_JJ_STEP
/-- multIntrinLoop.cpp:56–60 `REG_BLOCK_JJ_SIZE` -/
def REG_BLOCK_JJ_SIZE : Nat := REG_BLOCK_JJ * 4

/-- multIntrinLoop.cpp:23–30: fill `result` with zeros, four at a time. -/
def clear4 (bs : Nat) (result : Array α) : M (Array α) :=
  forStep 0 bs 1 result fun ii result =>
    forStep 0 bs 4 result fun jj result =>
      store 0 result (ii * bs + jj) (V4.splat Arith.zero)

/-- multIntrinLoop.cpp:34–43 (`AA`: `R` rows of `W` columns at `(x, y)`) and 45–54 (`BB`): copy a
block, four elements at a time; `o` is the position of the matrix, the copy is `alignas(32)`. -/
def loadBlock4 (o : Nat) (src : Array α) (n x y R W : Nat) (AA : Array α) : M (Array α) :=
  forStep 0 R 1 AA fun ii AA =>
    forStep 0 W 4 AA fun k AA => do
      let v ← load o src ((x + ii) * n + (y + k))
      store 0 AA (ii * W + k) v

/-- multIntrinLoop.cpp:67–71: load the registers. -/
def ilLoad (bs ii jj : Nat) (result : Array α) (resultReg : Array (V4 α)) : M (Array (V4 α)) :=
  forStep 0 REG_BLOCK_JJ_SIZE REG_BLOCK_JJ_STEP resultReg fun jjj resultReg =>
    forStep 0 REG_BLOCK_II 1 resultReg fun iii resultReg => do
      let v ← load 0 result ((ii + iii) * bs + jj + jjj)
      wr resultReg (jjj * REG_BLOCK_II_STRIDE + iii) v

/-- multIntrinLoop.cpp:73–105: the loop over `k`.  (`Aregister` is filled completely at the start
of each iteration: its elements are `V4.splat` of `AA[(ii + iii) * KCHUNK + k]`.) -/
def ilLoop (bs kc ii jj : Nat) (AA BB : Array α) (resultReg : Array (V4 α)) : M (Array (V4 α)) :=
  forStep 0 kc 1 resultReg fun k resultReg => do
    let Aregister ← (List.range REG_BLOCK_II).mapM fun iii => do
      let a ← rd AA ((ii + iii) * kc + k + 0)
      pure (V4.splat a)
    forStep 0 REG_BLOCK_JJ_SIZE REG_BLOCK_JJ_STEP resultReg fun jjj resultReg => do
      let Bregister1 ← load 0 BB ((k + 0) * bs + (jj + jjj))
      forStep 0 REG_BLOCK_II 1 resultReg fun iii resultReg => do
        let a ← rd Aregister.toArray iii
        let r ← rd resultReg (jjj * REG_BLOCK_II_STRIDE + iii)
        wr resultReg (jjj * REG_BLOCK_II_STRIDE + iii) (V4.mac r a Bregister1)

/-- multIntrinLoop.cpp:107–111: store the registers. -/
def ilStore (bs ii jj : Nat) (resultReg : Array (V4 α)) (result : Array α) : M (Array α) :=
  forStep 0 REG_BLOCK_II 1 result fun iii result =>
    forStep 0 REG_BLOCK_JJ_SIZE REG_BLOCK_JJ_STEP result fun jjj result => do
      let v ← rd resultReg (jjj * REG_BLOCK_II_STRIDE + iii)
      store 0 result ((ii + iii) * bs + jj + jjj) v

/-- multIntrinLoop.cpp:62–113: multiply the blocks. -/
def ilInner (bs kc : Nat) (reg0 : Array (V4 α)) (AA BB result : Array α) : M (Array α) :=
  forStep 0 bs REG_BLOCK_II result fun ii result =>
    forStep 0 bs REG_BLOCK_JJ_SIZE result fun jj result => do
      let resultReg ← ilLoad bs ii jj result reg0
      let resultReg ← ilLoop bs kc ii jj AA BB resultReg
      ilStore bs ii jj resultReg result

/-- multIntrinLoop.cpp:21–114: the block `(i, j)`. -/
def ilCompute (oA oB bs kc : Nat) (st : Stack α) (A B : Array α) (n i j : Nat) : M (Array α) := do
  let result ← clear4 bs (st.result i j)
  forStep 0 n kc result fun kBlock result => do
    let AA ← loadBlock4 oA A n i kBlock bs kc (st.AA i j kBlock)
    let BB ← loadBlock4 oB B n kBlock j kc bs (st.BB i j kBlock)
    ilInner bs kc st.resultReg AA BB result

/-- `_mm256_stream_pd(C + p, x)`. -/
def stream (oC nC p : Nat) (x : V4 α) : Act α Unit :=
  if (oC + p) % 4 ≠ 0 then Act.ofM (throw .misaligned) else do
    Act.write nC p x.l0
    Act.write nC (p + 1) x.l1
    Act.write nC (p + 2) x.l2
    Act.write nC (p + 3) x.l3

/-- multIntrinLoop.cpp:116–122: copy `result` to `C`, four elements at a time. -/
def ilStoreBlock (oC n nC i j bs : Nat) (result : Array α) : Act α Unit :=
  forStep 0 bs 1 () fun ii _ =>
    forStep 0 bs 4 () fun jj _ => do
      let v ← Act.ofM (load 0 result (ii * bs + jj))
      stream oC nC ((i + ii) * n + (j + jj)) v

/-- multIntrinLoop.cpp:17–125, with the block sizes as parameters. -/
def ilTree (oA oB oC bs kc : Nat) (st : Stack α) (A B : Array α) (nC n : Nat) : Tree α :=
  blockTree n bs (ilCompute oA oB bs kc st A B n) fun i j => ilStoreBlock oC n nC i j bs

/-- multIntrinLoop.cpp:13–127 `multIntrinLoop`: `BLOCKSIZEX = BLOCKSIZEY = KCHUNK = 128`;
`oA`, `oB`, `oC` are the positions of the matrices. -/
def multIntrinLoop (oA oB oC : Nat) (st : Stack α) (A B C : Array α) (n : Nat) : ND (Array α) :=
  ND.runOn C (ilTree oA oB oC 128 128 st A B C.size n)

/-! ### multASM -/

/-- multASM.cpp:30–49: the loop of the assembler code.  `eax` is a 32-bit register, `jl` compares
as signed numbers, `n` is the parameter of type `uint32_t`; both indices grow by 4 in each step.
The loop ends at the latest with an access out of bounds, so `A.size + 1` steps suffice as `fuel`
(`asm_no_diverge`). -/
def asmLoop (oA oB : Nat) (A B : Array α) (n : BitVec 32) :
    Nat → Nat → Nat → BitVec 32 → V4 α → M (V4 α)
  | 0, _, _, _, _ => throw .diverge
  | fuel + 1, indexA, indexB, eax, ymm4 => do
    let ymm1 ← load oA A indexA
    let ymm2 ← load oB B indexB
    let ymm4 := V4.mac ymm4 ymm1 ymm2
    let eax := eax + 4
    if eax.slt n then asmLoop oA oB A B n fuel (indexA + 4) (indexB + 4) eax ymm4 else pure ymm4

/-- multASM.cpp:18–62: the value of `temp1` after the assembler code.  The code is only compiled if
`__GNUC__ > 4` (`gnuc`); otherwise an error message is printed and `temp1` stays 0. -/
def asmEntry (gnuc oA oB : Nat) (A B : Array α) (n i j : Nat) : M (V4 α) :=
  if 4 < gnuc then
    asmLoop oA oB A B (BitVec.ofNat 32 n) (A.size + 1) (i * n) (j * n) 0 (V4.splat Arith.zero)
  else pure (V4.splat Arith.zero)

/-- multASM.cpp:64–71: the horizontal sum, starting from `result1 = 0.0`. -/
def hsum (v : V4 α) : α :=
  Arith.add (Arith.add (Arith.add (Arith.add Arith.zero v.l0) v.l1) v.l2) v.l3

/-- multASM.cpp:16–72: one iteration of the parallel loop. -/
def asmRow (gnuc oA oB : Nat) (A B : Array α) (nC n i : Nat) : Act α Unit :=
  forStep 0 n 1 () fun j _ => do
    let temp1 ← Act.ofM (asmEntry gnuc oA oB A B n i j)
    Act.write nC (i * n + j) (hsum temp1)

/-- multASM.cpp:14–73. -/
def asmTree (gnuc oA oB : Nat) (A B : Array α) (nC n : Nat) : Tree α :=
  .par ((steps 0 n 1).map fun i => .act (asmRow gnuc oA oB A B nC n i))

/-- multASM.cpp:7–74 `multASM`. -/
def multASM (gnuc oA oB : Nat) (A B C : Array α) (n : Nat) : ND (Array α) :=
  ND.runOn C (asmTree gnuc oA oB A B C.size n)

end Verif.Experiments
