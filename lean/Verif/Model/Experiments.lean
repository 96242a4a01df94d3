import Verif.Core.Act
/-
Model of the kernels in /repo/otherExperiments: multNaive.cpp, multTransposed.cpp,
multCounter.cpp, multBlocked.cpp.  (The larger ones are in Model/ExperimentsBlocked.lean.)

`A`, `B` and `C` are pointers into buffers of which the vectors of the model are the contents; `C`
is the shared memory, `nC` the number of its elements.  The three buffers do not overlap (as in
benchmark.cpp).  `#pragma omp parallel for` is a `par` with one task per iteration.
-/
namespace Verif.Experiments
variable {α : Type} [Arith α]

/-- `C[p] += A[pa] * B[pb]`, multNaive.cpp:10, multTransposed.cpp:8. -/
def macTo (A B : Array α) (nC p pa pb : Nat) : Act α Unit := do
  let a ← Act.ofM (rd A pa)
  let b ← Act.ofM (rd B pb)
  let c ← Act.read nC p
  Act.write nC p (Arith.mac c a b)

/-- multNaive.cpp:8–12: one iteration of the parallel loop. -/
def naiveRow (n : Nat) (A B : Array α) (nC i : Nat) : Act α Unit :=
  forStep 0 n 1 () fun j _ =>
    forStep 0 n 1 () fun k _ =>
      macTo A B nC (i * n + j) (i * n + k) (k * n + j)

/-- multNaive.cpp:6–13: the parallel loop. -/
def naiveTree (n : Nat) (A B : Array α) (nC : Nat) : Tree α :=
  .par ((steps 0 n 1).map fun i => .act (naiveRow n A B nC i))

/-- multNaive.cpp:4–14 `multNaive`; the result is `C` afterwards. -/
def multNaive (A B C : Array α) (n : Nat) : ND (Array α) :=
  ND.runOn C (naiveTree n A B C.size)

/-- multTransposed.cpp:5–11: the three loops; this kernel is sequential. -/
def transposedLoops (n : Nat) (A B : Array α) (nC : Nat) : Act α Unit :=
  forStep 0 n 1 () fun i _ =>
    forStep 0 n 1 () fun j _ =>
      forStep 0 n 1 () fun k _ =>
        macTo A B nC (i * n + j) (i * n + k) (j * n + k)

/-- multTransposed.cpp:4–12 `multTransposed`. -/
def multTransposed (A B C : Array α) (n : Nat) : M (Array α) :=
  (transposedLoops n A B C.size).execOn C

/-- `r += A[pa] * B[pb]`, multCounter.cpp:11, multBlocked.cpp:31–35, 94–112. -/
def macAt (A B : Array α) (pa pb : Nat) (r : α) : M α := do
  let a ← rd A pa
  let b ← rd B pb
  pure (Arith.mac r a b)

/-- multCounter.cpp:8–14: one iteration of the parallel loop. -/
def counterRow (n : Nat) (A B : Array α) (nC i : Nat) : Act α Unit :=
  forStep 0 n 1 () fun j _ => do
    let result ← Act.ofM (forStep 0 n 1 Arith.zero fun k result =>
      macAt A B (i * n + k) (j * n + k) result)
    Act.write nC (i * n + j) result

/-- multCounter.cpp:4–16 `multCounter`. -/
def counterTree (n : Nat) (A B : Array α) (nC : Nat) : Tree α :=
  .par ((steps 0 n 1).map fun i => .act (counterRow n A B nC i))

/-- multCounter.cpp:4–16 `multCounter`. -/
def multCounter (A B C : Array α) (n : Nat) : ND (Array α) :=
  ND.runOn C (counterTree n A B C.size)

/-- multBlocked.cpp:20–23: the four accumulators. -/
structure Acc4 (α : Type) where
  result1 : α
  result2 : α
  result3 : α
  result4 : α

/-- multBlocked.cpp:29–36: loop over `k`. -/
def blocked2Inner (n : Nat) (A B : Array α) (i j : Nat) : M (Acc4 α) :=
  forStep 0 n 1 ⟨Arith.zero, Arith.zero, Arith.zero, Arith.zero⟩ fun k s => do
    let result1 ← macAt A B (i * n + k) (j * n + k) s.result1
    let result2 ← macAt A B ((i + 1) * n + k) (j * n + k) s.result2
    let result3 ← macAt A B (i * n + k) ((j + 1) * n + k) s.result3
    let result4 ← macAt A B ((i + 1) * n + k) ((j + 1) * n + k) s.result4
    pure ⟨result1, result2, result3, result4⟩

/-- multBlocked.cpp:37–40: store the results. -/
def blocked2Store (n nC i j : Nat) (s : Acc4 α) : Act α Unit := do
  Act.write nC (i * n + j) s.result1
  Act.write nC ((i + 1) * n + j) s.result2
  Act.write nC (i * n + (j + 1)) s.result3
  Act.write nC ((i + 1) * n + (j + 1)) s.result4

/-- multBlocked.cpp:17–41: one iteration of the parallel loop. -/
def blocked2Row (n : Nat) (A B : Array α) (nC i : Nat) : Act α Unit :=
  forStep 0 n 2 () fun j _ => do
    let s ← Act.ofM (blocked2Inner n A B i j)
    blocked2Store n nC i j s

/-- multBlocked.cpp:14–42. -/
def blocked2Tree (n : Nat) (A B : Array α) (nC : Nat) : Tree α :=
  .par ((steps 0 n 2).map fun i => .act (blocked2Row n A B nC i))

/-- multBlocked.cpp:4–43 `multBlocked2`. -/
def multBlocked2 (A B C : Array α) (n : Nat) : ND (Array α) :=
  ND.runOn C (blocked2Tree n A B C.size)

/-- multBlocked.cpp:64–82: the sixteen accumulators. -/
structure Acc16 (α : Type) where
  result1 : α
  result2 : α
  result3 : α
  result4 : α
  result5 : α
  result6 : α
  result7 : α
  result8 : α
  result9 : α
  result10 : α
  result11 : α
  result12 : α
  result13 : α
  result14 : α
  result15 : α
  result16 : α

/-- multBlocked.cpp:64–82. -/
def Acc16.init : Acc16 α :=
  ⟨Arith.zero, Arith.zero, Arith.zero, Arith.zero, Arith.zero, Arith.zero, Arith.zero, Arith.zero,
   Arith.zero, Arith.zero, Arith.zero, Arith.zero, Arith.zero, Arith.zero, Arith.zero, Arith.zero⟩

/-- multBlocked.cpp:94–112: the body of the loop over `k`. -/
def blocked4Step (n : Nat) (A B : Array α) (i j k : Nat) (s : Acc16 α) : M (Acc16 α) := do
  let result1 ← macAt A B (i * n + k) (j * n + k) s.result1
  let result2 ← macAt A B (i * n + k) ((j + 1) * n + k) s.result2
  let result3 ← macAt A B (i * n + k) ((j + 2) * n + k) s.result3
  let result4 ← macAt A B (i * n + k) ((j + 3) * n + k) s.result4
  let result5 ← macAt A B ((i + 1) * n + k) (j * n + k) s.result5
  let result6 ← macAt A B ((i + 1) * n + k) ((j + 1) * n + k) s.result6
  let result7 ← macAt A B ((i + 1) * n + k) ((j + 2) * n + k) s.result7
  let result8 ← macAt A B ((i + 1) * n + k) ((j + 3) * n + k) s.result8
  let result9 ← macAt A B ((i + 2) * n + k) (j * n + k) s.result9
  let result10 ← macAt A B ((i + 2) * n + k) ((j + 1) * n + k) s.result10
  let result11 ← macAt A B ((i + 2) * n + k) ((j + 2) * n + k) s.result11
  let result12 ← macAt A B ((i + 2) * n + k) ((j + 3) * n + k) s.result12
  let result13 ← macAt A B ((i + 3) * n + k) (j * n + k) s.result13
  let result14 ← macAt A B ((i + 3) * n + k) ((j + 1) * n + k) s.result14
  let result15 ← macAt A B ((i + 3) * n + k) ((j + 2) * n + k) s.result15
  let result16 ← macAt A B ((i + 3) * n + k) ((j + 3) * n + k) s.result16
  pure ⟨result1, result2, result3, result4, result5, result6, result7, result8,
    result9, result10, result11, result12, result13, result14, result15, result16⟩

/-- multBlocked.cpp:87–120: the loop over `k`, whose step is 4. -/
def blocked4Inner (n : Nat) (A B : Array α) (i j : Nat) : M (Acc16 α) :=
  forStep 0 n 4 Acc16.init fun k s => blocked4Step n A B i j k s

/-- multBlocked.cpp:127–145: store the results. -/
def blocked4Store (n nC i j : Nat) (s : Acc16 α) : Act α Unit := do
  Act.write nC (i * n + j) s.result1
  Act.write nC (i * n + (j + 1)) s.result2
  Act.write nC (i * n + (j + 2)) s.result3
  Act.write nC (i * n + (j + 3)) s.result4
  Act.write nC ((i + 1) * n + j) s.result5
  Act.write nC ((i + 1) * n + (j + 1)) s.result6
  Act.write nC ((i + 1) * n + (j + 2)) s.result7
  Act.write nC ((i + 1) * n + (j + 3)) s.result8
  Act.write nC ((i + 2) * n + j) s.result9
  Act.write nC ((i + 2) * n + (j + 1)) s.result10
  Act.write nC ((i + 2) * n + (j + 2)) s.result11
  Act.write nC ((i + 2) * n + (j + 3)) s.result12
  Act.write nC ((i + 3) * n + j) s.result13
  Act.write nC ((i + 3) * n + (j + 1)) s.result14
  Act.write nC ((i + 3) * n + (j + 2)) s.result15
  Act.write nC ((i + 3) * n + (j + 3)) s.result16

/-- multBlocked.cpp:61–145: one iteration of the parallel loop. -/
def blocked4Row (n : Nat) (A B : Array α) (nC i : Nat) : Act α Unit :=
  forStep 0 n 4 () fun j _ => do
    let s ← Act.ofM (blocked4Inner n A B i j)
    blocked4Store n nC i j s

/-- multBlocked.cpp:58–146. -/
def blocked4Tree (n : Nat) (A B : Array α) (nC : Nat) : Tree α :=
  .par ((steps 0 n 4).map fun i => .act (blocked4Row n A B nC i))

/-- multBlocked.cpp:47–148 `multBlocked4`. -/
def multBlocked4 (A B C : Array α) (n : Nat) : ND (Array α) :=
  ND.runOn C (blocked4Tree n A B C.size)

end Verif.Experiments
