import Mathlib.Logic.Function.Basic
import Mathlib.Logic.Relation
/-
Lifetimes of the result vectors in /repo/src/variants/components/recursive.cpp, multiplier.cpp, single.cpp and in
the parallel part of static_improved.cpp: which vectors exist at the same time.

Only sizes are modelled.  A vector that is returned and passed on is moved (recursive.cpp:52, 83, 92, single.cpp:42);
copies that HPX may make while it transports a vector are not counted.  Tasks that wait (`get`, `wait_all`) are
suspended, so the number of worker threads restricts nothing.  The catch of recursive.cpp:32 is not needed
(every access is in range).
-/
namespace Verif.Lifetime

/-- State of a call `distribute_recursively(x, y, n)` (recursive.cpp:37–94). -/
inductive Call
  /-- Not yet running: not yet started (line 76), or waiting for a worker thread. -/
  | waiting (n : Nat)
  /-- `calculate_submatrix` is running (line 50); its vector `C` exists (multiplier.cpp:20). -/
  | leaf (n : Nat)
  /-- The vector `C` exists (line 73); the four calls of the loop (lines 76–87). -/
  | node (n : Nat) (c : Fin 4 → Call)
  /-- The call has returned; its vector is in the future `f`, or in the continuation (line 82). -/
  | done (n : Nat)
  /-- The continuation has finished, its parameter `C_small` (line 17) is destroyed. -/
  | gone

/-- The steps of recursive.cpp:37–94, `br` is `block_result`.  With `ordered`, a call begins only when the ones
before it in the loop are finished and their results are copied. -/
inductive Step (br : Nat) (ordered : Bool) : Call → Call → Prop
  /-- recursive.cpp:46–51, multiplier.cpp:20 -/
  | leaf {n} : n ≤ br → Step br ordered (.waiting n) (.leaf n)
  /-- multiplier.cpp:23–34, recursive.cpp:52 -/
  | compute {n} : Step br ordered (.leaf n) (.done n)
  /-- recursive.cpp:61, 73 -/
  | node {n} : br < n → Step br ordered (.waiting n) (.node n fun _ => .waiting (n / 2))
  /-- a step of one of the four calls (recursive.cpp:77–80) -/
  | inside {n c c'} (i : Fin 4) : (ordered = true → ∀ j, j < i → c j = .gone) → Step br ordered (c i) c' →
      Step br ordered (.node n c) (.node n (Function.update c i c'))
  /-- recursive.cpp:82–86, 16–35: the continuation of one of the four calls -/
  | merge {n m c} (i : Fin 4) : c i = .done m → Step br ordered (.node n c) (.node n (Function.update c i .gone))
  /-- recursive.cpp:90–92: all four continuations have finished -/
  | ret {n c} : (∀ i, c i = .gone) → Step br ordered (.node n c) (.done n)

/-- single.cpp:38–43: the call of the current repetition, and how many repetitions follow. -/
inductive SingleStep (br N : Nat) : Nat × Call → Nat × Call → Prop
  /-- a step of the call (line 39) -/
  | inside {r c c'} : Step br false c c' → SingleStep br N (r, c) (r, c')
  /-- line 42: the result is moved to `C`, whose old elements are released; the next repetition starts -/
  | next {r} : SingleStep br N (r + 1, .done N) (r, .waiting N)
  /-- line 42 in the last repetition -/
  | last : SingleStep br N (0, .done N) (0, .gone)

/-- static_improved.cpp:247–272: the calls for the work packages, all concurrent. -/
inductive PackageStep (br : Nat) : List Call → List Call → Prop
  /-- a step of one of the calls (line 260) -/
  | inside {cs c c'} (i : Nat) : cs[i]? = some c → Step br false c c' → PackageStep br cs (cs.set i c')
  /-- lines 262–265: the result of one of them is inserted into `C` and destroyed -/
  | insert {cs m} (i : Nat) : cs[i]? = some (.done m) → PackageStep br cs (cs.set i .gone)

end Verif.Lifetime
