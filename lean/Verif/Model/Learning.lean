import Verif.Core.Basic
/-
Model of /repo/learning/MetaProgrammingCPP.cpp.  The loop variable type `T` is `size_t`; `cur++` does
not overflow because `cur < max`.
-/
namespace Verif.Learning
variable {σ ω : Type}

/-- A function object (the template parameter `F` of MetaProgrammingCPP.cpp:11–23): the call
operator gets the state of the object (captured by value), the arguments and the rest of the world (console, memory), and may throw. -/
abbrev Functor (σ ω : Type) := σ → List Nat → ω → M (σ × ω)

/-- MetaProgrammingCPP.cpp:11–23 `execute_looped<dim>(min, max, f, args...)`, both overloads.  The
function object is passed by value: the state of the copy is dropped on return. -/
def execute_looped (call : Functor σ ω) (min max : Nat) : Nat → σ → List Nat → ω → M ω
  | 0, f, args, w => do
    let r ← call f args w
    pure r.2
  | dim + 1, f, args, w =>
    forStep min max 1 w fun cur w => execute_looped call min max dim f (args ++ [cur]) w

/-- MetaProgrammingCPP.cpp:25–32 `Looper<dim, size_t>`. -/
structure Looper where
  dim : Nat
  min : Nat
  max : Nat

/-- MetaProgrammingCPP.cpp:34–40 `iterate_simple`. -/
def Looper.iterate_simple (l : Looper) (call : Functor σ ω) (f : σ) (w : ω) : M ω :=
  execute_looped call l.min l.max l.dim f [] w

/-- MetaProgrammingCPP.cpp:47–52: the lambda; the world is the text on the console. -/
def printPair : Functor Unit String := fun _ args out =>
  match args with
  | [cur0, cur1] => do
    let out := if cur0 > 0 ∨ cur1 > 0 then out ++ ", " else out
    pure ((), out ++ "(" ++ toString cur0 ++ ", " ++ toString cur1 ++ ")")
  | _ => throw (.exception "does not compile")

/-- MetaProgrammingCPP.cpp:43–56 `main` for the bounds 0 and `n`; the result is the text printed. -/
def run (n : Nat) : M String := do
  let out ← (Looper.mk 2 0 n).iterate_simple printPair () ""
  pure (out ++ "\n")

/-- MetaProgrammingCPP.cpp:43–56 `main` -/
def main : M String := run 10

end Verif.Learning
