/-
Outcomes, scalars, vectors and `for` loops: the vocabulary in which the C++ code of
/repo is transcribed.  Nothing in this file is specific to one source file.
-/
namespace Verif

/-- Everything that can happen to a C++ execution other than returning normally. -/
inductive Err where
  /-- undefined behaviour: access outside a vector through `operator[]`, a pointer or an
  iterator -/
  | oob
  /-- undefined behaviour: `Vc::flags::vector_aligned` load from a misaligned address -/
  | misaligned
  /-- undefined behaviour: flowing off the end of a function with non-void result -/
  | noReturn
  /-- undefined behaviour: integer division or modulo by zero -/
  | divZero
  /-- undefined behaviour: conversion of a double that does not fit the integer type -/
  | badCast
  /-- undefined behaviour: `delete[]` of a pointer that is not (or no longer) allocated -/
  | badFree
  /-- `std::out_of_range` raised by `.at()` -/
  | outOfRange
  /-- `throw;` without an active exception: `std::terminate` -/
  | terminate
  /-- any other C++ exception -/
  | exception (msg : String)
  /-- the execution does not terminate -/
  | diverge
  deriving DecidableEq, Repr

/-- Sequential code. -/
abbrev M := Except Err

/-- The arithmetic the code performs on matrix elements, without any laws.
`mac acc a b` stands for the C++ update `acc += a * b` (fused or not). -/
class Arith (α : Type) where
  zero : α
  add : α → α → α
  mac : α → α → α → α

variable {α σ : Type}

/-- `v[i]` as an rvalue for a `std::vector` (or pointer into an array) `v`. -/
def rd (a : Array α) (i : Nat) : M α :=
  match a[i]? with
  | some v => .ok v
  | none => .error .oob

/-- `v[i] = x`. -/
def wr (a : Array α) (i : Nat) (x : α) : M (Array α) :=
  if i < a.size then .ok (a.setIfInBounds i x) else .error .oob

/-- `v.at(i)` as an rvalue. -/
def rdAt (a : Array α) (i : Nat) : M α :=
  match a[i]? with
  | some v => .ok v
  | none => .error .outOfRange

/-- `v.at(i) = x`. -/
def wrAt (a : Array α) (i : Nat) (x : α) : M (Array α) :=
  if i < a.size then .ok (a.setIfInBounds i x) else .error .outOfRange

/-- `std::vector<T> v(n)` followed by `std::fill(.., 0.0)`, or value-initialisation. -/
def zeros [Arith α] (n : Nat) : Array α := Array.replicate n Arith.zero

section Loops
variable {m : Type → Type} [Monad m] [MonadExceptOf Err m]

/-- Body of `forStep`: `cur` is the loop variable, `fuel` bounds the number of
iterations. -/
def forGo (hi st : Nat) (body : Nat → σ → m σ) : Nat → Nat → σ → m σ
  | 0, cur, s => if cur < hi then throw Err.diverge else pure s
  | fuel + 1, cur, s =>
    if cur < hi then do
      let s' ← body cur s
      forGo hi st body fuel (cur + st) s'
    else pure s

/-- `for (size_t i = lo; i < hi; i += st) body`, the loop-carried variables being `s`.
With `st > 0` at most `hi - lo` iterations are possible, so running out of fuel happens
exactly when `st = 0` and `lo < hi`, i.e. for a loop that never ends. -/
def forStep (lo hi st : Nat) (s : σ) (body : Nat → σ → m σ) : m σ :=
  forGo hi st body (hi - lo) lo s

end Loops

/-- Unsigned 64-bit subtraction of two representable numbers. -/
def usub (a b : Nat) : Nat := if b ≤ a then a - b else a + 2 ^ 64 - b

/-- `⌈n / d⌉`. -/
def ceilDiv (n d : Nat) : Nat := (n + d - 1) / d

/-- The values taken by the loop variable of `for (i = lo; i < hi; i += st)`. -/
def steps (lo hi st : Nat) : List Nat :=
  (List.range (ceilDiv (hi - lo) st)).map (fun t => lo + t * st)

end Verif
