import Verif.Core.Act
/-
Specification vocabulary for the C++ memory model, restricted to what the programs use: accesses to
ordinary (non-atomic) objects, ordered by the sequence of statements in a task and by starting and
waiting for tasks.  Compared with the interleaving semantics of `Core/Act` there is no common memory and
no order of all steps, only the partial order "happens before" ([intro.races] in the C++ standard).
-/
namespace Verif
variable {α : Type}

/-- One access that has taken place, with the value read or written. -/
inductive Event (α : Type) where
  | rd (i : Nat) (v : α)
  | wr (i : Nat) (v : α)
  | rdFlag (j : Nat) (b : Bool)
  | wrFlag (j : Nat) (b : Bool)

namespace Event

/-- the object accessed -/
def loc : Event α → Loc
  | rd i _ => .cell i
  | wr i _ => .cell i
  | rdFlag j _ => .flag j
  | wrFlag j _ => .flag j

/-- whether the access is a write -/
def isWrite : Event α → Bool
  | rd _ _ => false
  | wr _ _ => true
  | rdFlag _ _ => false
  | wrFlag _ _ => true

/-- the value read or written -/
def val : Event α → α ⊕ Bool
  | rd _ v => .inl v
  | wr _ v => .inl v
  | rdFlag _ b => .inr b
  | wrFlag _ b => .inr b

end Event

/-- the value of an object in memory -/
def Mem.val (m : Mem α) : Loc → α ⊕ Bool
  | .cell i => .inl (m.cell i)
  | .flag j => .inr (m.flag j)

/-- The accesses of an execution, arranged like the program: one after the other or in parallel. -/
inductive Execution (α : Type) where
  | event (e : Event α)
  | seq (xs : List (Execution α))
  | par (xs : List (Execution α))

/-- One step from an execution to a part of it: the `n`-th of parts in sequence or in parallel. -/
inductive Turn where
  | seq (n : Nat)
  | par (n : Nat)
  deriving DecidableEq

/-- The access at a position. -/
def Execution.at : Execution α → List Turn → Option (Event α)
  | .event e, [] => some e
  | .seq xs, .seq n :: p =>
    match xs[n]? with
    | some x => x.at p
    | none => none
  | .par xs, .par n :: p =>
    match xs[n]? with
    | some x => x.at p
    | none => none
  | _, _ => none

/-- The access at the first position happens before the one at the second: the first difference is an
order of parts in sequence. -/
def HB : List Turn → List Turn → Prop
  | .seq n :: p, .seq n' :: p' => n < n' ∨ n = n' ∧ HB p p'
  | .par n :: p, .par n' :: p' => n = n' ∧ HB p p'
  | _, _ => False

/-- Task `p` can perform the accesses `es`, whatever other tasks do, and is `p'` then.  Nothing is said
about the values that are read. -/
inductive Trace : Act α Unit → List (Event α) → Act α Unit → Prop
  | refl {p} : Trace p [] p
  | rd {i k v es p'} : Trace (k v) es p' → Trace (.rd i k) (.rd i v :: es) p'
  | wr {i v k es p'} : Trace k es p' → Trace (.wr i v k) (.wr i v :: es) p'
  | rdFlag {j k b es p'} : Trace (k b) es p' → Trace (.rdFlag j k) (.rdFlag j b :: es) p'
  | wrFlag {j b k es p'} : Trace k es p' → Trace (.wrFlag j b k) (.wrFlag j b :: es) p'

/-- The program `t` can perform the accesses `x` and is `t'` then. -/
inductive Exec : Tree α → Execution α → Tree α → Prop
  | act {p es p'} : Trace p es p' → Exec (.act p) (.seq (es.map .event)) (.act p')
  | seqNil : Exec (.seq []) (.seq []) (.seq [])
  | seqStay {t x t' ts} : Exec t x t' → Exec (.seq (t :: ts)) (.seq [x]) (.seq (t' :: ts))
  | seqNext {t x t' ts xs u} : Exec t x t' → Done t' → Exec (.seq ts) (.seq xs) u →
      Exec (.seq (t :: ts)) (.seq (x :: xs)) u
  | par {ts xs ts'} : ts.length = xs.length → ts.length = ts'.length →
      (∀ (n : Nat) t x t', ts[n]? = some t → xs[n]? = some x → ts'[n]? = some t' → Exec t x t') →
      Exec (.par ts) (.par xs) (.par ts')

/-- The access at position `q` is a write to `l`. -/
def WritesAt (x : Execution α) (l : Loc) (q : List Turn) : Prop :=
  ∃ w, x.at q = some w ∧ w.isWrite = true ∧ w.loc = l

/-- `v` is the value of a visible side effect on `l` for position `p`: of a write that happens before
`p` such that no other write to `l` happens in between, or the initial value if no write to `l` happens
before `p`. -/
def Visible (m : Mem α) (x : Execution α) (p : List Turn) (l : Loc) (v : α ⊕ Bool) : Prop :=
  (∃ q w, x.at q = some w ∧ w.isWrite = true ∧ w.loc = l ∧ w.val = v ∧ HB q p ∧
    ∀ q', WritesAt x l q' → HB q' p → ¬ HB q q') ∨
  ((∀ q, WritesAt x l q → ¬ HB q p) ∧ v = m.val l)

/-- Every read yields the value of a visible side effect. -/
def Consistent (m : Mem α) (x : Execution α) : Prop :=
  ∀ p e, x.at p = some e → e.isWrite = false → Visible m x p e.loc e.val

/-- Two accesses to the same object, one of them a write, neither of which happens before the other. -/
def Racy (x : Execution α) : Prop :=
  ∃ p q e f, x.at p = some e ∧ x.at q = some f ∧ p ≠ q ∧ e.loc = f.loc ∧ e.isWrite = true ∧
    ¬ HB p q ∧ ¬ HB q p

/-- `m'` is a memory after the execution: every object has the value of a write after which no other
write to it happens, or its initial value. -/
def Final (m : Mem α) (x : Execution α) (m' : Mem α) : Prop :=
  ∀ l, (∃ q w, x.at q = some w ∧ w.isWrite = true ∧ w.loc = l ∧ w.val = m'.val l ∧
      ∀ q', WritesAt x l q' → ¬ HB q q') ∨
    ((∀ q, ¬ WritesAt x l q) ∧ m'.val l = m.val l)

/-- The behaviour of `t` is undefined: it has an execution with a data race, consistent up to then. -/
def Undefined (m : Mem α) (t : Tree α) : Prop := ∃ x t', Exec t x t' ∧ Consistent m x ∧ Racy x

/-- The behaviour of `t` in the C++ memory model is defined, no execution fails, complete executions
exist, and after each of them the cells satisfy `P`. -/
structure CppRuns (m : Mem α) (t : Tree α) (P : (Nat → α) → Prop) : Prop where
  defined : ¬ Undefined m t
  noError : ∀ x t' e, Exec t x t' → Consistent m x → ¬ Failed e t'
  complete : ∃ x t' m', Exec t x t' ∧ Consistent m x ∧ Done t' ∧ Final m x m'
  result : ∀ x t' m', Exec t x t' → Consistent m x → Done t' → Final m x m' → P m'.cell

end Verif
