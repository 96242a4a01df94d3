import Verif.Core.Basic
/-
Shared-memory tasks, fork/join trees of tasks and their interleaving semantics.
-/
namespace Verif

/-- A task operating on one shared vector of cells (addressed by their index) and on
shared boolean flags.  Each read and write of one cell or flag is one atomic step. -/
inductive Act (α : Type) (R : Type) where
  | ret (r : R)
  | fail (e : Err)
  | rd (i : Nat) (k : α → Act α R)
  | wr (i : Nat) (v : α) (k : Act α R)
  | rdFlag (j : Nat) (k : Bool → Act α R)
  | wrFlag (j : Nat) (b : Bool) (k : Act α R)

namespace Act
variable {α R S : Type}

/-- Sequencing inside one task. -/
def bind : Act α R → (R → Act α S) → Act α S
  | ret r, f => f r
  | fail e, _ => fail e
  | rd i k, f => rd i (fun v => (k v).bind f)
  | wr i v k, f => wr i v (k.bind f)
  | rdFlag j k, f => rdFlag j (fun b => (k b).bind f)
  | wrFlag j b k, f => wrFlag j b (k.bind f)

instance : Monad (Act α) where
  pure := ret
  bind := bind

/-- `try { p } catch …`: run `h e` when `p` raises `e`.  Memory changes made by `p` before
the error persist. -/
def tryCatch : Act α R → (Err → Act α R) → Act α R
  | ret r, _ => ret r
  | fail e, h => h e
  | rd i k, h => rd i (fun v => (k v).tryCatch h)
  | wr i v k, h => wr i v (k.tryCatch h)
  | rdFlag j k, h => rdFlag j (fun b => (k b).tryCatch h)
  | wrFlag j b k, h => wrFlag j b (k.tryCatch h)

instance : MonadExceptOf Err (Act α) where
  throw := fail
  tryCatch := tryCatch

/-- `try { p } catch (const std::out_of_range &) { print }`. -/
def catchOutOfRange (p : Act α Unit) : Act α Unit :=
  p.tryCatch fun e => if e = .outOfRange then ret () else fail e

/-- Task-local computation that touches no shared mutable data. -/
def ofM : M R → Act α R
  | .ok r => ret r
  | .error e => fail e

/-- `C[i]` for a shared vector of `n` elements. -/
def read (n i : Nat) : Act α α := if i < n then rd i ret else fail .oob

/-- `C[i] = v` for a shared vector of `n` elements. -/
def write (n i : Nat) (v : α) : Act α Unit := if i < n then wr i v (ret ()) else fail .oob

/-- `C.at(i) = v` for a shared vector of `n` elements. -/
def writeAt (n i : Nat) (v : α) : Act α Unit :=
  if i < n then wr i v (ret ()) else fail .outOfRange

/-- `C[i] += v` for a shared vector of `n` elements (a read followed by a write). -/
def addTo [Arith α] (n i : Nat) (v : α) : Act α Unit := do
  let c ← read n i
  write n i (Arith.add c v)

end Act

/-- Fork/join programs. -/
inductive Tree (α : Type) where
  | act (p : Act α Unit)
  | seq (ts : List (Tree α))
  | par (ts : List (Tree α))

/-- Shared memory: the cells of the shared vector and the flags. -/
structure Mem (α : Type) where
  cell : Nat → α
  flag : Nat → Bool

namespace Mem
variable {α : Type}
/-- memory after storing `v` in cell `i` -/
def set (m : Mem α) (i : Nat) (v : α) : Mem α :=
  { m with cell := fun j => if j = i then v else m.cell j }
/-- memory after storing `b` in flag `i` -/
def setFlag (m : Mem α) (i : Nat) (b : Bool) : Mem α :=
  { m with flag := fun j => if j = i then b else m.flag j }
end Mem

variable {α R : Type}

/-- Run one task alone. -/
def Act.exec : Act α R → Mem α → Except Err R × Mem α
  | .ret r, m => (.ok r, m)
  | .fail e, m => (.error e, m)
  | .rd i k, m => (k (m.cell i)).exec m
  | .wr i v k, m => k.exec (m.set i v)
  | .rdFlag j k, m => (k (m.flag j)).exec m
  | .wrFlag j b k, m => k.exec (m.setFlag j b)

/-- Contents of a vector as cells (cells past the end are never accessed). -/
def Mem.ofArray [Arith α] (a : Array α) : Mem α :=
  ⟨fun i => (a[i]?).getD Arith.zero, fun _ => true⟩

/-- The first `n` cells as a vector. -/
def toArray (n : Nat) (c : Nat → α) : Array α := Array.ofFn (n := n) fun i => c i

/-- Run one task alone on the vector `a`; the result is the vector afterwards. -/
def Act.execOn [Arith α] (p : Act α R) (a : Array α) : M (Array α) :=
  match p.exec (Mem.ofArray a) with
  | (.ok _, m) => .ok (toArray a.size m.cell)
  | (.error e, _) => .error e

/-- All tasks of the tree have returned. -/
inductive Done : Tree α → Prop
  | act : Done (.act (.ret ()))
  | seq : Done (.seq [])
  | par {ts} : (∀ t ∈ ts, Done t) → Done (.par ts)

/-- Some task of the tree that is currently allowed to run has run into error `e`. -/
inductive Failed (e : Err) : Tree α → Prop
  | act : Failed e (.act (.fail e))
  | seq {t ts} : Failed e t → Failed e (.seq (t :: ts))
  | par {t ts} : t ∈ ts → Failed e t → Failed e (.par ts)

/-- One atomic step of any task that is currently allowed to run. -/
inductive PStep : Mem α → Tree α → Mem α → Tree α → Prop
  | rd {m i k} : PStep m (.act (.rd i k)) m (.act (k (m.cell i)))
  | wr {m i v k} : PStep m (.act (.wr i v k)) (m.set i v) (.act k)
  | rdFlag {m j k} : PStep m (.act (.rdFlag j k)) m (.act (k (m.flag j)))
  | wrFlag {m j b k} : PStep m (.act (.wrFlag j b k)) (m.setFlag j b) (.act k)
  | seqStep {m m' t t' ts} :
      PStep m t m' t' → PStep m (.seq (t :: ts)) m' (.seq (t' :: ts))
  | seqNext {m t ts} : Done t → PStep m (.seq (t :: ts)) m (.seq ts)
  | parStep {m m' t t' ts} (n : Nat) :
      ts[n]? = some t → PStep m t m' t' → PStep m (.par ts) m' (.par (ts.set n t'))

/-- Any number of steps. -/
inductive PSteps : Mem α → Tree α → Mem α → Tree α → Prop
  | refl {m t} : PSteps m t m t
  | step {m t m' t' m'' t''} : PStep m t m' t' → PSteps m' t' m'' t'' → PSteps m t m'' t''

/-- An access a tree may perform as its next step. -/
inductive Loc where
  | cell (i : Nat)
  | flag (j : Nat)
  deriving DecidableEq

/-- `Next t l w`: some task of `t` that may run now is about to access `l`; `w` tells
whether it is a write. -/
inductive Next : Tree α → Loc → Bool → Prop
  | rd {i k} : Next (.act (.rd i k)) (.cell i) false
  | wr {i v k} : Next (.act (.wr i v k)) (.cell i) true
  | rdFlag {j k} : Next (.act (.rdFlag j k)) (.flag j) false
  | wrFlag {j b k} : Next (.act (.wrFlag j b k)) (.flag j) true
  | seq {t ts l w} : Next t l w → Next (.seq (t :: ts)) l w
  | par {t ts l w} (n : Nat) : ts[n]? = some t → Next t l w → Next (.par ts) l w

/-- Two different tasks that may both run now are about to access the same location and
at least one of them writes. -/
inductive Race : Tree α → Prop
  | here {ts t u l w} (n n' : Nat) :
      n ≠ n' → ts[n]? = some t → ts[n']? = some u → Next t l true → Next u l w → Race (.par ts)
  | seq {t ts} : Race t → Race (.seq (t :: ts))
  | par {t ts} : t ∈ ts → Race t → Race (.par ts)

/-- No interleaving reaches a data race. -/
def RaceFree (m : Mem α) (t : Tree α) : Prop :=
  ∀ m' t', PSteps m t m' t' → ¬ Race t'

/-- Nondeterministic results: the set of possible outcomes of a (parallel) program. -/
def ND (R : Type) : Type := Except Err R → Prop

namespace ND
variable {R S : Type}

/-- exactly one outcome, normal return of `r` -/
def pure (r : R) : ND R := fun o => o = .ok r

/-- exactly one outcome, the error `e` -/
def fail (e : Err) : ND R := fun o => o = .error e

/-- run `x`, then `f` on its result -/
def bind (x : ND R) (f : R → ND S) : ND S := fun o =>
  (∃ e, x (.error e) ∧ o = .error e) ∨ (∃ r, x (.ok r) ∧ f r o)

instance : Monad ND where
  pure := pure
  bind := bind

instance : MonadExceptOf Err ND where
  throw := fail
  tryCatch x h := fun o =>
    (∃ r, x (.ok r) ∧ o = .ok r) ∨ (∃ e, x (.error e) ∧ h e o)

/-- sequential code as nondeterministic program with one outcome -/
def ofM (x : M R) : ND R := fun o => o = x

/-- Run a fork/join program on a shared vector with contents `c` (and flags `fl`) under
an arbitrary schedule; the result is the final contents of the vector. -/
def run (c : Nat → α) (fl : Nat → Bool) (t : Tree α) : ND (Nat → α) := fun o =>
  (∃ m' t', PSteps ⟨c, fl⟩ t m' t' ∧ Done t' ∧ o = .ok m'.cell) ∨
  (∃ m' t' e, PSteps ⟨c, fl⟩ t m' t' ∧ Failed e t' ∧ o = .error e)

/-- Run a fork/join program on the shared vector `a`; the tasks know its length. -/
def runOn [Arith α] (a : Array α) (t : Tree α) : ND (Array α) :=
  bind (run (Mem.ofArray a).cell (fun _ => true) t) (fun c => pure (toArray a.size c))

end ND
end Verif
