import Verif.SpecRuns
/-
Specification vocabulary for runs of fork/join programs on a limited number of threads, for loops
whose iterations are handed out in groups, and for the number of threads that can be busy.
-/
namespace Verif
variable {α : Type}

/-- What has happened to a task: no thread has begun with it, a thread is busy with it, or it has
returned and its thread is free again. -/
inductive TaskState where
  | waiting
  | running
  | finished
  deriving DecidableEq

/-- A fork/join program during its execution by a pool of threads. -/
inductive Pool (α : Type) where
  | act (s : TaskState) (p : Act α Unit)
  | seq (ts : List (Pool α))
  | par (ts : List (Pool α))

namespace Pool

/-- No thread has begun with any task. -/
def fresh : Tree α → Pool α
  | .act p => .act .waiting p
  | .seq ts => .seq (ts.map fresh)
  | .par ts => .par (ts.map fresh)

/-- What remains to be done. -/
def tree : Pool α → Tree α
  | .act _ p => .act p
  | .seq ts => .seq (ts.map tree)
  | .par ts => .par (ts.map tree)

/-- Number of threads that are busy with a task. -/
def busy : Pool α → Nat
  | .act s _ => if s = .running then 1 else 0
  | .seq ts => (ts.map busy).sum
  | .par ts => (ts.map busy).sum

/-- All tasks have returned and no thread is busy with them any more. -/
inductive Finished : Pool α → Prop
  | act {p} : Finished (.act .finished p)
  | seq : Finished (.seq [])
  | par {ts} : (∀ t ∈ ts, Finished t) → Finished (.par ts)

/-- One step of a pool of threads; `free` says whether a thread without a task is left.  A thread
takes a task that is allowed to run (`take`), does its accesses one after the other (`work`), and
is free again when the task has returned (`leave`).  Waiting for other tasks occupies no thread. -/
inductive Step (free : Prop) : Mem α → Pool α → Mem α → Pool α → Prop
  | take {m p} : free → Step free m (.act .waiting p) m (.act .running p)
  | work {m m' p p'} : PStep m (.act p) m' (.act p') →
      Step free m (.act .running p) m' (.act .running p')
  | leave {m} : Step free m (.act .running (.ret ())) m (.act .finished (.ret ()))
  | seqStep {m m' t t' ts} : Step free m t m' t' →
      Step free m (.seq (t :: ts)) m' (.seq (t' :: ts))
  | seqNext {m t ts} : Finished t → Step free m (.seq (t :: ts)) m (.seq ts)
  | parStep {m m' t t' ts} (n : Nat) : ts[n]? = some t → Step free m t m' t' →
      Step free m (.par ts) m' (.par (ts.set n t'))

/-- Any number of steps of a pool of `threads` threads. -/
inductive Steps (threads : Nat) : Mem α → Pool α → Mem α → Pool α → Prop
  | refl {m t} : Steps threads m t m t
  | step {m t m' t' m'' t''} : Step (t.busy < threads) m t m' t' → Steps threads m' t' m'' t'' →
      Steps threads m t m'' t''

/-- Some thread is about to access `l`; `w` tells whether it is a write. -/
inductive Next : Pool α → Loc → Bool → Prop
  | act {p l w} : Verif.Next (.act p) l w → Next (.act .running p) l w
  | seq {t ts l w} : Next t l w → Next (.seq (t :: ts)) l w
  | par {t ts l w} (n : Nat) : ts[n]? = some t → Next t l w → Next (.par ts) l w

/-- Two threads are about to access the same location and at least one of them writes. -/
inductive Race : Pool α → Prop
  | here {ts t u l w} (n n' : Nat) :
      n ≠ n' → ts[n]? = some t → ts[n']? = some u → Next t l true → Next u l w → Race (.par ts)
  | seq {t ts} : Race t → Race (.seq (t :: ts))
  | par {t ts} : t ∈ ts → Race t → Race (.par ts)

end Pool

/-- However `threads` threads share the tasks among each other: the run is finite, never more than
`threads` threads are busy, no two of them ever race, and when none of them can do anything any more,
all tasks have returned and the cells satisfy `P`. -/
structure EveryPoolRun (threads : Nat) (m : Mem α) (t : Tree α) (P : (Nat → α) → Prop) : Prop where
  finite : ¬ ∃ f : Nat → Mem α × Pool α, f 0 = (m, Pool.fresh t) ∧
    ∀ n, Pool.Step ((f n).2.busy < threads) (f n).1 (f n).2 (f (n + 1)).1 (f (n + 1)).2
  limit : ∀ m' w, Pool.Steps threads m (.fresh t) m' w → w.busy ≤ threads
  raceFree : ∀ m' w, Pool.Steps threads m (.fresh t) m' w → ¬ w.Race
  ends : ∀ m' w, Pool.Steps threads m (.fresh t) m' w →
    (¬ ∃ m'' w', Pool.Step (w.busy < threads) m' w m'' w') → w.Finished ∧ P m'.cell

/-- `Grouped t u`: in `u` the parallel tasks of `t` (the iterations of parallel loops) are handed
out in groups; the tasks of a group run one after the other, in any order. -/
inductive Grouped : Tree α → Tree α → Prop
  | act (p : Act α Unit) : Grouped (.act p) (.act p)
  | seq {ts us : List (Tree α)} : ts.length = us.length →
      (∀ (n : Nat) t u, ts[n]? = some t → us[n]? = some u → Grouped t u) → Grouped (.seq ts) (.seq us)
  | par {ts us : List (Tree α)} (groups : List (List (Tree α))) : ts.length = us.length →
      (∀ (n : Nat) t u, ts[n]? = some t → us[n]? = some u → Grouped t u) → groups.flatten.Perm us →
      Grouped (.par ts) (.par (groups.map .seq))

/-- At most that many tasks of `t` can run at the same time. -/
def Tree.width : Tree α → Nat
  | .act _ => 1
  | .seq ts => (ts.map width).foldr max 0
  | .par ts => (ts.map width).sum

/-- With any number of threads up to `n`, there is a moment in some run at which all of them are
busy. -/
def Occupies (t : Tree α) (n : Nat) : Prop :=
  ∀ threads, threads ≤ n → ∀ m, ∃ m' w, Pool.Steps threads m (.fresh t) m' w ∧ w.busy = threads

/-- However many threads there are, never more than `n` of them are busy, and up to `n` can be busy
at the same time. -/
structure UsesThreads (t : Tree α) (n : Nat) : Prop where
  atMost : ∀ threads m m' w, Pool.Steps threads m (.fresh t) m' w → w.busy ≤ n
  reached : Occupies t n

end Verif
