import Verif.Model.IndexIterator
/-
Model of the objects of class `dim_index_iterator` in /repo/src/variants/index_iterator.hpp:45–129.
Model/IndexIterator.lean treats an iterator as its current index; here it is an object with three
references to vectors of its user, which assignment writes through.

Simplifications: the element type is `size_t` without overflow; an operation on an object that was
not created is an error outcome.
-/
namespace Verif.IndexIterator

/-- index_iterator.hpp:55–59: the members; `mn`, `mx` and `st` are references to the vectors with
these names. -/
structure Obj where
  dim : Nat
  cur_index : List Nat
  mn : Nat
  mx : Nat
  st : Nat

/-- The vectors of the user by name, and the iterators in the order of their creation
(index_iterator.hpp:55–59). -/
structure Objs where
  vec : Nat → List Nat
  its : List Obj

/-- Element access without check, index_iterator.hpp:69, 73, 79. -/
def rdL (v : List Nat) (d : Nat) : M Nat :=
  match v[d]? with
  | some a => .ok a
  | none => .error .oob

/-- Write without check, index_iterator.hpp:79. -/
def wrL (v : List Nat) (d a : Nat) : M (List Nat) :=
  if d < v.length then .ok (v.set d a) else .error .oob

/-- index_iterator.hpp:66–69: the first dimension from `d` on that can be incremented, among
`rest` ones. -/
def findDim (mx st cur : List Nat) : Nat → Nat → M (Option Nat)
  | _, 0 => .ok none
  | d, rest + 1 => do
    let c ← rdL cur d
    let s ← rdL st d
    let m ← rdL mx d
    if c + s < m then .ok (some d) else findDim mx st cur (d + 1) rest

/-- index_iterator.hpp:65–85 `increment` of an object. -/
def Obj.increment (vec : Nat → List Nat) (o : Obj) : M Obj := do
  match ← findDim (vec o.mx) (vec o.st) o.cur_index 0 o.dim with
  | none => .ok o
  | some d => do
    let c ← rdL o.cur_index d
    let s ← rdL (vec o.st) d
    let cur ← wrL o.cur_index d (c + s)
    let cur ← (List.range d).foldlM (fun cur i => do
      let m ← rdL (vec o.mn) i
      wrL cur i m) cur
    .ok { o with cur_index := cur }

/-- index_iterator.hpp:87–90 `equal`: `std::equal` with the end of the first range only. -/
def equal : List Nat → List Nat → M Bool
  | [], _ => .ok true
  | _ :: _, [] => .error .oob
  | a :: as, b :: bs => if a = b then equal as bs else .ok false

/-- What can be done with iterators: construction from three vectors (index_iterator.hpp:109–117),
the implicit copy constructor, assignment (lines 119–128) and increment (lines 65–85). -/
inductive Op where
  | new (mn mx st : Nat)
  | copy (y : Nat)
  | assign (x y : Nat)
  | inc (x : Nat)

/-- index_iterator.hpp:124: assignment through a reference. -/
def setVec (vec : Nat → List Nat) (x : Nat) (v : List Nat) : Nat → List Nat :=
  fun n => if n = x then v else vec n

/-- The `i`-th iterator that was created (of the objects of index_iterator.hpp:55–59). -/
def Objs.get (s : Objs) (i : Nat) : M Obj :=
  match s.its[i]? with
  | some o => .ok o
  | none => .error .oob

/-- index_iterator.hpp:119–128 `operator=` of two objects: `dim` and `cur_index` are members, the
other three assignments write to the vectors that the target refers to. -/
def Objs.assign (s : Objs) (x : Nat) (a b : Obj) : Objs :=
  let vec := setVec s.vec a.mn (s.vec b.mn)
  let vec := setVec vec a.mx (vec b.mx)
  let vec := setVec vec a.st (vec b.st)
  ⟨vec, s.its.set x { a with dim := b.dim, cur_index := b.cur_index }⟩

/-- One operation: index_iterator.hpp:109–117 (constructor), 119–128 (`operator=`), 65–85
(`increment`). -/
def Op.exec (s : Objs) : Op → M Objs
  | .new mn mx st =>
    if (s.vec mn).length ≠ (s.vec mx).length ∨ (s.vec mx).length ≠ (s.vec st).length then
      .error .terminate
    else .ok ⟨s.vec, s.its ++ [⟨(s.vec mn).length, s.vec mn, mn, mx, st⟩]⟩
  | .copy y => do
    let b ← s.get y
    .ok ⟨s.vec, s.its ++ [b]⟩
  | .assign x y => do
    let a ← s.get x
    let b ← s.get y
    if x = y then .ok s else .ok (s.assign x a b)
  | .inc x => do
    let a ← s.get x
    let a ← a.increment s.vec
    .ok ⟨s.vec, s.its.set x a⟩

/-- A sequence of the operations of index_iterator.hpp:65–128. -/
def execAll (s : Objs) (ops : List Op) : M Objs := ops.foldlM (fun s op => op.exec s) s

end Verif.IndexIterator
