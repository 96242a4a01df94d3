import Verif.Model.IndexIterator
/-
Model of /repo/src/variants/looped.hpp.  Everything in this file runs sequentially.  The
iterator (looped.hpp:11–81) is the one of index_iterator.hpp, see `IndexIterator.iter`.

Simplification: the product of the block counts (line 164) does not wrap around; Model/Variants64.lean
has it modulo 2^64 (C103).
-/
namespace Verif.Looped
open IndexIterator
variable {α : Type} [Arith α]

/-- looped.hpp:83–121 `blocking_pseudo_execution_policy`: the number of dimensions and the
block sizes in the order of the `push_back`s. -/
structure Policy where
  dim : Nat
  cfg : List (List Nat)

/-- looped.hpp:90–100 `add_blocking`. -/
def Policy.add_blocking (p : Policy) (block : List Nat) : M Policy :=
  if block.length ≠ p.dim then .error .terminate
  else .ok { p with cfg := p.cfg ++ [block] }

/-- looped.hpp:85–88, constructor. -/
def Policy.new (dim : Nat) : M Policy := Policy.add_blocking ⟨dim, []⟩ (List.replicate dim 1)

/-- looped.hpp:162–165: number of blocks, by integer division. -/
def inner_index_count (mn mx block : List Nat) : M Nat :=
  (List.range mn.length).foldlM (fun c d =>
    if block.length ≤ d then .error .oob
    else if block.getD d 0 = 0 then .error .divZero
    else .ok (c * (usub (mx.getD d 0) (mn.getD d 0) / block.getD d 0))) 1

/-- looped.hpp:148–228 `iterate_indices`; the configuration is listed from its back, because
`pop` takes the last entry. -/
def iterateRev {σ : Type} (f : List Nat → σ → M σ) :
    List (List Nat) → List Nat → List Nat → σ → M σ
  | [], mn, mx, _ =>
    if mn.length ≠ mx.length then .error .terminate
    else .error .oob -- `back()` of an empty vector
  | block :: rest, mn, mx, s =>
    if mn.length ≠ mx.length then .error .terminate
    else do
      let count ← inner_index_count mn mx block
      if mx.length ≠ block.length then .error .terminate
      else
        (List.range count).foldlM (fun s n =>
          let cur_index := iter mn mx block n
          match rest with
          | [] => f cur_index s
          | c :: rest =>
            iterateRev f (c :: rest) cur_index
              ((List.range mn.length).map fun d => cur_index.getD d 0 + block.getD d 0) s) s

/-- looped.hpp:148–228 `iterate_indices(policy, min, max, f)`. -/
def iterate_indices {σ : Type} (policy : Policy) (mn mx : List Nat) (f : List Nat → σ → M σ)
    (s : σ) : M σ :=
  iterateRev f policy.cfg.reverse mn mx s

/-- looped.hpp:273–282: the function called for each index. -/
def body (N : Nat) (A B : Array α) (cur_index : List Nat) (C : Array α) : M (Array α) := do
  let x := cur_index.getD 0 0
  let y := cur_index.getD 1 0
  let k := cur_index.getD 2 0
  let a ← rd A (x * N + k)
  let b ← rd B (y * N + k)
  let c ← rd C (x * N + y)
  wr C (x * N + y) (Arith.mac c a b)

/-- looped.hpp:248–284 `looped::matrix_multiply`. -/
def matrix_multiply (N : Nat) (A B : Array α) (block_result block_input : Nat) : M (Array α) := do
  let policy ← Policy.new 3
  let policy ← policy.add_blocking [block_result, block_result, block_input]
  iterate_indices policy [0, 0, 0] [N, N, N] (body N A B) (zeros (N * N))

end Verif.Looped
