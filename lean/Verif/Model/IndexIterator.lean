import Verif.Core.Act
/-
Model of /repo/src/variants/index_iterator.hpp.  Indices are lists of naturals; the user
function is kept abstract: `Calls` records which calls are made and how they are ordered.

Simplifications: the element type `T` is `size_t`; `std::ceil` of the quotient of two doubles
(lines 261–266) is the exact ceiling, which Props/DoubleUse.lean proves for operands below 2^53; `for_each_n`
with `par` may run all positions concurrently (coarser chunks: C123).
-/
namespace Verif.IndexIterator

/-- Calls of a user function (index_iterator.hpp:27, in the loops of lines 34–36, 274–275 and
318–320), with sequential and concurrent composition. -/
inductive Calls (ι : Type) where
  /-- call the function with index `i` -/
  | call (i : ι)
  /-- abort -/
  | fail (e : Err)
  | seq (ts : List (Calls ι))
  | par (ts : List (Calls ι))

/-- Run the calls with the function `f` (the argument `f` of index_iterator.hpp:170). -/
def Calls.toTree {ι α : Type} (f : ι → Act α Unit) : Calls ι → Tree α
  | .call i => .act (f i)
  | .fail e => .act (.fail e)
  | .seq ts => .seq (ts.map (Calls.toTree f))
  | .par ts => .par (ts.map (Calls.toTree f))

/-- index_iterator.hpp:12–21 `map_dims`. -/
def map_dims (sub_index map index : List Nat) : M (List Nat) :=
  if sub_index.length ≠ map.length then .error .terminate
  else (List.range sub_index.length).foldlM (fun (index : List Nat) i =>
    if map.getD i 0 < index.length then .ok (index.set (map.getD i 0) (sub_index.getD i 0))
    else .error .outOfRange) index

/-- index_iterator.hpp:23–37 `execute_looped<dim, cur_dim>`. The step is read (unchecked) after
the first pass through the body; with step 0 the body is repeated with the same index for ever,
modelled as one pass followed by divergence. -/
def execute_looped (mn mx st : List Nat) : Nat → Nat → List Nat → Calls (List Nat)
  | 0, _, args => .call args
  | dim + 1, cur_dim, args =>
    if st.length ≤ cur_dim ∧ mn.getD cur_dim 0 < mx.getD cur_dim 0 then
      .seq [execute_looped mn mx st dim (cur_dim + 1) (args ++ [mn.getD cur_dim 0]), .fail .oob]
    else if st.getD cur_dim 0 = 0 ∧ mn.getD cur_dim 0 < mx.getD cur_dim 0 then
      .seq [execute_looped mn mx st dim (cur_dim + 1) (args ++ [mn.getD cur_dim 0]), .fail .diverge]
    else .seq ((steps (mn.getD cur_dim 0) (mx.getD cur_dim 0) (st.getD cur_dim 0)).map fun cur =>
      execute_looped mn mx st dim (cur_dim + 1) (args ++ [cur]))

/-- index_iterator.hpp:39–43 `loop_nest<dim>`. -/
def loop_nest (dim : Nat) (mn mx st : List Nat) : Calls (List Nat) :=
  execute_looped mn mx st dim 0 []

/-- index_iterator.hpp:65–85 `dim_index_iterator::increment`: the first dimension that can be
incremented is, the lower ones are reset (the `for` loop with `return` is a search). The code
in looped.hpp:31–51 is the same, the one in algorithms.hpp:70–90 is the special case of
minimum 0 and step 1. -/
def increment (mn mx st cur : List Nat) : List Nat :=
  match (List.range cur.length).find?
      fun d => decide (cur.getD d 0 + st.getD d 0 < mx.getD d 0) with
  | none => cur
  | some d =>
    (List.range d).foldl (fun cur i => cur.set i (mn.getD i 0))
      (cur.set d (cur.getD d 0 + st.getD d 0))

/-- The iterator `dim_index_iterator(mn, mx, st)` (lines 109–117: `cur_index` starts at the
minimum) after `n` increments. -/
def iter (mn mx st : List Nat) : Nat → List Nat
  | 0 => mn
  | n + 1 => increment mn mx st (iter mn mx st n)

/-- index_iterator.hpp:131–166 `blocking_pseudo_execution_policy`: the number of dimensions and
`blocking_configuration` in the order of the `push_back`s. -/
structure Policy where
  dim : Nat
  cfg : List (List Nat × List Bool)

/-- index_iterator.hpp:138–146 `add_blocking`. -/
def Policy.add_blocking (p : Policy) (block : List Nat) (parallel_dims : List Bool) : M Policy :=
  if block.length ≠ p.dim ∨ parallel_dims.length ≠ p.dim then .error .terminate
  else .ok { p with cfg := p.cfg ++ [(block, parallel_dims)] }

/-- index_iterator.hpp:133–136, constructor. -/
def Policy.new (dim : Nat) : M Policy :=
  Policy.add_blocking ⟨dim, []⟩ (List.replicate dim 1) (List.replicate dim false)

/-- index_iterator.hpp:157–159 `set_final_steps`. -/
def Policy.set_final_steps (p : Policy) (steps : List Nat) : Policy :=
  { p with cfg := p.cfg.modify 0 fun c => (steps, c.2) }

/-- One factor of the products in index_iterator.hpp:256–268; the conversion of infinity or
NaN to `size_t` is undefined. -/
def blockCount (mn mx block : List Nat) (d : Nat) : M Nat :=
  if block.getD d 0 = 0 then .error .badCast
  else .ok (ceilDiv (usub (mx.getD d 0) (mn.getD d 0)) (block.getD d 0))

/-- index_iterator.hpp:256–268: number of blocks in the dimensions `ds`. -/
def blockCounts (mn mx block : List Nat) (ds : List Nat) : M Nat :=
  ds.foldlM (fun c d => (c * ·) <$> blockCount mn mx block d) 1

/-- index_iterator.hpp:168–362 `iterate_indices<dim>`; the configuration is listed from its
back, because `pop` takes the last entry.  `blockCounts` is the computation of lines 256–268. -/
def iterateRevBy (blockCounts : List Nat → List Nat → List Nat → List Nat → M Nat) (dim : Nat) :
    List (List Nat × List Bool) → List Nat → List Nat → Calls (List Nat)
  | [], mn, mx =>
    if mn.length ≠ mx.length ∨ mn.length ≠ dim then .fail .terminate
    else .fail .oob -- `back()` of an empty vector
  | [(block, _)], mn, mx =>
    if mn.length ≠ mx.length ∨ mn.length ≠ dim then .fail .terminate
    else loop_nest dim mn mx block
  | (block, parallel_dims) :: c :: rest, mn, mx =>
    if mn.length ≠ mx.length ∨ mn.length ≠ dim then .fail .terminate
    else if parallel_dims.length < dim then .fail .outOfRange
    else if block.length < dim then .fail .oob
    else
      let map := (List.range dim).filter fun d => parallel_dims.getD d false
      let serial := (List.range dim).filter fun d => !parallel_dims.getD d false
      let min_reduced := map.map fun d => mn.getD d 0
      let max_reduced := map.map fun d => mx.getD d 0
      let block_reduced := map.map fun d => block.getD d 0
      match blockCounts mn mx block map, blockCounts mn mx block serial with
      | .error e, _ => .fail e
      | _, .error e => .fail e
      | .ok inner_index_count_reduced, .ok inner_index_count_remain =>
        .par ((List.range inner_index_count_reduced).map fun n =>
          let partial_index := iter min_reduced max_reduced block_reduced n
          match map_dims partial_index map mn, map_dims partial_index map mx with
          | .error e, _ => .fail e
          | _, .error e => .fail e
          | .ok min_serial_fill, .ok max_serial_fill =>
            if block.length ≠ dim then .fail .terminate
            else .seq ((List.range inner_index_count_remain).map fun n =>
              let cur_index := iter min_serial_fill max_serial_fill block n
              iterateRevBy blockCounts dim (c :: rest) cur_index
                ((List.range dim).map fun d => cur_index.getD d 0 + block.getD d 0)))

/-- index_iterator.hpp:168–362 with the exact numbers of blocks. -/
abbrev iterateRev (dim : Nat) (cfg : List (List Nat × List Bool)) (mn mx : List Nat) :
    Calls (List Nat) :=
  iterateRevBy blockCounts dim cfg mn mx

/-- index_iterator.hpp:168–362 `iterate_indices<dim>(policy, min, max, f)`. -/
def iterate_indices (dim : Nat) (policy : Policy) (mn mx : List Nat) : Calls (List Nat) :=
  iterateRev dim policy.cfg.reverse mn mx

end Verif.IndexIterator
