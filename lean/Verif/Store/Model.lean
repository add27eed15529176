import Verif.Base.Dfs
import Mathlib.Data.List.Sort

/-!
# The client's closures and execution order

Models `computeRawTransitiveClosureHelper`, `#computeTopoOrderIdx`, `cellIdsToCells` and `computeRawTransitiveClosure` of
`frontend/labextension/src/store.ts` 152-335.

Ids of cells are numbers. A JavaScript `Set` is a list without repetition in insertion order; missing table entries are `none`. The depth of
recursion is bounded by fuel, `Err.fuel` stands for a recursion or loop that has not ended (`RangeError` in a browser). -/

namespace Verif.Store
open Verif

/-- The state of the client that closures depend on, `store.ts` 27-57. `staleParents x`, `byExec x` and `byChild x` are the entries of
`staleParents`, `staleParentsByExecutedCellByChild` and `staleParentsByChildByExecutedCell` for `x`, empty if there is none. -/
structure Data where
  parents : Nat → Option (List Nat)
  children : Nat → Option (List Nat)
  executed : Nat → Bool
  ready : Nat → Bool
  waiting : Nat → Bool
  dirty : Nat → Bool
  staleParents : Nat → List Nat
  byExec : Nat → List (Nat × List Nat)
  byChild : Nat → List (Nat × List Nat)

/-- `closure.add(id)`. -/
def add (x : Nat) (c : List Nat) : List Nat := if x ∈ c then c else c ++ [x]

/-- `computeRawTransitiveClosureHelper` without `pullReactiveUpdates`, `store.ts` 159-177 (the rest returns at 189). -/
def push (edges : Nat → Option (List Nat)) : Nat → List Nat → Nat → Bool → Except Err (List Nat)
  | 0, _, _, _ => .error .fuel
  | n + 1, c, x, skip =>
    if !skip && decide (x ∈ c) then .ok c
    else match edges x with
      | none => .ok (add x c)
      | some l => l.foldlM (fun c r => push edges n c r false) (add x c)

/-- The condition of `store.ts` 181-184 without the size: the cell must be run again. -/
def Data.stale (d : Data) (x : Nat) : Bool := !d.executed x || d.ready x || d.waiting x || d.dirty x

/-- `shouldIncludeRelated`, `store.ts` 195-208, for the parent `r` of `x`. -/
def Data.included (d : Data) (x : Nat) (c : List Nat) (r : Nat) : Bool :=
  (d.staleParents x).contains r || (d.byExec x).any fun p => decide (p.1 ∈ c) && p.2.contains r

/-- `store.ts` 192-219, one parent. -/
def pullRelated (d : Data) (rec : List Nat → Nat → Except Err (List Nat)) (x : Nat) (c : List Nat) (r : Nat) : Except Err (List Nat) :=
  if r ∈ c then .ok c else if d.included x c r then rec (add r c) r else .ok c

/-- `store.ts` 226-238, one stale parent. -/
def pullMaker (d : Data) (rec : List Nat → Nat → Except Err (List Nat)) (child : Nat) (c : List Nat) (p : Nat) : Except Err (List Nat) :=
  if decide (p ∈ c) || !((d.parents child).getD []).contains p then .ok c else rec (add p c) p

/-- `store.ts` 220-239, one child. -/
def pullMakers (d : Data) (rec : List Nat → Nat → Except Err (List Nat)) (c : List Nat) (e : Nat × List Nat) : Except Err (List Nat) :=
  if e.1 ∈ c then e.2.foldlM (pullMaker d rec e.1) c else .ok c

/-- `computeRawTransitiveClosureHelper` with `pullReactiveUpdates`, `store.ts` 159-240, over `cellParents`. -/
def pull (d : Data) : Nat → List Nat → Nat → Bool → Except Err (List Nat)
  | 0, _, _, _ => .error .fuel
  | n + 1, c, x, skip =>
    if !skip && decide (x ∈ c) then .ok c
    else match d.parents x with
      | none => .ok c
      | some l => do
        let c1 ← l.foldlM (fun c r => pull d n c r false) c
        let c2 := if decide (c1.length > c.length) || d.stale x then add x c1 else c1
        if x ∈ c2 then
          let c3 ← l.foldlM (pullRelated d (fun c r => pull d n c r true) x) c2
          (d.byChild x).foldlM (pullMakers d (fun c r => pull d n c r true)) c3
        else .ok c2

/-- `for (const cellId of closure)`, `store.ts` 313-321, from index `i` on; cells added meanwhile are visited. -/
def sweep (d : Data) (n : Nat) : Nat → Nat → List Nat → Except Err (List Nat)
  | m, i, c =>
    match c[i]? with
    | none => .ok c
    | some x =>
      match m with
      | 0 => .error .fuel
      | m + 1 => do
        let c' ← pull d n c x true
        sweep d n m (i + 1) c'

/-- `store.ts` 290-309, the loop over the start cells. -/
def pushAll (edges : Nat → Option (List Nat)) (n : Nat) (c : List Nat) (ids : List Nat) : Except Err (List Nat) :=
  ids.foldlM (fun c x => push edges n c x true) c

/-- The loop of `store.ts` 289-329 with `pull_reactive_updates`. -/
def rounds (d : Data) (cousins : Bool) (n m : Nat) : Nat → List Nat → List Nat → Except Err (List Nat)
  | 0, _, _ => .error .fuel
  | k + 1, ids, c => do
    let c1 ← pushAll d.children n c ids
    let c2 ← sweep d n m 0 c1
    if ids.length = c2.length || !cousins then .ok c2 else rounds d cousins n m k c2 c2

/-- `new Set(cellIds)`. -/
def setOf (ids : List Nat) : List Nat := ids.foldl (fun c x => add x c) []

/-- The settings `pull_reactive_updates` and `push_reactive_updates_to_cousins`. -/
structure Opts where
  pull : Bool
  cousins : Bool

/-- `computeRawTransitiveClosure`, `store.ts` 282-335. -/
def raw (d : Data) (o : Opts) (n m k : Nat) (start : List Nat) (inclusive parents : Bool) : Except Err (List Nat) := do
  let out ← if parents then pushAll d.parents n (setOf start) start
    else if o.pull then rounds d o.cousins n m k start (setOf start)
    else pushAll d.children n (setOf start) start
  return if inclusive then out else out.filter fun x => x ∉ start

/-! ## Order -/

/-- `cellsById` and `orderIdxById`, `index.ts` 568-576: the keys in order, whether a cell is a code cell, positions. -/
structure Cells where
  keys : List Nat
  code : Nat → Bool
  pos : Nat → Option Nat

/-- `#computeTopoOrderIdxHelper`, `store.ts` 242-255; the state is `(orderedCellIds, seen)`. -/
def topo (cs : Cells) (children : Nat → Option (List Nat)) : Nat → List Nat × List Nat → Nat → Except Err (List Nat × List Nat)
  | 0, _, _ => .error .fuel
  | n + 1, st, x =>
    if x ∈ st.2 ∨ ¬ (x ∈ cs.keys ∧ cs.code x = true) then .ok st
    else do
      let st' ← ((children x).getD []).foldlM (fun st y => topo cs children n st y) (st.1, st.2 ++ [x])
      return (x :: st'.1, st'.2)

/-- `#computeTopoOrderIdx`, `store.ts` 257-263. -/
def topoOrder (cs : Cells) (children : Nat → Option (List Nat)) (n : Nat) : Except Err (List Nat) :=
  (cs.keys.foldlM (fun st x => topo cs children n st x) ([], [])).map Prod.fst

/-- `topoOrderIdx[id]`, `store.ts` 264-267. -/
def idxOf (order : List Nat) (x : Nat) : Option Nat := if x ∈ order then some (order.idxOf x) else none

/-- `.sort((a, b) => idx[a] - idx[b])`, `store.ts` 278. If an index is `undefined`, differences are `NaN` and the order of the result is
left to the implementation of `sort`: `none` (one cell alone is not compared). -/
def sortBy (idx : Nat → Option Nat) (l : List Nat) : Option (List Nat) :=
  if l.length ≤ 1 || l.all fun x => (idx x).isSome then some (l.insertionSort fun a b => (idx a).getD 0 ≤ (idx b).getD 0) else none

/-- `cellIdsToCells`, `store.ts` 270-280. -/
def toCells (cs : Cells) (children : Nat → Option (List Nat)) (anyOrder : Bool) (n : Nat) (ids : List Nat) :
    Except Err (Option (List Nat)) := do
  let idx ← if anyOrder then (topoOrder cs children n).map idxOf else .ok cs.pos
  return sortBy idx ((ids.filter fun x => x ∈ cs.keys).filter fun x => (cs.pos x).isSome)

end Verif.Store
