import Verif.Store.Model

/-!
# The client's reactive loop

Models the part of `state.comm.onMsg` of `frontend/labextension/src/index.ts` 807-1003 that decides what to execute next when a schedule
arrives from the kernel.

Left out: highlights, metadata and user interface; `numAltModeExecutes`; that `executeCells` asks for the next schedule when all cells have
finished (`store.ts` 90-113). Sets are lists without repetition in insertion order. -/

namespace Verif.Client
open Verif Verif.Store

/-- A schedule from the kernel with what else the client consults when it arrives, `index.ts` 807-875.
`tables` are `cellParents` to `staleParentsByChildByExecutedCell`, `cells` is `cellsById` and `orderIdxById`, `widgets` are the cells of the
notebook in order, `count` is `executionCount`, `ordered` says that `flow_order` is `in_order` or `exec_schedule` is `strict`, `batch` that
`reactivity_mode` is `batch` rather than `incremental`. `deferred` are the cells the user asked to execute before the connection was
ready. -/
structure Payload where
  tables : Data
  cells : Cells
  widgets : List Nat
  count : Nat → Option Nat
  opts : Opts
  anyOrder : Bool
  ordered : Bool
  batch : Bool
  reactive : Bool
  newReady : List Nat
  forced : List Nat
  cascading : List Nat
  last : Option Nat
  failed : Bool
  deferred : List Nat

/-- `executedReactiveReadyCells`, `newReadyCells`, `forcedReactiveCells`, `forcedCascadingReactiveCells`,
`numPendingForcedReactiveCounterBumps`, `store.ts` 50-54. -/
structure St where
  executed : List Nat
  newReady : List Nat
  forced : List Nat
  cascading : List Nat
  bumps : Nat

/-- `new Set([...a, ...b])`. -/
def union (a b : List Nat) : List Nat := setOf (a ++ b)

/-- `index.ts` 827-873. -/
def absorb (s : St) (p : Payload) : St :=
  { executed := union s.executed p.last.toList
    newReady := if p.reactive then union s.newReady p.newReady else []
    forced := if s.bumps = 0 then union s.forced p.forced else []
    cascading := if s.bumps = 0 then union s.cascading p.cascading else []
    bumps := s.bumps }

/-- `computeTransitiveClosure`, `store.ts` 337-347. -/
def closure (p : Payload) (n : Nat) (start : List Nat) : Except Err (Option (List Nat)) := do
  let c ← raw p.tables p.opts n n n start true false
  toCells p.cells p.tables.children p.anyOrder n c

/-- The cells to execute in batch mode, `index.ts` 888-922. `none`: see `sortBy`. -/
def batchCells (p : Payload) (n : Nat) (s : St) : Except Err (Option (List Nat)) := do
  match ← closure p n (s.cascading.filter fun x => x ∉ s.executed) with
  | none => return none
  | some casc =>
    if p.reactive then
      match ← closure p n ((s.newReady ++ s.forced ++ casc).filter fun x => x ∉ s.executed) with
      | none => return none
      | some l => return some (l.filter fun x => x ∉ s.executed)
    else
      return sortBy p.cells.pos ((s.forced ++ casc).filter fun x => x ∉ s.executed ∧ x ∈ p.cells.keys ∧ (p.cells.pos x).isSome)

/-- Whether the loop of `index.ts` 936-971 gets past its `continue`s, given `lastExecutedCellIdSeen`. -/
def eligible (p : Payload) (s : St) (seen : Bool) (x : Nat) : Bool :=
  (seen || !p.ordered) && p.cells.code x && x ∉ s.executed && (s.forced.contains x || s.newReady.contains x && p.reactive)

/-- The loop of `index.ts` 936-971 in incremental mode: `lastExecutedCellIdSeen` and `cellPendingExecution`, from the given widgets on.
A missing count compares as 0. -/
def pick (p : Payload) (s : St) : Bool → Option Nat → List Nat → Option Nat
  | _, pending, [] => pending
  | seen, pending, x :: l =>
    let seen' := seen || decide (p.last = some x)
    if eligible p s seen x then
      match pending with
      | none => if p.ordered then some x else pick p s seen' (some x) l
      | some y =>
        match p.count x with
        | none => pick p s seen' (some y) l
        | some k => pick p s seen' (some (if k < (p.count y).getD 0 then x else y)) l
    else pick p s seen' pending l

/-- What the client does. `user` is the execution of deferred cells; `unspecified`: see `sortBy`. -/
inductive Act where
  | done
  | run (cells : List Nat)
  | user (cells : List Nat)
  | unspecified
deriving DecidableEq

/-- `index.ts` 990-1000. -/
def finish (s : St) : St := { executed := [], newReady := [], forced := [], cascading := [], bumps := s.bumps - 1 }

/-- A schedule arrives, `index.ts` 807-1003. -/
def step (n : Nat) (s₀ : St) (p : Payload) : Except Err (St × Act) :=
  let s := absorb s₀ p
  if p.deferred ≠ [] then .ok (s, .user p.deferred)
  else if p.failed then .ok (finish s, .done)
  else if p.batch then do
    match ← batchCells p n s with
    | none => return (s, .unspecified)
    | some [] => return (finish s, .done)
    | some l => return ({ s with executed := union s.executed l }, .run l)
  else
    match pick p s false none p.widgets with
    | none => .ok (finish s, .done)
    | some x => .ok (s, .run [x])

end Verif.Client
