import Verif.Base.Dfs
import Verif.Base.Assoc

/-!
# Uses of values that were set further below

With `%flow lint_ooo` on, each schedule lists the places at which cells used variables whose value had been set by a cell that now stands below. Models
`_compute_unsafe_order_usages` of `core/ipyflow/frontend.py` 493-523, on what `Symbol.update_usage_info` (`core/ipyflow/data_model/symbol.py`
1259-1298, 1240-1257) has noted, with `set_cell_positions` and `position` of `core/ipyflow/data_model/cell.py` 175-186, 420-432.

Cells are lists of statements that each read variables, at places in the text, and then may set one; all values are numbers. Executions are
numbered by the counter of cells. A statement that reads a variable that is not there raises, and the cell ends. Simplified: only statements at the
top level; variables are not deleted; nothing blocks (`is_blocking`); nodes have their four attributes (507-516); what becomes of a place in
`_make_range_from_node` (29-39) is not modelled; the cells are run in a notebook, not in a terminal (`cell.py` 180-185). -/

namespace Verif.Lint
open Verif

/-- A `Timestamp`: the number of the execution and that of the statement, `timestamp.py` 36-38. -/
abbrev Time := Nat × Nat

/-- Order of tuples, as `updated_time < used_time` in `symbol.py` 1247. -/
def before (a b : Time) : Bool := decide (a.1 < b.1) || (decide (a.1 = b.1) && decide (a.2 < b.2))

/-- A statement: the variables that it reads, each with its place (the `used_node` of `tracing/symbol_resolver.py` 71-73), in the order in which they are
visited, and the variable that it sets. -/
structure Stmt where
  reads : List (Nat × Nat)
  write : Option Nat

/-- A `Symbol`, `symbol.py` 165-170, 225-230: its `timestamp` (the last of `updated_timestamps`), `timestamp_by_used_time` and
`used_node_by_used_time`. -/
structure Sym where
  ts : Time
  used : List (Time × Time)
  node : List (Time × Nat)

/-- `position`, `cell.py` 175-186: unknown cells are at -1, those that were removed at infinity in in-order mode (420-432). -/
inductive Pos where
  | unknown
  | at (n : Nat)
  | removed
  deriving DecidableEq, Repr

/-- `<=` on positions, `frontend.py` 504. -/
def Pos.le : Pos → Pos → Bool
  | .unknown, _ => true
  | .at _, .unknown => false
  | .at m, .at n => decide (m ≤ n)
  | .at _, .removed => true
  | .removed, .removed => true
  | .removed, _ => false

/-- The state: the number of executions, the symbols by name (`flow.py` 616-618), the cell of each execution (`_cell_by_cell_ctr`), the last execution
of each cell (`_current_cell_by_cell_id`), `_position_by_cell_id`, and whether the order of flow is that of the notebook. -/
structure State where
  ctr : Nat
  syms : List (Nat × Sym)
  cellAt : Nat → Option Nat
  cells : List (Nat × Nat)
  pos : List (Nat × Pos)
  inOrder : Bool

/-- A fresh kernel, `flow.py` 100-203. -/
def State.init : State := ⟨0, [], fun _ => none, [], [], false⟩

/-- `update_usage_info` for one symbol, `symbol.py` 1282-1298: the last update counts if it comes before. -/
def use (now : Time) (place : Nat) (s : Sym) : Sym :=
  if before s.ts now then { s with used := Assoc.set s.used now s.ts, node := Assoc.set s.node now place } else s

/-- One variable that is read, `timestamp.py` 120-124. -/
def useOne (now : Time) (syms : List (Nat × Sym)) (r : Nat × Nat) : List (Nat × Sym) :=
  match Assoc.get syms r.1 with
  | none => syms
  | some s => Assoc.set syms r.1 (use now r.2 s)

/-- The variable that is set: its symbol is kept and gets a new timestamp (`symbol.py` 1349-1360), or is made. -/
def write (now : Time) (syms : List (Nat × Sym)) (x : Nat) : List (Nat × Sym) :=
  match Assoc.get syms x with
  | none => Assoc.set syms x ⟨now, [], []⟩
  | some s => Assoc.set syms x { s with ts := now }

/-- A statement is run; `none` if it raises. -/
def runStmt (now : Time) (s : Stmt) (syms : List (Nat × Sym)) : Option (List (Nat × Sym)) :=
  if s.reads.all (fun r => (Assoc.get syms r.1).isSome) then
    let syms := s.reads.foldl (useOne now) syms
    match s.write with
    | none => some syms
    | some x => some (write now syms x)
  else none

/-- The statements of a cell, from number `i` on, until one raises. -/
def runStmts (k : Nat) : Nat → List Stmt → List (Nat × Sym) → List (Nat × Sym)
  | _, [], syms => syms
  | i, s :: ss, syms =>
    match runStmt (k, i) s syms with
    | none => syms
    | some syms => runStmts k (i + 1) ss syms

/-- What happens: a cell is run, the client tells the order of its cells, or `%flow direction` switches the order of flow. -/
inductive Event where
  | run (id : Nat) (code : List Stmt)
  | order (ids : List Nat)
  | direction (inOrder : Bool)

/-- The dictionary that the client sends, `order_index_by_id` in `comm_manager.py` 298-303: ids with their numbers. -/
def indices : Nat → List Nat → List (Nat × Pos)
  | _, [] => []
  | n, i :: is => (i, .at n) :: indices (n + 1) is

/-- `set_cell_positions`, `cell.py` 420-432: in in-order mode, cells that were known and are not mentioned are at infinity. -/
def setPositions (inOrder : Bool) (old new : List (Nat × Pos)) : List (Nat × Pos) :=
  if inOrder then new ++ (old.filter (fun p => !(Assoc.keys new).contains p.1)).map (fun p => (p.1, .removed)) else new

/-- A cell is run: it gets the next number. -/
def runCell (σ : State) (id : Nat) (code : List Stmt) : State :=
  { σ with
    ctr := σ.ctr + 1
    syms := runStmts (σ.ctr + 1) 0 code σ.syms
    cellAt := fun k => if k = σ.ctr + 1 then some id else σ.cellAt k
    cells := Assoc.set σ.cells id (σ.ctr + 1) }

/-- One event. -/
def step (σ : State) : Event → State
  | .run id code => runCell σ id code
  | .order ids => { σ with pos := setPositions σ.inOrder σ.pos (indices 0 ids) }
  | .direction b => { σ with inOrder := b }

/-- A session, newest event first. -/
def run : List Event → State
  | [] => .init
  | e :: h => step (run h) e

/-- `Cell.position`, `cell.py` 177. -/
def position (σ : State) (id : Nat) : Pos := (Assoc.get σ.pos id).getD .unknown

/-- What is listed for a cell: the name, the place and `last_updated_cell`, `frontend.py` 517-523. -/
structure Entry where
  cell : Nat
  name : Nat
  place : Nat
  setter : Nat
  deriving DecidableEq, Repr

/-- `cell_by_ctr.get`, `frontend.py` 496, 501: the cell whose last execution has this number. -/
def cellByCtr (cells : List (Nat × Nat)) (k : Nat) : Option Nat := (cells.find? (fun p => p.2 = k)).map (·.1)

/-- One use of a symbol, `frontend.py` 500-523. `at_timestamp` raises for a number that is not there. -/
def lintOne (σ : State) (x : Nat) (s : Sym) (u : Time × Time) : Except Err (List Entry) :=
  match cellByCtr σ.cells u.1.1 with
  | none => .ok []
  | some c =>
    match σ.cellAt u.2.1 with
    | none => .error .crash
    | some d =>
      if (position σ d).le (position σ c) then .ok []
      else
        match Assoc.get s.node u.1 with
        | none => .ok []
        | some n => .ok [⟨c, x, n, u.2.1⟩]

/-- The uses of one symbol, `frontend.py` 500. -/
def lintSym (σ : State) (x : Nat) (s : Sym) : List (Time × Time) → Except Err (List Entry)
  | [] => .ok []
  | u :: us =>
    match lintOne σ x s u with
    | .error e => .error e
    | .ok l =>
      match lintSym σ x s us with
      | .error e => .error e
      | .ok l' => .ok (l ++ l')

/-- All symbols, `frontend.py` 497. -/
def lintAll (σ : State) : List (Nat × Sym) → Except Err (List Entry)
  | [] => .ok []
  | p :: ps =>
    match lintSym σ p.1 p.2 p.2.used with
    | .error e => .error e
    | .ok l =>
      match lintAll σ ps with
      | .error e => .error e
      | .ok l' => .ok (l ++ l')

/-- `_compute_unsafe_order_usages`, `frontend.py` 493-523. -/
def lint (σ : State) : Except Err (List Entry) := lintAll σ σ.syms

end Verif.Lint
