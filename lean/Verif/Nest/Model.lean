import Verif.Base.Dfs

/-!
# Runs of code inside runs of cells

Models how runs are numbered and what is recorded under these numbers, in `core/ipyflow/shell/interactiveshell.py` 244-325 (`_tracing_context`), 355-460 (`run_cell_async`,
`_ipyflow_run_cell`), 478-493 (`inner_tracing_context`), 535-583 (`before_run_cell`), 675-700 (`after_run_cell`); `core/ipyflow/data_model/cell.py` 362-417
(`create_and_track`), 473-521 and 698; `core/ipyflow/utils/ipython_utils.py` 17-28, 72-75; `core/ipyflow/tracing/ipyflow_tracer.py` 251-293, 1578;
`core/ipyflow/data_model/timestamp.py` 40-49; `core/ipyflow/data_model/symbol.py` 1240-1296; `core/ipyflow/flow.py` 427-441, 596-613; `core/ipyflow/slicing/mixin.py` 300-319.

While a cell runs, more code can be run as if it were a cell: the magic `%%capture` runs the rest of its cell with `run_cell`, so do `%rerun` and `%edit`, and so can code of the
user. Such a run does not count for `IPython` (`store_history=False`) and brings no id of a cell with it.

Simplified: a history is a list of events, one for every start and end of a run and one for every top-level statement. Statements read and set variables as wholes; every symbol
keeps the time of its latest assignment only. Only recorded (dynamic) dependencies between cells are modelled, without the removal of dangling symbols. Cells are not silent, not
empty, not memoized, and have no tags; tracing is on in the settings and was set up before (279-288). `IPython` is not part of the repository: that it counts up after a
run with `store_history` only is part of the model (`finish`). -/

namespace Verif.Nest
open Verif

/-- Ids of cells, variables, and texts of code are left open. -/
abbrev Id := Nat
/-- Variables. -/
abbrev Var := Nat
/-- The text of a cell, or of code run as a cell. -/
abbrev Code := Nat

/-- What happens. The newest event of a history comes first. -/
inductive Ev where
  /-- a cell is run by the user: `run_cell_async` with `store_history=True` and the id of the cell, `interactiveshell.py` 355-393 -/
  | start (i : Id) (c : Code)
  /-- code is run by code that is running, with `store_history=False` and no id: by a magic (`true`) or by a direct call of `run_cell` -/
  | enter (magic : Bool) (c : Code)
  /-- a top-level statement of the code that is running has been carried out -/
  | stmt (uses defs : List Var)
  /-- the code that was entered last has come to its end -/
  | leave
  /-- the cell has come to its end -/
  | finish
  deriving DecidableEq

/-- A table with one entry changed: the dictionaries of `cell.py` 365-417. -/
def upd {α : Type} (f : Nat → α) (k : Nat) (a : α) : Nat → α := fun x => if x = k then a else f x

/-- What the kernel keeps. Versions of cells (`Cell` objects) are numbered in the order in which they are made. -/
structure W where
  /-- `Cell._cell_counter`, `cell.py` 374 -/
  ctr : Nat
  /-- `execution_count` of `IPython`, `ipython_utils.py` 23, `cell.py` 377 -/
  host : Nat
  /-- `flow_.active_cell_id`, `interactiveshell.py` 563-565 -/
  active : Id
  /-- how many versions there are -/
  made : Nat
  /-- `cell_id`, `cell_ctr`, `content` and `prev_cell` of a version, `cell.py` 392-400 -/
  idOf : Nat → Id
  num : Nat → Nat
  code : Nat → Code
  prev : Nat → Option Nat
  /-- `raw_dynamic_parents` of a version, `slicing/mixin.py` 300-316 -/
  parents : Nat → List (Id × Var)
  /-- `raw_dynamic_children`, shared by the versions of a cell (`cell.py` 403): the parent, the child, and the symbol -/
  kids : List (Id × Id × Var)
  /-- `_cell_by_cell_ctr`, `cell.py` 412-413 -/
  byCtr : Nat → Option Nat
  /-- `_current_cell_by_cell_id`, `cell.py` 414-416 -/
  cur : Id → Option Nat
  /-- `timestamp` of a symbol: `timestamp.py` 40-49 -/
  ts : Var → Option (Nat × Nat)
  /-- `_module_stmt_counter`, `ipyflow_tracer.py` 181, 1578 -/
  nstmt : Nat
  /-- `is_tracing_enabled`, `ipyflow_tracer.py` 252-261 -/
  on : Bool
  /-- a cell is running -/
  running : Bool
  /-- for every run inside the run: for a magic, whether tracing was on when it was called (`is_tracing_enabled`, `ipyflow_tracer.py` 253); nothing for a direct call -/
  stack : List (Option Bool)

/-- The kernel before the first cell: `cell.py` 374, `IPython` counts from one. -/
def start₀ : W :=
  { ctr := 0, host := 1, active := 0, made := 0, idOf := fun _ => 0, num := fun _ => 0, code := fun _ => 0, prev := fun _ => none, parents := fun _ => [], kids := [],
    byCtr := fun _ => none, cur := fun _ => none, ts := fun _ => none, nstmt := 0, on := false, running := false, stack := [] }

/-- The number of a new version, `cell.py` 373-386: counted up, but taken from `IPython` if the two differ and `store_history` is set. (`ipy_cell_counter()` is the
`execution_count` saved at the start of the run, `ipython_utils.py` 21-23.) -/
def number (w : W) (validate : Bool) : Nat := if validate && decide (w.ctr + 1 ≠ w.host) then w.host else w.ctr + 1

/-- Whether the new version becomes the current one of its cell, `cell.py` 414-416. -/
def newest (w : W) (i : Id) (n : Nat) : Bool :=
  match w.cur i with
  | none => true
  | some o => decide (w.num o < n)

/-- `create_and_track`, `cell.py` 373-417. -/
def create (w : W) (i : Id) (c : Code) (validate : Bool) : W :=
  let n := number w validate
  { w with
    ctr := n, made := w.made + 1, idOf := upd w.idOf w.made i, num := upd w.num w.made n, code := upd w.code w.made c, prev := upd w.prev w.made (w.cur i)
    parents := upd w.parents w.made [], byCtr := upd w.byCtr n (some w.made)
    cur := if newest w i n then upd w.cur i (some w.made) else w.cur }

/-- `_ipyflow_run_cell` up to the first statement, `interactiveshell.py` 403-405, 244-309: the version is made, all state of the tracer is reset, tracing is switched on. -/
def begin (w : W) (c : Code) (validate : Bool) : W := { create w w.active c validate with nstmt := 0, on := true }

/-- `is_current`, `cell.py` 689-694. -/
def isCurrent (w : W) (o : Nat) : Bool := decide (w.cur (w.idOf o) = some o)

/-- `raw_parents` of the previous version for one symbol, `slicing/mixin.py` 309-313. -/
def inherited (w : W) (c : Nat) (v : Var) : List (Id × Var) :=
  match w.prev c with
  | none => []
  | some q => (w.parents q).filter (fun e => decide (e.2 = v))

/-- `add_parent_edges` for one symbol, `slicing/mixin.py` 300-316. -/
def addParent (w : W) (c p : Nat) (v : Var) : W :=
  if w.kids.any (fun k => decide (k.1 = w.idOf c ∧ k.2.1 = w.idOf p)) then w
  else if w.idOf p = w.idOf c then { w with parents := upd w.parents c (w.parents c ++ inherited w c v) }
  else { w with parents := upd w.parents c (w.parents c ++ [(w.idOf p, v)]), kids := w.kids ++ [(w.idOf p, w.idOf c, v)] }

/-- `add_data_dep`, `flow.py` 436-441, for the statement that is running and a time of assignment. A number without a version is a `KeyError`, `cell.py` 491. -/
def addDep (w : W) (t : Nat) (v : Var) : Except Err W :=
  match w.byCtr w.ctr, w.byCtr t with
  | some c, some p => .ok (if isCurrent w c && isCurrent w p then addParent w c p v else w)
  | _, _ => .error .crash

/-- Times are compared as pairs: `timestamp.py` 35, used in `symbol.py` 1247. -/
def before (a b : Nat × Nat) : Bool := decide (a.1 < b.1 ∨ (a.1 = b.1 ∧ a.2 < b.2))

/-- `update_usage_info` of a variable that is read, `symbol.py` 1240-1254, 1284-1294. -/
def use (w : W) (v : Var) : Except Err W :=
  match w.ts v with
  | none => .ok w
  | some t => if before t (w.ctr, w.nstmt) then addDep w t.1 v else .ok w

/-- All variables that a statement reads: `timestamp.py` 118-124. -/
def useAll : List Var → W → Except Err W
  | [], w => .ok w
  | v :: vs, w =>
    match use w v with
    | .error e => .error e
    | .ok w1 => useAll vs w1

/-- The variables set by a statement get the current time: `timestamp.py` 40-49. -/
def define (w : W) (defs : List Var) : W := { w with ts := fun v => if v ∈ defs then some (w.ctr, w.nstmt) else w.ts v }

/-- A statement has been carried out: nothing is recorded while tracing is off; `ipyflow_tracer.py` 1578 counts it. -/
def doStmt (w : W) (uses defs : List Var) : Except Err W :=
  if w.on then
    match useAll uses w with
    | .error e => .error e
    | .ok w1 => .ok { define w1 defs with nstmt := w1.nstmt + 1 }
  else .ok w

/-- What is left of the dependencies of the previous version, `flow.py` 601-613: children that were recorded for symbols that the new version does not have are removed. -/
def sweep (w : W) : Except Err W :=
  match w.byCtr w.ctr with
  | none => .error .crash
  | some c =>
    match w.prev c with
    | none => .ok w
    | some q =>
      .ok { w with kids := w.kids.filter (fun k => !(decide (k.2.1 = w.idOf c) && decide ((k.1, k.2.2) ∈ w.parents q) && !decide ((k.1, k.2.2) ∈ w.parents c))) }

/-- The tracing context ends (`interactiveshell.py` 306-318: all tracers are switched off), then `after_run_cell` (675-700). -/
def endRun (w : W) : Except Err W := sweep { w with on := false }

/-- After code that was run by a magic, tracing is switched on again if it was on before: `ipyflow_tracer.py` 258-261. After a direct call nothing is done. -/
def resume (w : W) (f : Option Bool) (rest : List (Option Bool)) : W := { w with on := w.on || f.getD false, stack := rest }

/-- One event. Events that cannot happen in a state (such as the end of a run that has not begun) are errors of the history. -/
def step : Ev → W → Except Err W
  | .start i c, w => if w.running then .error .fuel else .ok { begin { w with active := i } c true with running := true, stack := [] }
  | .enter m c, w =>
    if w.running then .ok { begin w c false with stack := (if m then some w.on else none) :: w.stack } else .error .fuel
  | .stmt us ds, w => if w.running then doStmt w us ds else .error .fuel
  | .leave, w =>
    match w.stack with
    | [] => .error .fuel
    | f :: rest =>
      match endRun w with
      | .error e => .error e
      | .ok w1 => .ok (resume w1 f rest)
  | .finish, w =>
    if w.running && w.stack.isEmpty then
      match endRun w with
      | .error e => .error e
      | .ok w1 => .ok { w1 with running := false, host := w1.host + 1 }
    else .error .fuel

/-- A history, newest event first. -/
def run : List Ev → Except Err W
  | [] => .ok start₀
  | e :: h =>
    match run h with
    | .error e => .error e
    | .ok w => step e w

/-! ## What can be seen from outside -/

/-- The cell that set a variable last, as far as the kernel knows: `cells().at_timestamp(sym.timestamp).cell_id`, `cell.py` 509-516. -/
def whoSet (w : W) (v : Var) : Option Id :=
  match w.ts v with
  | none => none
  | some t => (w.byCtr t.1).map w.idOf

/-- The recorded dependencies of a cell: `raw_parents` of `from_id`, `cell.py` 519-520. -/
def deps (w : W) (i : Id) : List (Id × Var) :=
  match w.cur i with
  | none => []
  | some o => w.parents o

/-- The code of a cell: `content` of `from_id`, `cell.py` 519-520. -/
def codeNow (w : W) (i : Id) : Option Code := (w.cur i).map w.code

/-! ## The variable of `%%capture` -/

/-- `str.strip` on the rest of the first line, blanks only: `interactiveshell.py` 426-428. -/
def strip (s : List Char) : List Char := ((s.dropWhile (· = ' ')).reverse.dropWhile (· = ' ')).reverse

/-- The name under which the captured output is recorded: all of the first line after `%%capture`, `interactiveshell.py` 425-433. -/
def outvar (rest : List Char) : List Char := strip rest

end Verif.Nest
