import Verif.Base.Dfs

/-!
# Looking back at what was run

Models `last_run_cell` (`core/ipyflow/models.py` 61-62), `stdout` and `stderr` (`core/ipyflow/api/cells.py` 8-33), and what they are computed from: the numbers of
executions and the tables of `create_and_track` (`core/ipyflow/data_model/cell.py` 364-416, 490-491), `_handle_output`
(`core/ipyflow/shell/interactiveshell.py` 646-673), and when it is called (395-452, 675-676).

Simplified: cells do not run other cells (`Verif.Nest`), none are renamed or held back (`Verif.Hold`), and there are no memoized cells; whether a run was recorded is
given with it (`Verif.Tracers`); cells of which the kernel was only told have no number and no output and are left out. -/

namespace Verif.Recall

/-- Ids of cells. -/
abbrev Id := Nat

/-- What was written: standard output, standard error, and how much was displayed (`interactiveshell.py` 662-668). -/
structure Capture where
  out : List Nat
  err : List Nat
  shown : Nat
  deriving DecidableEq, Repr

/-- One run of a cell: `hist` is `store_history`, `traced` is whether tracking is on when it begins (`interactiveshell.py` 410), `recorded` whether the recorder of output
sees it. -/
structure Run where
  id : Id
  hist : Bool
  traced : Bool
  recorded : Bool
  wrote : Capture
  deriving DecidableEq, Repr

/-- A `Cell`, of which there is one for each run: `cell_ctr`, `history`, `captured_output` (`cell.py` 99-108). -/
structure Cell where
  ctr : Nat
  history : List Nat
  captured : Option Capture
  deriving DecidableEq, Repr

/-- The state: `execution_count` of IPython, `_cell_counter`, the cells in the order of their runs, `_cell_by_cell_ctr` and `_current_cell_by_cell_id` (`cell.py` 78-80),
and what the recorder has recorded last (`interactiveshell.py` 673). -/
structure State where
  ipy : Nat
  counter : Nat
  cells : List Cell
  byCtr : Nat → Option Nat
  current : Id → Option Nat
  tee : Option Capture

/-- When ipyflow is loaded. -/
def State.init (ipy : Nat) : State := ⟨ipy, 0, [], fun _ => none, fun _ => none, none⟩

/-- `create_and_track`, `cell.py` 374-416: `_cell_counter` is bumped, and put right if it is not that of IPython. -/
def begin (σ : State) (r : Run) : State :=
  let ctr := if r.hist = true ∧ σ.counter + 1 ≠ σ.ipy then σ.ipy else σ.counter + 1
  let prev := (σ.current r.id).bind (fun n => σ.cells[n]?)
  let cell : Cell := ⟨ctr, (match prev with | some c => c.history | none => []) ++ [ctr], none⟩
  { σ with
    counter := ctr
    cells := σ.cells ++ [cell]
    byCtr := fun n => if n = ctr then some σ.cells.length else σ.byCtr n
    current :=
      if (match prev with | some c => decide (c.ctr < ctr) | none => true) then fun i => if i = r.id then some σ.cells.length else σ.current i else σ.current }

/-- `_CAPTURE_OUTPUT_SAVE_LIMIT`, `interactiveshell.py` 45, is any number. -/
def large (limit : Nat) (c : Capture) : Bool := decide (limit < c.shown + c.out.length + c.err.length)

/-- `captured_output` of a cell is set. -/
def setCaptured (σ : State) (n : Nat) (c : Option Capture) : State :=
  { σ with cells := σ.cells.modify n (fun d => { d with captured := c }) }

/-- The first part of `_handle_output`, `interactiveshell.py` 650-651, 659-671: large outputs of the version before are let go of. -/
def dropPrev (limit : Nat) (σ : State) (cell : Cell) : Except Err State :=
  match cell.history.reverse with
  | _ :: p :: _ =>
    match σ.byCtr p with
    | none => .error .crash
    | some n =>
      match (σ.cells[n]?).bind (·.captured) with
      | some c => .ok (if large limit c then setCaptured σ n none else σ)
      | none => .ok σ
  | _ => .ok σ

/-- `_handle_output`, `interactiveshell.py` 646-673; `Cell.current_cell` is the one with the number of `_cell_counter` (`cell.py` 697-698). -/
def handleOutput (limit : Nat) (σ : State) : Except Err State :=
  match σ.byCtr σ.counter with
  | none => .error .crash
  | some n =>
    match σ.cells[n]? with
    | none => .error .crash
    | some cell =>
      match dropPrev limit σ cell with
      | .error e => .error e
      | .ok σ =>
        match (σ.cells[n]?).bind (·.captured) with
        | some _ => .ok σ
        | none => .ok (setCaptured σ n σ.tee)

/-- The end of a run: the recorder has recorded, output is handled if the run was traced (`interactiveshell.py` 449-450, 675-676), and IPython goes on to the next number
if it keeps the run. Errors are caught (`interactiveshell.py` 454-457). -/
def finish (limit : Nat) (σ : State) (r : Run) : State :=
  let σ := { σ with tee := if r.recorded then some r.wrote else σ.tee }
  let σ := if r.traced then (match handleOutput limit σ with | .ok σ => σ | .error _ => σ) else σ
  { σ with ipy := if r.hist then σ.ipy + 1 else σ.ipy }

/-- A session, newest run first. -/
def run (limit start : Nat) : List Run → State
  | [] => .init start
  | r :: h => finish limit (begin (run limit start h) r) r

/-- `last_run_cell` in a run, `models.py` 61-62, `cell.py` 490-491: which run it is of. -/
def lastRun (limit start : Nat) (h : List Run) (r : Run) : Except Err Nat :=
  let σ := begin (run limit start h) r
  match σ.byCtr (σ.counter - 1) with
  | some n => .ok n
  | none => .error .crash

/-- `captured_output` of the cell with a number, `api/cells.py` 19, 28; `none` in front is the `ValueError` of 22, 33. -/
def output (limit start : Nat) (h : List Run) (n : Nat) : Option (Option Capture) :=
  let σ := run limit start h
  (σ.byCtr n).map (fun k => (σ.cells[k]?).bind (·.captured))

/-- `stdout`, `api/cells.py` 16-22. -/
def stdout (limit start : Nat) (h : List Run) (n : Nat) : Option (Option (List Nat)) := (output limit start h n).map (fun c => c.map (·.out))

/-- `stderr`, `api/cells.py` 25-33. -/
def stderr (limit start : Nat) (h : List Run) (n : Nat) : Option (Option (List Nat)) := (output limit start h n).map (fun c => c.map (·.err))

end Verif.Recall
