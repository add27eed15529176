import Verif.Base.Assoc

/-!
# Cells held back because they use values from further down

Models the part of `before_run_cell` and `_handle_output` in `core/ipyflow/shell/interactiveshell.py` 555-623, 646-673 that is about out-of-order usages (in-order flow,
`warn_out_of_order_usages`), with `_safety_precheck_cell` (`core/ipyflow/flow.py` 564-581), the check of positions (`core/ipyflow/frontend.py` 424-430), `create_and_track`
(`core/ipyflow/data_model/cell.py` 362-416), `show` of what was captured (`core/ipyflow/tracing/output_recorder.py` 81-94) and the end of `_compute_readiness`
(`core/ipyflow/frontend.py` 391-401, `cell.py` 726-760) in in-order flow.

A run of a cell is given by what the code reads before assigning it, what it assigns, prints and results in; for a cell that raises, until it does. Simplified: all live symbols
are deep and settled, variables have no aliases, printed text is a list of numbers and stands for displays as well, memoised cells are left out; captured output beyond
`_CAPTURE_OUTPUT_SAVE_LIMIT` is dropped after its only use (657-671), so that is left out. -/

namespace Verif.Hold

/-- A cell is run with some code: the arguments of `before_run_cell`, `interactiveshell.py` 535-541, and what the code does if it is executed. -/
structure Run where
  cell : Nat
  code : Nat
  reads : List Nat
  sets : List (Nat × Nat)
  texts : List Nat
  result : Option Nat
  deriving DecidableEq

/-- Runs, new positions of the cells (`set_cell_positions`, `cell.py` 418-431) and `%flow warn_ooo` on or off (`line_magics.py` 127-128). -/
inductive Event where
  | run (r : Run)
  | place (pos : List (Nat × Nat))
  | warn (on : Bool)

/-- What the user sees below a cell: printed text, or the result of the last expression (`output_recorder.py` 86-94). -/
inductive Item where
  | text (t : Nat)
  | result (r : Nat)
  deriving DecidableEq

/-- State: the setting, the counter, `last_executed_cell_id` and `last_executed_content` (`interactiveshell.py` 580-587), the user's variables, the timestamps of their symbols, the
cells that ran at each counter, positions, the version of each cell with the live variables of its code (`_current_cell_by_cell_id`), `Out`, `captured_output` of versions, and
what was shown for the last event. -/
structure Sys where
  warn : Bool
  ctr : Nat
  last : Option (Nat × Nat)
  env : List (Nat × Nat)
  stamp : List (Nat × Nat)
  ran : List (Nat × Nat)
  pos : List (Nat × Nat)
  version : List (Nat × Nat × List Nat)
  outs : List (Nat × Nat)
  captured : List (Nat × List Nat)
  shown : List Item

/-- At first: `flow.py` 145-147, 195-205; `cell.py` 79-84. -/
def Sys.empty : Sys := ⟨false, 0, none, [], [], [], [], [], [], [], []⟩

/-- `position`, `cell.py` 158-160: cells without one are before all others. -/
def position (pos : List (Nat × Nat)) (k : Nat) : Int := match Assoc.get pos k with
  | none => -1
  | some p => p

/-- Whether the position of the cell that last updated the variable is one for which `p` holds: `cells().at_timestamp(live_sym.timestamp).position`, `frontend.py` 428-429. -/
def updatedAt (σ : Sys) (v : Nat) (p : Nat → Int → Bool) : Bool :=
  match Assoc.get σ.stamp v with
  | none => false
  | some w =>
    match Assoc.get σ.ran w with
    | none => false
    | some k => p w (position σ.pos k)

/-- `out_of_order_usage_detected_counter is not None`: `frontend.py` 424-430, `flow.py` 577-581. -/
def detected (σ : Sys) (r : Run) : Bool := r.reads.any fun v => updatedAt σ v fun _ p => decide (position σ.pos r.cell < p)

/-- The condition of `interactiveshell.py` 605-613. -/
def holds (σ : Sys) (r : Run) : Bool := σ.warn && detected σ r && decide (σ.last ≠ some (r.cell, r.code))

/-- The version of the cell before this run: `prev_cell`, `cell.py` 388; `history[-2]`, `interactiveshell.py` 650-651. -/
def prev (σ : Sys) (k : Nat) : Option Nat := (Assoc.get σ.version k).map Prod.fst

/-- Assigning the user's variables, and the timestamps of their symbols: `cell.py` 362-416 is where the counter is from. -/
def assign (c : Nat) (σ : Sys) : List (Nat × Nat) → Sys
  | [] => σ
  | (v, x) :: l => assign c { σ with env := Assoc.set σ.env v x, stamp := Assoc.set σ.stamp v c } l

/-- The result of the last expression is shown and put in `Out`; nothing for no result. Part of running a cell, `interactiveshell.py` 430-436. -/
def result (c : Nat) (x : Option Nat) (σ : Sys) : Sys :=
  match x with
  | none => σ
  | some x => { σ with outs := Assoc.set σ.outs c x, shown := σ.shown ++ [.result x] }

/-- The code is executed: `interactiveshell.py` 430-436. -/
def execute (r : Run) (σ : Sys) : Sys :=
  let σ := assign σ.ctr { σ with captured := Assoc.set σ.captured σ.ctr r.texts, shown := r.texts.map .text } r.sets
  result σ.ctr r.result σ

/-- `pass` or `Out.get(…)` is executed instead: `interactiveshell.py` 619-622. -/
def instead (before : Option Nat) (σ : Sys) : Sys :=
  let σ := { σ with captured := Assoc.set σ.captured σ.ctr [], shown := [] }
  match before with
  | none => σ
  | some p => result σ.ctr (Assoc.get σ.outs p) σ

/-- `prev_cell.captured_output.show()`, `interactiveshell.py` 652-658 and `output_recorder.py` 86-94. The output of this run is still being captured then (354-362), but not what
the display hook shows (`output_recorder.py` 122-128). The display hook of IPython puts what it shows into `Out` under the current count of executions, which is that of the next
run by then. -/
def showBefore (before : Option Nat) (σ : Sys) : Sys :=
  match before with
  | none => σ
  | some p =>
    match Assoc.get σ.captured p with
    | none => σ
    | some ts => { σ with
        captured := Assoc.set σ.captured σ.ctr ((Assoc.get σ.captured σ.ctr).getD [] ++ ts)
        shown := σ.shown ++ ts.map .text ++ ((Assoc.get σ.outs p).map Item.result).toList
        outs := match Assoc.get σ.outs p with
          | none => σ.outs
          | some x => Assoc.set σ.outs (σ.ctr + 1) x }

/-- `create_and_track`, `cell.py` 373-416, and `last_executed_…`, `interactiveshell.py` 580-587. -/
def begin (r : Run) (σ : Sys) : Sys :=
  { σ with
    ctr := σ.ctr + 1
    last := some (r.cell, r.code)
    ran := Assoc.set σ.ran (σ.ctr + 1) r.cell
    version := Assoc.set σ.version r.cell (σ.ctr + 1, r.reads) }

/-- A run of a cell: `before_run_cell`, the execution and `after_run_cell`, `interactiveshell.py` 396-450, 535-673. -/
def run (r : Run) (σ : Sys) : Sys :=
  let σ' := if holds σ r then instead (prev σ r.cell) (begin r σ) else execute r (begin r σ)
  if σ.warn && detected σ r then showBefore (prev σ r.cell) σ' else σ'

/-- One event; `cell.py` 418-431 for positions, `line_magics.py` 127-128 for the setting. -/
def step (σ : Sys) : Event → Sys
  | .run r => run r σ
  | .place pos => { σ with pos := pos, shown := [] }
  | .warn on => { σ with warn := on, shown := [] }

/-- After a history, newest event first. `flow.py` 180-240 is where it starts. -/
def after : List Event → Sys
  | [] => .empty
  | e :: h => step (after h) e

/-- Whether a cell is reported to be run again: `frontend.py` 391-401 with `cell.py` 726-760 in in-order flow. -/
def ready (σ : Sys) (k : Nat) : Bool :=
  match Assoc.get σ.version k with
  | none => false
  | some (c, reads) => reads.any fun v => updatedAt σ v fun w p => decide (p ≤ position σ.pos k) && decide (c < w)

end Verif.Hold
