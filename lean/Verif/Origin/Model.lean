/-!
# Which statement a call of a function of the notebook is taken to be in

Models how the frame of a called function is mapped to a run of a cell and to a statement of it: `make_ipython_name`, `core/ipyflow/data_model/cell.py` 642-647, `set_name_to_cell_num_mapping`
and `get_position`, `core/ipyflow/flow.py` 493-511, the part of `_tracing_context` that keeps the name of every run, `core/ipyflow/shell/interactiveshell.py` 269-272 and 297-300, the texts
that are run in place of a cell, `cell.py` 607-617 and `interactiveshell.py` 606-627, `_get_stmt_node_for_sys_event` for calls, `core/ipyflow/tracing/ipyflow_tracer.py` 1689-1724, and the start
of `handle_call`, 1737-1742, and the position that is given to watchpoints, `core/ipyflow/data_model/statement.py` 721-729.

The names of the files are IPython's: the one of `ipykernel` is a hash of the text of the cell, the one of the terminal has the number of the run in it. Both are a parameter. Hashes are taken
not to collide. Simplified: a statement is one line, so that the parent of a statement is never asked for; only runs that are traced are there; the frame of the call is the one of the
function itself and not of a sandbox. -/

namespace Verif.Origin

/-- How IPython names the code of a run, `cell.py` 642-647. -/
inductive Naming where
  | byText
  | byNumber

/-- The name of the code of a run, `co_filename`. -/
inductive Name where
  | text (t : Nat)
  | num (n : Nat)
  deriving DecidableEq

/-- A statement: the definition of a function, another one, or what is run in place of a cell, `cell.py` 615 and 617. -/
inductive Stmt where
  | fn (f : Nat)
  | other (n : Nat)
  | pass
  | out (n : Nat)
  deriving DecidableEq

/-- What is run in place of a cell: `pass` or `Out.get(n)`, `cell.py` 614-617, `interactiveshell.py` 624-627. -/
inductive Stub where
  | quiet
  | shows (n : Nat)

/-- The statement of it, `cell.py` 615 and 617. -/
def Stub.stmt : Stub → Stmt
  | .quiet => .pass
  | .shows n => .out n

/-- A run of a cell (which one makes no difference here) with this text (without the line `%%memoize`); if it is skipped then with what is run instead, `interactiveshell.py` 599-601 and 624-628. -/
structure Run where
  cell : Nat
  text : Nat
  stub : Option Stub

/-- What is kept: `cell_counter`, `_cell_name_to_cell_num_mapping` (`flow.py` 500), and `stmt_by_lineno_by_module_id` (`ipyflow_tracer.py` 1698). -/
structure Sys where
  counter : Nat
  map : Name → Option Nat
  stmts : Nat → Nat → Option Stmt

/-- Nothing was run, `flow.py` 500. -/
def start : Sys := ⟨0, fun _ => none, fun _ _ => none⟩

/-- `make_ipython_name`, `cell.py` 642-647. -/
def nameOf (g : Naming) (text number : Nat) : Name :=
  match g with
  | .byText => .text text
  | .byNumber => .num number

/-- The statements that are run, by line, `interactiveshell.py` 405-406 and 421-425; `code t` are the lines of a text, a line may have no statement. -/
def linesOf (code : Nat → List (Option Stmt)) (r : Run) : List (Option Stmt) :=
  match r.stub with
  | none => code r.text
  | some b => [some b.stmt]

/-- A run: its name is mapped to its number, `interactiveshell.py` 269-272, `flow.py` 510-511, and its statements are entered under the number, 297-300. -/
def step (g : Naming) (code : Nat → List (Option Stmt)) (s : Sys) (r : Run) : Sys :=
  let n := s.counter + 1
  { counter := n
    map := fun x => if x = nameOf g r.text n then some n else s.map x
    stmts := fun m => if m = n then fun l => ((linesOf code r)[l]?).join else s.stmts m }

/-- A history, newest run first, `interactiveshell.py` 269-272. -/
def after (g : Naming) (code : Nat → List (Option Stmt)) : List Run → Sys
  | [] => start
  | r :: h => step g code (after g code h) r

/-- `get_position`, `flow.py` 493-503: the run that a frame of the code with this name is taken to be in. -/
def position (s : Sys) (x : Name) : Nat := (s.map x).getD s.counter

/-- The statement of a call, `ipyflow_tracer.py` 1697-1724 and 1737-1742; nothing if the handler fails, and then the call is not followed. -/
def seenAs (s : Sys) (x : Name) (line : Nat) : Option Stmt := s.stmts (position s x) line

end Verif.Origin
