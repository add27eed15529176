import Verif.Base.Dfs
import Verif.Base.Assoc

/-!
# The cells around the one that runs

Models `cell_above`, `cell_below` and `cell_at_offset` (`core/ipyflow/models.py` 43-58), what they are computed from: `position` (`core/ipyflow/data_model/cell.py`
176-186), `set_cell_positions` (419-432), `at_position` (497-502), `from_id` (518-520), what the client tells of its notebook
(`frontend/labextension/src/store.ts` 61-72, `core/ipyflow/comm_manager.py` 281-327, 345) and which cell is active (`core/ipyflow/shell/interactiveshell.py` 466-474,
564-566).

Simplified: the client is the one for JupyterLab, which sends the id of each cell that it runs and no references to override (`comm_manager.py` 295-296, 314-326); there
are no cells with placeholder ids. -/

namespace Verif.Around

/-- Ids of cells. -/
abbrev Id := Nat

/-- A cell on the screen: its id, and whether it is a code cell (`store.ts` 65-69). -/
structure Cell where
  id : Id
  code : Bool
  deriving DecidableEq, Repr

/-- A position: a number, or `float("inf")` for a cell that is gone (`cell.py` 429); -1 for a cell that was never told of (`cell.py` 177). -/
inductive Pos where
  | at (n : Int)
  | inf
  deriving DecidableEq, Repr

/-- A position plus a number, as in `models.py` 46, 52, 58. -/
def Pos.plus : Pos → Int → Pos
  | .at n, k => .at (n + k)
  | .inf, _ => .inf

/-- What happens: the client tells of the notebook, a cell is run, the direction of flow is set (`true` is in order). -/
inductive Event where
  | told (nb : List Cell)
  | run (id : Id)
  | flow (inOrder : Bool)

/-- The state: `_position_by_cell_id`, the keys of `_current_cell_by_cell_id` (`cell.py` 79, 82), and `flow_order`. -/
structure State where
  pos : List (Id × Pos)
  known : List Id
  inOrder : Bool

/-- At the start; `flow_order` is any order by default. -/
def State.init : State := ⟨[], [], false⟩

/-- `order_index_by_id`, `comm_manager.py` 291-300: code cells with their index among all cells (`store.ts` 63-66). -/
def index : Int → List Cell → List (Id × Pos)
  | _, [] => []
  | i, c :: cs => if c.code then (c.id, .at i) :: index (i + 1) cs else index (i + 1) cs

/-- `set_cell_positions`, `cell.py` 419-432: in order, cells that are gone are kept at the end. -/
def setPositions (σ : State) (new : List (Id × Pos)) : State :=
  if σ.inOrder then
    { σ with pos := new ++ (σ.pos.filter (fun p => decide (p.1 ∉ Assoc.keys new))).map (fun p => (p.1, Pos.inf)) }
  else { σ with pos := new }

/-- `_create_untracked_cells_for_content`, `flow.py` 523-528, for the code cells; `comm_manager.py` 345. -/
def create (ids : List Id) (σ : State) : State := { σ with known := σ.known ++ ids.filter (fun i => decide (i ∉ σ.known)) }

/-- One event: `_handle_notify_content_changed_impl` (`comm_manager.py` 278-345), `create_and_track` (`cell.py` 388-416), `%flow direction`. -/
def step (σ : State) : Event → State
  | .told nb => create (Assoc.keys (index 0 nb)) (setPositions σ (index 0 nb))
  | .run i => create [i] σ
  | .flow b => { σ with inOrder := b }

/-- A session, newest event first. -/
def run : List Event → State
  | [] => .init
  | e :: h => step (run h) e

/-- `position`, `cell.py` 176-186. -/
def position (σ : State) (i : Id) : Pos :=
  match Assoc.get σ.pos i with
  | some p => p
  | none => .at (-1)

/-- `from_id`, `cell.py` 518-520. -/
def fromId (σ : State) (i : Id) : Except Err Id := if i ∈ σ.known then .ok i else .error .crash

/-- The comparison of `at_position`, `cell.py` 500. -/
def isAt (p : Pos) (q : Id × Pos) : Bool := decide (q.2 = p)

/-- `at_position`, `cell.py` 497-502. -/
def atPosition (σ : State) (p : Pos) : Except Err (Option Id) :=
  match σ.pos.find? (isAt p) with
  | some q =>
    match fromId σ q.1 with
    | .ok i => .ok (some i)
    | .error e => .error e
  | none => .ok none

/-- `cell_at_offset` in a cell that is run, `models.py` 55-58; `cell_above` (43-46) and `cell_below` (49-52) are those at -1 and 1. -/
def atOffset (h : List Event) (i : Id) (k : Int) : Except Err (Option Id) :=
  let σ := run (.run i :: h)
  match fromId σ i with
  | .ok j => atPosition σ ((position σ j).plus k)
  | .error e => .error e

end Verif.Around
