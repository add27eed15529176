import Verif.Base.Assoc
import Verif.Base.Dfs

/-!
# Usages of several runs of the same cell

Models `compute_phantom_cell_info`, `core/ipyflow/data_model/cell.py` 867-878, and what the check of a notebook does with it, `core/ipyflow/frontend.py` 58, 79, 450-455 and 598-622, if the
setting `mark_phantom_cell_usages_unsafe` is on (`core/ipyflow/flow.py` 82-85).

Of the check of a cell only `used_cells` (`cell.py` 854) is there: the numbers of the runs that have set the live symbols; a symbol without a time has number -1 (`timestamp.py` 57). Sets are
lists without duplicates. The rest of the check is taken not to fail. -/

namespace Verif.Phantom

/-- A cell that is checked: its id, and `used_cells`, `cell.py` 854. -/
structure Asked where
  id : Nat
  used : List Int

/-- `at_timestamp` of a number, `cell.py` 509-516 and 490-491: the id of the cell with this run; fails if there is none. `runs` are the ids of the cells that were run, in order, from one. -/
def cellAt (runs : List Nat) (n : Int) : Except Err Nat :=
  if n ≤ 0 then .error .crash
  else match runs[n.toNat - 1]? with
    | some id => .ok id
    | none => .error .crash

/-- `used_cell_counters_by_cell_id[id].add(n)`, `cell.py` 868-873. -/
def add (d : List (Nat × List Int)) (id : Nat) (n : Int) : List (Nat × List Int) :=
  Assoc.set d id (((Assoc.get d id).getD []).insert n)

/-- The loop, `cell.py` 870-873. -/
def gather (runs : List Nat) : List (Nat × List Int) → List Int → Except Err (List (Nat × List Int))
  | d, [] => .ok d
  | d, n :: ns =>
    match cellAt runs n with
    | .error e => .error e
    | .ok id => gather runs (add d id n) ns

/-- `compute_phantom_cell_info`, `cell.py` 867-878. -/
def infoOf (runs : List Nat) (c : Asked) : Except Err (List (Nat × List Int)) :=
  match gather runs (add [] c.id runs.length) c.used with
  | .error e => .error e
  | .ok d => .ok (d.filter fun p => decide (2 ≤ p.2.length))

/-- The loop over the cells, `frontend.py` 609-619 with 450-455; the argument is the local `phantom_cell_info`. -/
def loop (on : Bool) (runs : List Nat) : List (Nat × List (Nat × List Int)) → List Asked → Except Err (List (Nat × List (Nat × List Int)))
  | info, [] => .ok info
  | info, c :: cs =>
    if on then
      match infoOf runs c with
      | .error e => .error e
      | .ok d => loop on runs (if 0 < d.length then Assoc.set info c.id d else info) cs
    else loop on runs info cs

/-- `compute_frontend_checker_result`, `frontend.py` 590-639: the local dictionary of 601 is filled, and the field of the answer (58, 79) is the one that was there before. -/
def check (on : Bool) (runs : List Nat) (field : List (Nat × List (Nat × List Int))) (cs : List Asked) : Except Err (List (Nat × List (Nat × List Int))) :=
  match loop on runs [] cs with
  | .error e => .error e
  | .ok _ => .ok field

end Verif.Phantom
