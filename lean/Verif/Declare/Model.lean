import Verif.Base.Dfs

/-!
# Cells whose reads and writes are declared by the client

Models how a client says what a cell reads and writes in place of what its code says, for cells that are not Python: `_handle_notify_content_changed_impl`
(`core/ipyflow/comm_manager.py` 278-345), which messages of both types go through (150-160, 353-359), `set_override_refs` (`core/ipyflow/data_model/cell.py` 446-456),
`from_id` (518-520), `_create_untracked_cells_for_content` (`core/ipyflow/flow.py` 522-528), new cells (`cell.py` 111-112, 364-416), and what is taken from it
(`cell.py` 778-808).

Simplified: what the code of a cell says is `analysed` (`Verif.Live`); all runs are kept in the history of IPython, so that a run replaces the cell; no placeholder ids;
cells are not removed by the kernel. -/

namespace Verif.Declare

/-- Ids of cells and references to variables. -/
abbrev Id := Nat
abbrev Ref := Nat

/-- Metadata of a cell in a message, `comm_manager.py` 290-321: `type` is `code` or not; `override_live_refs` and `override_dead_refs` may be missing. -/
structure Meta where
  id : Id
  code : Bool
  live : Option (List Ref)
  dead : Option (List Ref)
  deriving DecidableEq, Repr

/-- What happens: a message with the metadata of all cells, or a cell is run. -/
inductive Event where
  | told (nb : List Meta)
  | run (i : Id)

/-- `override_live_refs` and `override_dead_refs` of a cell, `cell.py` 111-112. -/
structure Cell where
  live : Option (List Ref)
  dead : Option (List Ref)
  deriving DecidableEq, Repr

/-- `_current_cell_by_cell_id`, `cell.py` 79. -/
abbrev State := Id → Option Cell

/-- A changed table. -/
def upd (σ : State) (i : Id) (c : Option Cell) : State := fun j => if j = i then c else σ j

/-- `metadata.get(...)` is used if it is true, `comm_manager.py` 295-296, 315, 320: neither missing nor empty. -/
def truthy : Option (List Ref) → Option (List Ref)
  | some (r :: rs) => some (r :: rs)
  | _ => none

/-- The cells of a message that are looked at, `comm_manager.py` 291-297. -/
def relevant (m : Meta) : Bool := m.code || (truthy m.live).isSome || (truthy m.dead).isSome

/-- The first loop of `set_override_refs`, `cell.py` 451-453; it ends at a `KeyError`. -/
def setLive : List Meta → State → State × Bool
  | [], σ => (σ, true)
  | m :: ms, σ =>
    match truthy m.live with
    | none => setLive ms σ
    | some rs =>
      match σ m.id with
      | none => (σ, false)
      | some c => setLive ms (upd σ m.id (some { c with live := some rs }))

/-- The second loop, `cell.py` 454-456. -/
def setDead : List Meta → State → State × Bool
  | [], σ => (σ, true)
  | m :: ms, σ =>
    match truthy m.dead with
    | none => setDead ms σ
    | some rs =>
      match σ m.id with
      | none => (σ, false)
      | some c => setDead ms (upd σ m.id (some { c with dead := some rs }))

/-- `_create_untracked_cells_for_content`, `flow.py` 522-528. -/
def create : List Meta → State → State
  | [], σ => σ
  | m :: ms, σ =>
    match σ m.id with
    | some _ => create ms σ
    | none => create ms (upd σ m.id (some ⟨none, none⟩))

/-- `_handle_notify_content_changed_impl`, `comm_manager.py` 278-345, and whether it is done without an error. -/
def handle (nb : List Meta) (σ : State) : State × Bool :=
  let ms := nb.filter relevant
  match setLive ms σ with
  | (σ, false) => (σ, false)
  | (σ, true) =>
    match setDead ms σ with
    | (σ, false) => (σ, false)
    | (σ, true) => (create ms σ, true)

/-- A session, newest event first. A run makes a new cell, `cell.py` 391-415. -/
def run : List Event → State
  | [] => fun _ => none
  | .told nb :: h => (handle nb (run h)).1
  | .run i :: h => upd (run h) i (some ⟨none, none⟩)

/-- Whether a message is answered with success; an error means that there is no schedule, either (`comm_manager.py` 81-100, 157-160). -/
def answered (h : List Event) (nb : List Meta) : Bool := (handle nb (run h)).2

/-- What a cell is taken to read and write. -/
inductive Taken where
  | analysed
  | declared (reads writes : List Ref)
  deriving DecidableEq, Repr

/-- `_get_live_dead_modified_symbol_refs`, `cell.py` 778-808; `none` for cells that are not known and do not take part in schedules (`comm_manager.py` 173-179). -/
def taken (h : List Event) (i : Id) : Option Taken :=
  match run h i with
  | none => none
  | some c =>
    match c.live, c.dead with
    | none, none => some .analysed
    | l, d => some (.declared (l.getD []) (d.getD []))

end Verif.Declare
