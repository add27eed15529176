import Verif.Base.Assoc

/-! Which code of the cells the kernel works with, and what it remembers of checking it.

The client gathers the cells of the notebook (`frontend/labextension/src/store.ts` 61-72) and sends them half a
second after the last change (`frontend/labextension/src/index.ts` 466-482) and with every request for a schedule
(`store.ts` 74-80). The kernel takes the code over in `_recompute_ast_for_cells`, `core/ipyflow/comm_manager.py`
228-276.

Histories are lists of events, the newest first. -/

namespace Verif.Content

/-- `type` of a cell in the message of the client, `store.ts` 68. Raw cells and markdown cells are both `text`. -/
inductive Kind where
  | code
  | text
deriving DecidableEq, Repr

/-- One cell in the notebook: `store.ts` 64-69. The index is the position in the list. -/
structure Item where
  id : Nat
  kind : Kind
  content : String
deriving DecidableEq, Repr

/-- The cells of the notebook in their order, `store.ts` 61-72. As a dictionary from ids to index, content and
type; two notebooks without repeated ids give equal dictionaries just if they are equal lists. -/
abbrev Screen := List Item

/-- What checking code gives: `to_ast` and `check_and_resolve_symbols`, `data_model/cell.py` 661-678, 811-865.
`ok live mods`: the variables read and the ones found to be assigned, before the variables written in the last run
are added. Simplification: it depends on the code alone, not on which variables exist at the time. -/
inductive Outcome (S : Type) where
  | ok (live mods : List S)
  | syntaxError
  | crash
deriving Repr

/-- What the kernel has for a cell: `current_content`, `cell_ctr`, `last_check_content`, `last_check_cell_ctr`,
`last_check_result` (`live` and `modified`), `static_removed_symbols` and `static_writes`, `data_model/cell.py`
98-120. -/
structure Cell (S : Type) where
  content : String
  ctr : Int
  checkContent : Option String
  checkCtr : Option Int
  result : Option (List S × List S)
  removed : List S
  statics : List S
deriving DecidableEq, Repr

/-- A new cell: `Cell.__init__`, `data_model/cell.py` 87-120. -/
def Cell.fresh {S : Type} (content : String) (ctr : Int) (statics : List S) : Cell S :=
  ⟨content, ctr, none, none, none, [], statics⟩

/-- `_current_cell_by_cell_id` and `_cell_counter` (`data_model/cell.py` 78-80) and `_prev_order_idx_by_id`
(`flow.py`, set in `comm_manager.py` 307). Simplification: with the in-order setting the last one is changed by
`set_cell_positions` (`cell.py` 427-431). -/
structure Kernel (S : Type) where
  cells : List (Nat × Cell S)
  counter : Int
  order : List (Nat × Nat)
deriving Repr

variable {S : Type} [DecidableEq S]

/-- The ids and the code of the code cells: `comm_manager.py` 290-296, 308-311. The client never sends
`override_live_refs` or `override_dead_refs` (`store.ts` 65-69). -/
def contents (s : Screen) : List (Nat × String) :=
  (s.filter (fun i => i.kind = .code)).map (fun i => (i.id, i.content))

/-- `order_index_by_id`, `comm_manager.py` 297-300. -/
def orderOf (s : Screen) : List (Nat × Nat) :=
  (s.zipIdx.filter (fun p => p.1.kind = .code)).map (fun p => (p.1.id, p.2))

/-- `comm_manager.py` 235-241: does this cell have to be checked? A missing counter counts as zero. -/
def outdated (k : Kernel S) (id : Nat) (c : String) : Bool :=
  match Assoc.get k.cells id with
  | none => false
  | some cell => decide (cell.content ≠ c) || decide (cell.ctr ≠ cell.checkCtr.getD 0)

/-- `modified` of the result: `cell.py` 844-849. The variables written in the last run are added if the cell was
not checked before or was checked with the same code. -/
def modified (cell : Cell S) (c : String) (mods : List S) : List S :=
  if cell.checkContent = none ∨ cell.checkContent = some c then mods ++ cell.statics else mods

/-- `prev_resolved_live_syms`, `comm_manager.py` 256-259. -/
def prevLive (cell : Cell S) : List S :=
  match cell.result with
  | none => []
  | some r => r.1

/-- One cell checked without an error: `comm_manager.py` 251-272. -/
def recorded (cell : Cell S) (c : String) (live mods : List S) : Cell S :=
  { cell with
    content := c
    checkContent := some c
    checkCtr := some cell.ctr
    result := some (live, modified cell c mods)
    removed := (cell.removed ++ prevLive cell).filter (fun s => s ∉ live) }

/-- The second loop: `comm_manager.py` 245-275. The second component tells that an exception other than a
`SyntaxError` has left the loop. -/
def checkAll (check : String → Outcome S) : List (Nat × String) → List (Nat × Cell S) → List (Nat × Cell S) × Bool
  | [], cells => (cells, false)
  | (id, c) :: rest, cells =>
    match Assoc.get cells id with
    | none => checkAll check rest cells
    | some cell =>
      match check c with
      | .ok live mods => checkAll check rest (Assoc.set cells id (recorded cell c live mods))
      | .syntaxError => checkAll check rest cells
      | .crash => (Assoc.set cells id { cell with content := c }, true)

/-- `_recompute_ast_for_cells`, `comm_manager.py` 228-276. -/
def recompute (check : String → Outcome S) (k : Kernel S) (m : List (Nat × String)) (force : Bool) :
    List (Nat × Cell S) × Bool :=
  if force || m.any (fun p => outdated k p.1 p.2) then checkAll check m k.cells else (k.cells, false)

/-- `_create_untracked_cells_for_content`, `flow.py` 523-528. -/
def createAll : List (Nat × String) → List (Nat × Cell S) → List (Nat × Cell S)
  | [], cells => cells
  | (id, c) :: rest, cells =>
    match Assoc.get cells id with
    | some _ => createAll rest cells
    | none => createAll rest (Assoc.set cells id (Cell.fresh c (-1) []))

/-- The cells after `comm_manager.py` 323-328: the code is not taken over while cells run reactively. -/
def checkedCells (check : String → Outcome S) (k : Kernel S) (s : Screen) (reactive : Bool) :
    List (Nat × Cell S) × Bool :=
  if reactive then (k.cells, false) else recompute check k (contents s) (decide (orderOf s ≠ k.order))

/-- `_handle_notify_content_changed_impl`, `comm_manager.py` 278-345. Simplification: no cells with placeholder
ids (`Verif.Comm.Placeholder` has them). After an exception no cells are made. -/
def notify (check : String → Outcome S) (k : Kernel S) (s : Screen) (reactive : Bool) : Kernel S :=
  let r := checkedCells check k s reactive
  { k with
    cells := if r.2 then r.1 else createAll (contents s) r.1
    order := orderOf s }

/-- `cells_to_check` of a request for a schedule, `comm_manager.py` 172-178: over all the cells in the message,
also those which are not code. -/
def toCheck (k : Kernel S) (s : Screen) : List Nat :=
  (s.map (·.id)).filter (fun id => (Assoc.get k.cells id).isSome)

/-- The content with which a code cell is run. -/
def codeIn (s : Screen) (id : Nat) : Option String := Assoc.get (contents s) id

/-- A run: `create_and_track` in `before_run_cell`, `shell/interactiveshell.py` 570-579, `cell.py` 373-417.
`writes` are the `static_writes` the run leaves (`data_model/scope.py` 353-365). Nothing happens if the cell is
not in the notebook as a code cell. -/
def execute (k : Kernel S) (s : Screen) (id : Nat) (writes : List S) : Kernel S :=
  match codeIn s id with
  | none => k
  | some c =>
    { k with
      cells := Assoc.set k.cells id (Cell.fresh c (k.counter + 1) writes)
      counter := k.counter + 1 }

/-- What happens. `edit`: the notebook becomes another one; `settle`: half a second without a change has passed
(`index.ts` 466-482); `ask reactive dropped`: a request for a schedule (`store.ts` 74-80), which the kernel drops
if it is about to send one by itself or does not follow variables (`comm_manager.py` 120-126, 146-147); `run id
writes`: a code cell is run as it is on the screen. Messages are handled in the order in which they are sent, so
that what is sent later is not seen earlier. -/
inductive Event (S : Type) where
  | edit (s : Screen)
  | settle
  | ask (reactive dropped : Bool)
  | run (id : Nat) (writes : List S)
deriving Repr

/-- The notebook, `lastCellMetadataMap` of the client (`store.ts` 58) and the kernel. -/
structure Sys (S : Type) where
  screen : Screen
  last : Option Screen
  kernel : Kernel S
deriving Repr

/-- `onContentChanged`, `index.ts` 472-482. -/
def settle (check : String → Outcome S) (y : Sys S) : Sys S :=
  if y.last = some y.screen then y
  else { y with last := some y.screen, kernel := notify check y.kernel y.screen false }

/-- One event: `index.ts` 466-482, `store.ts` 74-80, `comm_manager.py` 120-126, 156-159. -/
def step (check : String → Outcome S) (y : Sys S) : Event S → Sys S
  | .edit s => { y with screen := s }
  | .settle => settle check y
  | .ask reactive dropped =>
    if dropped then y else { y with kernel := notify check y.kernel y.screen reactive }
  | .run id writes => { y with kernel := execute y.kernel y.screen id writes }

/-- At the start: `store.ts` 58, `cell.py` 78-80. -/
def start : Sys S := ⟨[], none, ⟨[], 0, []⟩⟩

/-- The state after a history, the newest event first. -/
def after (check : String → Outcome S) : List (Event S) → Sys S
  | [] => start
  | e :: past => step check (after check past) e

/-- Is the link between two cells shown? `frontend.py` 531-553 for one parent with the symbols of the link: those
no longer used by the child are left out, and there is no link if the parent no longer assigns the rest.
Simplification: symbols are not virtual, any order. -/
def linked (parent child : Cell S) (syms : List S) : Bool :=
  let rest := syms.filter (fun s => s ∉ child.removed)
  if rest = [] then false
  else
    match parent.result with
    | none => true
    | some r => !(rest.all (fun s => s ∈ parent.statics) && r.2.all (fun s => s ∉ rest))

end Verif.Content
