import Verif.Base.Dfs

/-!
# Which cells are ready

Models `add_used_cell_counter`, `position`, the loop at the end of `check_and_resolve_symbols` and `get_max_used_live_symbol_cell_counter` of
`core/ipyflow/data_model/cell.py` 176-186, 295-297, 704-775, 848-855, and what `_compute_readiness` and `_compute_reactive_cells_for_reactive_symbols`
of `core/ipyflow/frontend.py` 215-226, 386-401 do with the result. Symbols and cell ids are of arbitrary types. -/

namespace Verif.Ready

variable {S C : Type} [DecidableEq S]

/-- A symbol that a cell reads: `ResolvedSymbol`, `analysis/resolved_symbols.py` 56-105. -/
structure Read (S : Type) where
  sym : S
  blocking : Bool
  cascading : Bool
  /-- `is_reactive or flow().is_updated_reactive(sym)` -/
  reactive : Bool
  /-- `timestamp.cell_num`: the execution that updated it last, or its parts if it is read as a whole -/
  ctr : Int

/-- `filter_to_reactive`, `filter_to_cascading_reactive`. -/
inductive Sel where
  | all
  | reactive
  | cascading

/-- What the functions look at. -/
structure World (S C : Type) where
  /-- `_cell_by_cell_ctr` -/
  cellAt : Int → Option C
  /-- `_position_by_cell_id.get(.., -1)` -/
  posOf : C → Int
  /-- `flow_order` is `ANY_ORDER` -/
  anyOrder : Bool
  /-- the cell in question -/
  cell : C
  /-- its last execution -/
  ctr : Int
  /-- `min_allowed_cell_position_by_symbol`, 712-725; `none` unless the schedule is the hybrid one -/
  least : Option (S → Option Int)
  /-- `_override_ready_liveness_cell_num`: -1, or one more than the execution after which a widget changed -/
  override : S → Int

/-- `position`, 176-186, under `_override_position_index_for_current_flow_semantics`, 459-469, in a notebook. -/
def position (w : World S C) (c : C) : Int := if w.anyOrder then -1 else w.posOf c

/-- `add_used_cell_counter`, 295-297. -/
def addUsed (used : S → List Int) (r : Read S) : S → List Int :=
  if r.ctr > 0 then fun s => if s = r.sym ∧ r.ctr ∉ used s then r.ctr :: used s else used s else used

/-- The loop of `check_and_resolve_symbols`, 848-853. -/
def register (used : S → List Int) (rs : List (Read S)) : S → List Int := rs.foldl addUsed used

/-- Lines 730-740. -/
def selected (sel : Sel) (r : Read S) : Bool :=
  !r.blocking &&
    match sel with
    | .all => true
    | .reactive => r.reactive
    | .cascading => r.cascading

/-- Lines 749-755. -/
def allowed (w : World S C) (s : S) (p : Int) : Bool :=
  match w.least with
  | none => true
  | some f =>
    match f s with
    | none => false
    | some q => decide (p ≥ q)

/-- One turn of the loop, 729-760. -/
def turn (w : World S C) (sel : Sel) (used : S → List Int) (m : Int) (r : Read S) : Except Err Int :=
  if selected sel r && decide (r.ctr ∈ used r.sym) then
    match w.cellAt r.ctr with
    | none => .error .crash
    | some c =>
      if position w w.cell ≥ position w c && allowed w r.sym (position w c) then .ok (max m (max r.ctr (w.override r.sym))) else .ok m
  else .ok m

/-- `get_max_used_live_symbol_cell_counter`, 704-775. `mods`: `_override_ready_liveness_cell_num` of the modules that the cell imports, 761-774. -/
def maxUsed (w : World S C) (sel : Sel) (used : S → List Int) (rs : List (Read S)) (mods : List Int) : Except Err Int :=
  match rs.foldlM (turn w sel used) (-1) with
  | .error e => .error e
  | .ok m => .ok (mods.foldl max m)

/-- The cell is ready, and newly so: `frontend.py` 393-401, after `check_and_resolve_symbols`. -/
def ready (w : World S C) (minTs minNew : Int) (used : S → List Int) (rs : List (Read S)) (mods : List Int) : Except Err (Bool × Bool) :=
  match maxUsed w .all (register used rs) rs mods with
  | .error e => .error e
  | .ok m => .ok (decide (m > max w.ctr minTs), decide (m > max w.ctr minTs) && decide (w.ctr > 0) && decide (m ≥ minNew))

/-- The cell has to be run again: `frontend.py` 215-226. The first is `forced_reactive_cells`, the second `forced_cascading_reactive_cells`. -/
def forced (w : World S C) (minForced : Int) (used : S → List Int) (rs : List (Read S)) : Except Err (Bool × Bool) :=
  match maxUsed w .reactive (register used rs) rs [], maxUsed w .cascading (register used rs) rs [] with
  | .ok m, .ok m' => .ok (decide (m > max w.ctr minForced), decide (m' > max w.ctr minForced))
  | .error e, _ => .error e
  | _, .error e => .error e

end Verif.Ready
