import Verif.Base.Dfs
import Verif.Base.Assoc

/-!
# Variables that the client tells the kernel about

Models the requests `upsert_symbol`, `refresh_symbols` and `get_last_updated_cell_id`
(core/ipyflow/comm_manager.py 368-395, 408-421), with what they call: `upsert_symbol_for_name`
(core/ipyflow/data_model/scope.py 282-347), `update_deps` and `refresh`
(core/ipyflow/data_model/symbol.py 1019-1145, 1343-1375), the marking of dependent variables
(core/ipyflow/data_model/utils/update_protocol.py 23-66, 184-199) and the rules that decide which cells
are offered to be run again (core/ipyflow/frontend.py 386-401, 431-447, in any-order mode with the
schedule based on liveness).

Variables hold objects without parts, which are numbers here; no variable is an import, and warnings
are not switched off.  A variable that is set outside of the cells is told of before the next run.
Timestamps are reduced to the number of the run; `min_timestamp` is -1.  Texts are not edited after
their runs.
-/

namespace Verif.Told

open Verif Verif.Assoc

/-- A symbol: object, `_timestamp.cell_num`, `required_timestamp.cell_num` and `parents`:
core/ipyflow/data_model/symbol.py 130-200. -/
structure Sym where
  obj : Nat
  ts : Nat
  required : Option Nat
  parents : List Nat
deriving DecidableEq, Repr

/-- The latest run of a cell: its number, and the variables its text reads:
core/ipyflow/data_model/cell.py 95-130. -/
structure Cell where
  ctr : Nat
  reads : List Nat
deriving DecidableEq, Repr

/-- `exec_counter`, the symbols of the global scope, `flow().updated_symbols`,
`tracer().this_stmt_updated_symbols`, the ids in `_cell_by_cell_ctr` and the cells in
`_current_cell_by_cell_id`: core/ipyflow/data_model/cell.py 76-90, core/ipyflow/flow.py 193,
core/ipyflow/tracing/ipyflow_tracer.py 193. -/
structure St where
  ctr : Nat
  syms : List (Nat × Sym)
  updated : List Nat
  this : List Nat
  runs : List (Nat × Nat)
  cells : List (Nat × Cell)
deriving DecidableEq, Repr

/-- What happens: a run of a cell with the variables its text reads and the assignments it makes (the
variable, the object, the variables it is computed from); `upsert_symbol` with what the kernel has for
the variable and the names in `deps`; `refresh_symbols`; and a cell that was run without an id gets one
that no cell has yet (core/ipyflow/comm_manager.py 332-344, core/ipyflow/data_model/cell.py 262-276). -/
inductive Ev where
  | run (id : Nat) (reads : List Nat) (sets : List (Nat × Nat × List Nat))
  | tell (x : Nat) (obj : Option Nat) (deps : List Nat)
  | refresh (xs : List Nat)
  | rename (old new : Nat)
deriving DecidableEq, Repr

/-- The parents of a symbol. -/
def parents (t : List (Nat × Sym)) (x : Nat) : List Nat :=
  match get t x with
  | none => []
  | some y => y.parents

/-- `children`, which mirrors `parents`: core/ipyflow/data_model/symbol.py 1055-1058. -/
def children (t : List (Nat × Sym)) (x : Nat) : List Nat :=
  (keys t).filter fun z => x ∈ parents t z

/-- The symbols met by `_propagate_waiting_to_deps` from the updated symbol on; the symbol itself and
those on the right-hand side have been seen: core/ipyflow/data_model/utils/update_protocol.py 59-66,
184-199. -/
def spread (t : List (Nat × Sym)) (x : Nat) (deps : List Nat) : Except Err (List Nat) :=
  (children t x).foldlM (fun seen z => dfs (fun z => .ok (children t z)) (t.length + 1) seen z)
    (x :: deps)

/-- The symbols met are marked, unless they were updated by the cell or the statement:
core/ipyflow/data_model/utils/update_protocol.py 190-197. -/
def mark (ctr : Nat) (met skip : List Nat) (t : List (Nat × Sym)) : List (Nat × Sym) :=
  t.map fun p =>
    if p.1 ∈ met ∧ p.1 ∉ skip then (p.1, { p.2 with required := some ctr }) else p

/-- The parents after an update: the old ones are kept if the symbol is among the new ones, or among
their parents: core/ipyflow/data_model/symbol.py 1043-1059. -/
def newParents (t : List (Nat × Sym)) (x : Nat) (deps : List Nat) : List Nat :=
  if x ∈ deps ∨ ∃ d ∈ deps, x ∈ parents t d then
    parents t x ++ deps.filter (fun d => d ≠ x ∧ d ∉ parents t x)
  else deps.filter (· ≠ x)

/-- `upsert_symbol_for_name`; nothing is marked if the object is the same:
core/ipyflow/data_model/scope.py 282-347, core/ipyflow/data_model/symbol.py 778-790, 1019-1110. -/
def update (s : St) (x obj : Nat) (deps : List Nat) : Except Err St :=
  let deps := deps.filter fun d => (get s.syms d).isSome
  let same := match get s.syms x with
    | none => false
    | some y => y.obj = obj
  let t := set s.syms x ⟨obj, s.ctr, none, newParents s.syms x deps⟩
  let this := x :: s.this
  if same then .ok { s with syms := t, this := this }
  else match spread t x (deps.filter (· ≠ x)) with
    | .error e => .error e
    | .ok met =>
      .ok { s with
        syms := mark s.ctr met (x :: deps.filter (· ≠ x) ++ s.updated ++ this) t
        this := this }

/-- A statement, and the hook after it: core/ipyflow/tracing/ipyflow_tracer.py 299-313. -/
def assign (s : St) (a : Nat × Nat × List Nat) : Except Err St :=
  match update s a.1 a.2.1 a.2.2 with
  | .error e => .error e
  | .ok s => .ok { s with updated := s.this ++ s.updated, this := [] }

/-- A run: core/ipyflow/data_model/cell.py 362-417, core/ipyflow/shell/interactiveshell.py 244-275 and
478-480 (`reset` empties what belongs to the statement). -/
def start (s : St) (id : Nat) (reads : List Nat) : St :=
  { s with
    ctr := s.ctr + 1
    updated := []
    this := []
    runs := set s.runs (s.ctr + 1) id
    cells := set s.cells id ⟨s.ctr + 1, reads⟩ }

/-- `refresh` of a symbol: core/ipyflow/data_model/symbol.py 1343-1375. -/
def refresh1 (s : St) (x : Nat) : St :=
  match get s.syms x with
  | none => s
  | some y => { s with syms := set s.syms x { y with ts := s.ctr } }

/-- One event: core/ipyflow/comm_manager.py 368-395. -/
def step (s : St) : Ev → Except Err St
  | .run id reads sets => sets.foldlM assign (start s id reads)
  | .tell _ none _ => .ok s
  | .tell x (some obj) deps =>
    match get s.syms x with
    | none => update s x obj deps
    | some y => if y.obj = obj then .ok s else update s x obj deps
  | .refresh xs => .ok (xs.foldl refresh1 s)
  | .rename old new =>
    if (get s.cells new).isSome then .ok s
    else .ok { s with
      runs := s.runs.map fun p => if p.2 = old then (p.1, new) else p
      cells := s.cells.map fun p => if p.1 = old then (new, p.2) else p }

/-- A new kernel: core/ipyflow/data_model/cell.py 76-90. -/
def init : St := ⟨0, [], [], [], [], []⟩

/-- The state after a history, the latest event first: core/ipyflow/comm_manager.py 368-395. -/
def state : List Ev → Except Err St
  | [] => .ok init
  | e :: h =>
    match state h with
    | .error e => .error e
    | .ok s => step s e

/-- `success`: core/ipyflow/comm_manager.py 376-391. -/
def accepted (s : St) (x : Nat) (obj : Option Nat) : Bool :=
  match obj with
  | none => false
  | some o =>
    match get s.syms x with
    | none => true
    | some y => y.obj ≠ o

/-- `is_waiting`: core/ipyflow/data_model/symbol.py 415-416, 937-943. -/
def outdated (s : St) (x : Nat) : Bool :=
  match get s.syms x with
  | none => false
  | some y =>
    match y.required with
    | none => false
    | some r => y.ts < r

/-- Does the cell read a variable that is out of date?  core/ipyflow/frontend.py 431-447. -/
def waits (s : St) (c : Nat) : Bool :=
  match get s.cells c with
  | none => false
  | some k => k.reads.any (outdated s)

/-- Is the cell offered to be run again?  core/ipyflow/frontend.py 386-401,
core/ipyflow/data_model/cell.py 726-760. -/
def offered (s : St) (c : Nat) : Bool :=
  match get s.cells c with
  | none => false
  | some k => !waits s c && k.reads.any fun x =>
    match get s.syms x with
    | none => false
    | some y => k.ctr < y.ts

/-- `get_last_updated_cell_id`; `none` is no success: core/ipyflow/comm_manager.py 408-421. -/
def lastUpdated (s : St) (x : Nat) : Option Nat :=
  match get s.syms x with
  | none => none
  | some y => get s.runs y.ts

end Verif.Told
