import Verif.Base.Dfs
import Verif.Base.Timestamp
import Verif.Base.Assoc
import Mathlib.Data.List.Sort

/-!
# The exported graph of cells

Models `create_dag_metadata` (`core/ipyflow/experimental/dag.py` 10-90, shown to the user by `%flow make_dag`,
`line_magics.py` 97-98), and how uses of symbols are recorded: `update_usage_info` (`data_model/symbol.py` 1240-1309),
`_get_initialized_timestamp` (280-295), `updated_timestamps` (224-230) and the part of `refresh` (1343-1354) that sets times.

Symbols are numbers. Sets are lists without repetition. The namespaces of a symbol (1301-1308) are visited by further
operations. -/

namespace Verif.Dag
open Verif

/-- What the export asks of a symbol that does not change: `top` is `get_top_level()` (`data_model/symbol.py` 507-515), `owner`
the aliases of the object whose namespace contains it (290-291), `covered` the condition of `dag.py` 30-33, `importOk` says
that `get_import_string()` does not raise (517-535), `name` is `str(sym)`. -/
structure Info where
  top : Option Nat
  owner : List Nat
  global : Bool
  anon : Bool
  underscore : Bool
  covered : Bool
  imp : Bool
  importOk : Bool
  name : Nat

/-- The changing part of a symbol: `_timestamp`, `_updated_timestamps`, `timestamp_by_used_time`,
`timestamp_by_liveness_time` (`data_model/symbol.py` 149-170). -/
structure Sy where
  ts : Timestamp
  updated : List Timestamp
  used : List (Timestamp × Timestamp)
  live : List (Timestamp × Timestamp)

/-- All symbols. -/
abbrev St := Nat → Sy

/-- `_get_initialized_timestamp`, `data_model/symbol.py` 280-295. The fuel bounds the recursion; it visits no symbol twice. -/
def initTs (info : Nat → Info) (s : St) : Nat → List Nat → Nat → Timestamp
  | 0, _, x => (s x).ts
  | n + 1, seen, x =>
    if (s x).ts.isInitialized then (s x).ts
    else match (info x).owner.find? fun y => y ∉ x :: seen with
      | none => (s x).ts
      | some y => initTs info s n (x :: seen) y

/-- `updated_timestamps`, `data_model/symbol.py` 224-230. -/
def updatedTimes (info : Nat → Info) (fuel : Nat) (s : St) (x : Nat) : List Timestamp :=
  let t := initTs info s fuel [] x
  if t.isInitialized then (if t ∈ (s x).updated then (s x).updated else (s x).updated ++ [t]) else (s x).updated

/-- The loop of `update_usage_info`, `data_model/symbol.py` 1285-1294 with 1240-1257: the value of `is_usage`. The times are
given latest first; `visible` is `cells().at_timestamp(t).is_visible`. -/
def isUsage (visible : Timestamp → Bool) (static : Bool) (used : Timestamp) : List Timestamp → Bool → Bool
  | [], b => b
  | t :: l, b =>
    if !t.isInitialized then isUsage visible static used l b
    else
      let b := if static then visible t else decide (t < used)
      if b || !static then b else isUsage visible static used l b

/-- The times, latest first (`sorted(..., reverse=True)`, `data_model/symbol.py` 1285). -/
def latestFirst (l : List Timestamp) : List Timestamp := l.insertionSort fun a b => b ≤ a

/-- `update_usage_info` for one symbol, `data_model/symbol.py` 1259-1298 (`is_blocking` uses record nothing). -/
def recordUse (info : Nat → Info) (fuel : Nat) (visible : Timestamp → Bool) (static : Bool) (used : Timestamp) (x : Nat)
    (s : St) : St :=
  if isUsage visible static used (latestFirst (updatedTimes info fuel s x)) false && used.isInitialized then
    let v := initTs info s fuel [] x
    fun y => if y = x then
        if static then { s x with live := Assoc.set (s x).live used v } else { s x with used := Assoc.set (s x).used used v }
      else s y
  else s

/-- `refresh`, `data_model/symbol.py` 1352-1354. -/
def refresh (t : Timestamp) (x : Nat) (s : St) : St := fun y =>
  if y = x then
    { s x with
      updated := if (s x).ts ∈ (s x).updated then (s x).updated else (s x).updated ++ [(s x).ts]
      ts := t }
  else s y

/-! ## The export -/

/-- `set.add`. -/
def add {α : Type} [DecidableEq α] (a : α) (l : List α) : List α := if a ∈ l then l else l ++ [a]

/-- The five dictionaries of sets, as sets of pairs, `dag.py` 14-18. -/
structure Acc where
  imports : List (Int × Nat)
  inputs : List (Int × Nat)
  outputs : List (Int × Nat)
  parents : List (Int × Int)
  children : List (Int × Int)

/-- `dag.py` 21-36: the top-level symbol, unless the symbol is skipped. -/
def topOf (info : Nat → Info) (x : Nat) : Option Nat :=
  match (info x).top with
  | none => none
  | some y =>
    if !(info y).global || (info y).anon || (info y).underscore then none
    else if (info y).covered then none
    else some y

/-- `dag.py` 43-53, one use. -/
def addUse (imp : Bool) (y : Nat) (a : Acc) (p : Timestamp × Timestamp) : Acc :=
  if imp then { a with imports := add (p.1.cellNum, y) a.imports }
  else if p.1.cellNum ≠ p.2.cellNum then
    { a with
      parents := add (p.1.cellNum, p.2.cellNum) a.parents
      children := add (p.2.cellNum, p.1.cellNum) a.children
      inputs := add (p.1.cellNum, y) a.inputs
      outputs := add (p.2.cellNum, y) a.outputs }
  else a

/-- `dag.py` 55-57, one update. -/
def addUpdate (y : Nat) (a : Acc) (t : Timestamp) : Acc := { a with outputs := add (t.cellNum, y) a.outputs }

/-- `dag.py` 20-57, one symbol. -/
def addSym (info : Nat → Info) (fuel : Nat) (s : St) (a : Acc) (x : Nat) : Acc :=
  match topOf info x with
  | none => a
  | some y =>
    let a := ((s x).used ++ (s x).live).foldl (addUse (info y).imp y) a
    if (info y).imp then a else (updatedTimes info fuel s x).foldl (addUpdate y) a

/-- `dag.py` 14-57, all symbols. -/
def collect (info : Nat → Info) (fuel : Nat) (s : St) (all : List Nat) : Acc :=
  all.foldl (addSym info fuel s) ⟨[], [], [], [], []⟩

/-- The metadata of a cell, `dag.py` 83-89 (the types of the symbols are left out). -/
structure Entry where
  imports : List Nat
  inputs : List Nat
  outputs : List Nat
  parents : List Int
  children : List Int
  deriving DecidableEq

/-- The set stored under a key. -/
def valuesAt {α : Type} (l : List (Int × α)) (c : Int) : List α := (l.filter fun p => p.1 = c).map Prod.snd

/-- `dag.py` 70-89: the metadata of a cell; `get_import_string` may raise. -/
def entryOf (info : Nat → Info) (a : Acc) (c : Int) : Except Err Entry :=
  if (valuesAt a.imports c).all fun y => (info y).importOk then
    .ok ⟨valuesAt a.imports c, ((valuesAt a.inputs c).map fun y => (info y).name).foldl (fun l n => add n l) [],
      ((valuesAt a.outputs c).map fun y => (info y).name).foldl (fun l n => add n l) [], valuesAt a.parents c, valuesAt a.children c⟩
  else .error .crash

/-- `all_relevant_cells`, `dag.py` 62-68. -/
def relevant (a : Acc) : List Int :=
  (a.imports.map Prod.fst ++ a.inputs.map Prod.fst ++ a.outputs.map Prod.fst ++ a.parents.map Prod.fst
    ++ a.children.map Prod.fst).foldl (fun l c => add c l) []

/-- `dag.py` 69-90, the loop. -/
def entries (info : Nat → Info) (a : Acc) : List Int → Except Err (List (Int × Entry))
  | [] => .ok []
  | c :: l => do
    let e ← entryOf info a c
    let r ← entries info a l
    return (c, e) :: r

/-- `create_dag_metadata`, `dag.py` 10-90; `all` are the symbols of `all_symbols()`. -/
def create (info : Nat → Info) (fuel : Nat) (s : St) (all : List Nat) : Except Err (List (Int × Entry)) :=
  let a := collect info fuel s all
  entries info a (relevant a)

/-! ## Histories -/

/-- What changes the tables: an update of a symbol, a use at run time (recorded at the current time), a use found by the
static analysis of a cell (recorded at a time of that cell's last execution, `analysis/live_refs.py` 553-562 and
`comm_manager.py` 253-255). -/
inductive Op where
  | update (x : Nat) (t : Timestamp)
  | use (x : Nat) (t : Timestamp)
  | live (x : Nat) (t : Timestamp) (visible : Timestamp → Bool)

/-- One operation. -/
def step (info : Nat → Info) (fuel : Nat) (s : St) : Op → St
  | .update x t => refresh t x s
  | .use x t => recordUse info fuel (fun _ => true) false t x s
  | .live x t visible => recordUse info fuel visible true t x s

/-- Symbols that have not been used or updated; `t0` are the times they were made (`data_model/symbol.py` 149-151). -/
def fresh (t0 : Nat → Timestamp) : St := fun x => ⟨t0 x, [], [], []⟩

/-- The tables after a history. -/
def run (info : Nat → Info) (fuel : Nat) (t0 : Nat → Timestamp) (h : List Op) : St := h.foldl (step info fuel) (fresh t0)

end Verif.Dag
