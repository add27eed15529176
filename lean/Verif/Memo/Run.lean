import Mathlib.Data.List.Basic
import Mathlib.Logic.Function.Basic
import Verif.Memo.Value

/-! # Memoized runs: model

`data_model/cell.py` 319-360, 568-605; `shell/interactiveshell.py` 495-533, 625-645. A symbol has one timestamp (the deep one
of `data_model/symbol.py` 315-322); the value of a symbol is the value of the object it is bound to. What a cell does when it
really runs is given by the run: which symbols it reads and updates, and which objects it changes. -/

namespace Verif.Memo
open Verif

/-- A timestamp: cell counter and statement number, `data_model/timestamp.py` 36-38. -/
abbrev Stamp := Int × Int

/-- `Timestamp.uninitialized()`, `data_model/timestamp.py` 125. -/
def uninit : Stamp := (-1, -1)

/-- A symbol: `timestamp`, `is_import`, `obj_id`, `last_updated_timestamp_by_obj_id` (`data_model/symbol.py` 172, 312-322)
and whether it is user-accessible and global (`data_model/cell.py` 334). -/
structure SymSt where
  ts : Stamp
  isImport : Bool
  obj : Nat
  memo : Nat → Option Stamp
  accessible : Bool

/-- `MemoizedInput`, `memoization/__init__.py` 29-36; `none`: the null comparable. -/
structure Inp (N : Type) where
  sym : Nat
  ts : Stamp
  memTs : Option Stamp
  obj : Nat
  comp : Option (Comp N)

/-- `MemoizedCellExecution`, `memoization/__init__.py` 43-47, with the content it is filed under. -/
structure Rec (N : Type) where
  content : Nat
  ctr : Int
  inputs : List (Inp N)
  outputs : List (Nat × Int × Nat)

/-- Symbols, objects, and the table of memoized executions (one for all cells, `data_model/cell.py` 86). -/
structure State (N : Type) where
  sym : Nat → SymSt
  heap : Nat → Val N
  table : List (Rec N)

/-- One run of a cell: its counter, content, whether it is memoized, fails, has an earlier version; the symbols on its parent
edges (each once), and what an ordinary execution does: the symbols it updates with their new object, import flag and
statement number, and the objects it makes or changes. -/
structure Run (N : Type) where
  ctr : Int
  content : Nat
  memoized : Bool
  failed : Bool
  hasPrev : Bool
  reads : List Nat
  written : List Nat
  newObj : Nat → Nat
  newImport : Nat → Bool
  stmt : Nat → Int
  muts : Nat → Option (Val N)

variable {N : Type} [DecidableEq N]

/-- The value of a symbol, `data_model/symbol.py` 1563. -/
def State.value (s : State N) (x : Nat) : Val N := s.heap (s.sym x).obj

/-- The contents of an array now (arrays are kept by reference, `data_model/symbol.py` 1524). -/
def State.cur (s : State N) (i : Nat) : List N :=
  match s.heap i with
  | .arr _ c => c
  | _ => []

/-- The checks without a comparable, `data_model/cell.py` 594-602. -/
def plainOk (y : SymSt) (i : Inp N) : Bool :=
  y.isImport || y.ts.1 == i.ts.1 ||
    (y.obj == i.obj && (y.memo y.obj == some i.ts || y.memo y.obj == some (i.memTs.getD uninit)))

/-- One input of a memoized execution, `data_model/cell.py` 584-603. -/
def inpOk (max : Nat) (other : Comp N → Comp N → Bool) (s : State N) (i : Inp N) : Except Err Bool :=
  match i.comp with
  | some c =>
    match comparable max (s.value i.sym) with
    | .error e => .error e
    | .ok none => .ok false
    | .ok (some (d, f)) => .ok (applyEq s.cur other f d c)
  | none => .ok (plainOk (s.sym i.sym) i)

/-- The inner loop, `data_model/cell.py` 584-604. -/
def inpsOk (max : Nat) (other : Comp N → Comp N → Bool) (s : State N) : List (Inp N) → Except Err Bool
  | [] => .ok true
  | i :: is =>
    match inpOk max other s i with
    | .error e => .error e
    | .ok false => .ok false
    | .ok true => inpsOk max other s is

/-- The outer loop of `get_memoized_counter`, `data_model/cell.py` 574-605, over the executions filed under `content`. -/
def lookupIn (max : Nat) (other : Comp N → Comp N → Bool) (s : State N) (content : Nat) (ctr : Int) :
    List (Rec N) → Except Err (Option (Rec N))
  | [] => .ok none
  | r :: rs =>
    if r.content ≠ content ∨ r.ctr ≥ ctr then lookupIn max other s content ctr rs
    else match inpsOk max other s r.inputs with
      | .error e => .error e
      | .ok true => .ok (some r)
      | .ok false => lookupIn max other s content ctr rs

/-- `get_memoized_counter`, `data_model/cell.py` 568-605 (with the execution found, which `interactiveshell.py` 502-509
fetches by its counter). -/
def hit (max : Nat) (other : Comp N → Comp N → Bool) (s : State N) (r : Run N) : Except Err (Option (Rec N)) :=
  if r.memoized && r.hasPrev then lookupIn max other s r.content r.ctr s.table else .ok none

/-- The inputs collected by `_maybe_memoize_params`, `data_model/cell.py` 323-344; `ok none`: it returns without a record. -/
def inputsOf (max : Nat) (s : State N) (ctr : Int) : List Nat → Res (List (Inp N))
  | [] => .ok (some [])
  | x :: xs =>
    if (s.sym x).ts.1 = ctr then inputsOf max s ctr xs
    else if !(s.sym x).accessible then inputsOf max s ctr xs
    else if (s.sym x).ts.1 > ctr then .ok none
    else match comparable max (s.value x) with
      | .error e => .error e
      | .ok c =>
        match inputsOf max s ctr xs with
        | .error e => .error e
        | .ok none => .ok none
        | .ok (some is) =>
          .ok (some (⟨x, (s.sym x).ts, (s.sym x).memo (s.sym x).obj, (s.sym x).obj, c.map Prod.fst⟩ :: is))

/-- An ordinary execution. -/
def body (s : State N) (r : Run N) : State N :=
  { s with
    sym := fun x => if x ∈ r.written then
        { s.sym x with ts := (r.ctr, r.stmt x), obj := r.newObj x, isImport := r.newImport x }
      else s.sym x
    heap := fun o => (r.muts o).getD (s.heap o) }

/-- Line 347 of `data_model/cell.py`, for all updated symbols. -/
def noteObjs (s : State N) (r : Run N) : State N :=
  { s with sym := fun x => if x ∈ r.written then
      { s.sym x with memo := Function.update (s.sym x).memo (s.sym x).obj (some (s.sym x).ts) }
    else s.sym x }

/-- The outputs, `data_model/cell.py` 345-350. -/
def outputsOf (s : State N) (r : Run N) : List (Nat × Int × Nat) :=
  (r.written.filter (fun x => (s.sym x).accessible)).map (fun x => (x, (s.sym x).ts.2, (s.sym x).obj))

/-- `_maybe_memoize_params`, `data_model/cell.py` 319-360, after the execution. An exception in it is swallowed
(`shell/interactiveshell.py` 448-455) and leaves no record. -/
def record (max : Nat) (s : State N) (r : Run N) : State N :=
  if r.failed then s
  else match inputsOf max s r.ctr r.reads with
    | .error _ => s
    | .ok none => s
    | .ok (some is) =>
      { noteObjs s r with table := s.table ++ [⟨r.content, r.ctr, is, outputsOf s r⟩] }

/-- Restoring one output, `shell/interactiveshell.py` 525-530. -/
def restore1 (ctr : Int) (s : State N) (o : Nat × Int × Nat) : State N :=
  { s with sym := fun x => if x = o.1 then { s.sym x with obj := o.2.2, ts := (ctr, o.2.1) } else s.sym x }

/-- Restoring all outputs, `shell/interactiveshell.py` 525-530. -/
def restore (ctr : Int) (s : State N) (os : List (Nat × Int × Nat)) : State N := os.foldl (restore1 ctr) s

/-- One run, `shell/interactiveshell.py` 495-533, 584-586, 625-645. An exception in the lookup keeps the cell from running. -/
def step (max : Nat) (other : Comp N → Comp N → Bool) (s : State N) (r : Run N) : Except Err (State N) :=
  match hit max other s r with
  | .error e => .error e
  | .ok (some m) => .ok (restore r.ctr s m.outputs)
  | .ok none => .ok (if r.memoized then record max (body s r) r else body s r)

/-- A sequence of runs, `shell/interactiveshell.py` 388-460. -/
def steps (max : Nat) (other : Comp N → Comp N → Bool) : State N → List (Run N) → Except Err (State N)
  | s, [] => .ok s
  | s, r :: rs =>
    match step max other s r with
    | .error e => .error e
    | .ok s' => steps max other s' rs

end Verif.Memo
