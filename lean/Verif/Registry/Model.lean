import Verif.Base.Dfs
import Mathlib.Data.List.Sort
import Mathlib.Data.Finset.Lattice.Basic
import Mathlib.Data.Finset.SDiff
import Mathlib.Data.Finset.Image

/-!
# The registry of cells (`data_model/cell.py` 75-84, 258-293, 362-417, 508-532; `line_magics.py` 363-380)

Cell objects live in a heap; a reference is an index. `ι` are cell ids, `τ` tags.
-/

namespace Verif.Registry
open Verif

/-- The fields of a `Cell` used here (`data_model/cell.py` 96-135). -/
structure CellObj (ι τ : Type) where
  id : ι
  ctr : Int
  tags : Finset τ
  reactive : Finset τ
  history : List Int
  prev : Option Nat
  placeholder : Bool

/-- The class-level tables of `Cell`, `data_model/cell.py` 76-83. A `Cell` in a Python set is found by the hash of
`(cell_id, cell_ctr)` (`data_model/cell.py` 256-257) as it was when the cell was inserted, so an entry of `_cells_by_tag`
is a reference with the id it had then; hashes are taken to be collision free. -/
structure Reg (ι τ : Type) where
  heap : List (CellObj ι τ)
  counter : Int
  current : ι → Option Nat
  byCtr : Int → Option Nat
  byTag : τ → Finset (Nat × ι)
  reactiveByTag : τ → Finset ι

variable {ι τ : Type} [DecidableEq ι] [DecidableEq τ]

/-- `Cell.clear` / class initialisation, `data_model/cell.py` 76-83, 233-241. -/
def Reg.init : Reg ι τ where
  heap := []
  counter := 0
  current := fun _ => none
  byCtr := fun _ => none
  byTag := fun _ => ∅
  reactiveByTag := fun _ => ∅

/-- Counter assigned by `create_and_track` when `bump_cell_counter` is set, `data_model/cell.py` 373-386. `host` is
`get_ipython().execution_count`, which is also what `ipy_cell_counter()` was saved as
(`utils/ipython_utils.py` 20-26). -/
def bump (counter host : Int) (validate : Bool) : Int :=
  let ctr := counter + 1
  if validate ∧ ctr ≠ host then host else ctr

/-- The object referred to, if any. -/
def Reg.obj (s : Reg ι τ) (r : Nat) : Option (CellObj ι τ) := s.heap[r]?

/-- The version of `id` that is current, `from_id_nullable`, `data_model/cell.py` 522-524. -/
def Reg.prevOf (s : Reg ι τ) (id : ι) : Option (Nat × CellObj ι τ) :=
  match s.current id with
  | none => none
  | some q => match s.obj q with
    | none => none
    | some o => some (q, o)

/-- The object built by `create_and_track`, `data_model/cell.py` 389-403. -/
def newObj (prev : Option (Nat × CellObj ι τ)) (id : ι) (ctr : Int) (tags : Finset τ) (placeholder : Bool) :
    CellObj ι τ :=
  let own := if ctr > -1 then [ctr] else []
  match prev with
  | none => ⟨id, ctr, tags, ∅, own, none, placeholder⟩
  | some (q, o) => ⟨id, ctr, tags ∪ o.tags, ∅, o.history ++ own, some q, placeholder⟩

/-- `_cells_by_tag[tag].discard(prev_cell)` for the tags of the previous version, `data_model/cell.py` 406-407. -/
def dropTags (byTag : τ → Finset (Nat × ι)) (prev : Option (Nat × CellObj ι τ)) : τ → Finset (Nat × ι) :=
  match prev with
  | none => byTag
  | some (q, o) => fun t => if t ∈ o.tags then (byTag t).erase (q, o.id) else byTag t

/-- `_reactive_cells_by_tag[tag].discard(prev_cell.cell_id)`, `data_model/cell.py` 408-409. -/
def dropReactive (by' : τ → Finset ι) (prev : Option (Nat × CellObj ι τ)) : τ → Finset ι :=
  match prev with
  | none => by'
  | some (_, o) => fun t => if t ∈ o.reactive then (by' t).erase o.id else by' t

/-- `prev_cell_ctr is None or cell_ctr > prev_cell_ctr`, `data_model/cell.py` 414-415. -/
def becomesCurrent (prev : Option (Nat × CellObj ι τ)) (ctr : Int) : Bool :=
  match prev with
  | none => true
  | some (_, o) => decide (ctr > o.ctr)

/-- Registration of a version with a given counter, `data_model/cell.py` 387-417. The assertion of line 389 is the error. -/
def track (s : Reg ι τ) (id : ι) (ctr : Int) (tags : Finset τ) (placeholder : Bool) : Except Err (Reg ι τ) :=
  let prev := s.prevOf id
  if ctr = -1 ∧ prev.isSome then .error .crash
  else
    let o := newObj prev id ctr tags placeholder
    let r := s.heap.length
    .ok { s with
      heap := s.heap ++ [o]
      byTag := fun t => if t ∈ o.tags then insert (r, id) (dropTags s.byTag prev t) else dropTags s.byTag prev t
      reactiveByTag := dropReactive s.reactiveByTag prev
      byCtr := if ctr > -1 then Function.update s.byCtr ctr (some r) else s.byCtr
      current := if becomesCurrent prev ctr then Function.update s.current id (some r) else s.current }

/-- `create_and_track` for an execution (`bump_cell_counter=True`), `data_model/cell.py` 362-417,
`shell/interactiveshell.py` 571-578. -/
def execCell (s : Reg ι τ) (id : ι) (tags : Finset τ) (validate : Bool) (host : Int) (placeholder : Bool) :
    Except Err (Reg ι τ) :=
  let ctr := bump s.counter host validate
  track { s with counter := ctr } id ctr tags placeholder

/-- `_create_untracked_cells_for_content` for one id, `flow.py` 521-528. -/
def untracked (s : Reg ι τ) (id : ι) : Except Err (Reg ι τ) :=
  if (s.current id).isSome then .ok s else track s id (-1) ∅ false

/-- Write one object back. -/
def Reg.setObj (s : Reg ι τ) (r : Nat) (o : CellObj ι τ) : Reg ι τ := { s with heap := s.heap.set r o }

/-- `%flow tag NAME [--cell N]`, `line_magics.py` 363-380. `cell = none` is the current cell
(`data_model/cell.py` 696-698). -/
def tagCell (s : Reg ι τ) (cell : Option Int) (t : τ) : Except Err (Reg ι τ) :=
  match s.byCtr (cell.elim s.counter id) with
  | none => .error .crash
  | some r => match s.obj r with
    | none => .error .crash
    | some o => .ok { s.setObj r { o with tags := insert t o.tags } with
        byTag := fun u => if u = t then insert (r, o.id) (s.byTag t) else s.byTag u }

/-- `%flow tag --remove NAME [--cell N]`, `line_magics.py` 363-377. -/
def untagCell (s : Reg ι τ) (cell : Option Int) (t : τ) : Except Err (Reg ι τ) :=
  match s.byCtr (cell.elim s.counter id) with
  | none => .error .crash
  | some r => match s.obj r with
    | none => .error .crash
    | some o => .ok (s.setObj r { o with tags := o.tags.erase t })

/-- `mark_as_reactive_for_tag` on the current cell, `data_model/cell.py` 312-314, `line_magics.py` 333-335. -/
def markReactive (s : Reg ι τ) (t : τ) : Except Err (Reg ι τ) :=
  match s.byCtr s.counter with
  | none => .error .crash
  | some r => match s.obj r with
    | none => .error .crash
    | some o => .ok { s.setObj r { o with reactive := insert t o.reactive } with
        reactiveByTag := fun u => if u = t then insert o.id (s.reactiveByTag t) else s.reactiveByTag u }

/-- The recursion of `update_id` along `prev_cell`, `data_model/cell.py` 262-267; `fuel` bounds the length of the chain. -/
def renameChain (new : ι) : Nat → List (CellObj ι τ) → Nat → List (CellObj ι τ)
  | 0, heap, _ => heap
  | n + 1, heap, r =>
    match heap[r]? with
    | none => heap
    | some o =>
      let heap := heap.set r { o with id := new, placeholder := false }
      match o.prev with
      | none => heap
      | some q => renameChain new n heap q

/-- `update_id` on the current version of `old`, without positions and edges (see `Verif.Registry.Rename`),
`data_model/cell.py` 262-280. The caller makes sure that `new` is not registered (`comm_manager.py` 337-342). -/
def rename (s : Reg ι τ) (old new : ι) : Reg ι τ :=
  match s.current old with
  | none => s
  | some r =>
    if (s.current new).isSome then s
    else { s with
      heap := renameChain new s.heap.length s.heap r
      current := Function.update (Function.update s.current old none) new (some r)
      reactiveByTag := fun t =>
        if old ∈ s.reactiveByTag t then insert new ((s.reactiveByTag t).erase old) else s.reactiveByTag t }

/-- Operations on the registry. -/
inductive Op (ι τ : Type) where
  | exec (id : ι) (tags : Finset τ) (validate : Bool) (host : Int) (placeholder : Bool)
  | untracked (id : ι)
  | tag (cell : Option Int) (t : τ)
  | untag (cell : Option Int) (t : τ)
  | reactive (t : τ)
  | rename (old new : ι)

/-- One operation, or the exception it raises. -/
def step (s : Reg ι τ) : Op ι τ → Except Err (Reg ι τ)
  | .exec id tags validate host placeholder => execCell s id tags validate host placeholder
  | .untracked id => Verif.Registry.untracked s id
  | .tag cell t => tagCell s cell t
  | .untag cell t => untagCell s cell t
  | .reactive t => markReactive s t
  | .rename old new => .ok (Verif.Registry.rename s old new)

/-- One operation of a history. An exception leaves the registry as it was: all checks come before the first write (and
the assertion of `data_model/cell.py` 389 is unreachable from the two callers). -/
def next (s : Reg ι τ) (o : Op ι τ) : Reg ι τ :=
  match step s o with
  | .ok s' => s'
  | .error _ => s

/-- A history of operations. -/
def run (s : Reg ι τ) (ops : List (Op ι τ)) : Reg ι τ := ops.foldl next s

/-- `from_tag`, `data_model/cell.py` 530-532: the cells in the set, as references. -/
def fromTag (s : Reg ι τ) (t : τ) : Finset Nat := (s.byTag t).image Prod.fst

end Verif.Registry
