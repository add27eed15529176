/-!
# Cells that show the slice of a tag, and are run again with it

`%flow slice --tag $t` shows the code of the cells tagged `t` and everything they need.  The `$`
asks for the cell that contains the command to be run again whenever a cell tagged `t` was run.
Tags come with the notebook or are put on cells with `%flow tag`.
-/

namespace Verif.Tagged

/-- A cell object, one for each run: the id of the cell, its tags, and the tags of which it shows
the slice: core/ipyflow/data_model/cell.py 98-113. -/
structure Obj where
  id : Nat
  tags : List Nat
  reacts : List Nat
deriving DecidableEq, Repr

/-- The counter of runs, the objects by counter, the counter of the current object of each id that
was run, the ids of cells that are known and were not run, the ids that show the slice of a tag and
the id that was run last: core/ipyflow/data_model/cell.py 76-84, core/ipyflow/flow.py 214. -/
structure St where
  ctr : Nat
  obj : Nat → Option Obj
  cur : Nat → Option Nat
  unrun : List Nat
  react : Nat → List Nat
  last : Option Nat

/-- What happens.  A cell is run, with the tags that the notebook has for it; the cell that runs
(or ran last) executes `%flow slice [num] --tag [$]t`, `%flow tag t [--cell num]` or
`%flow tag --remove t [--cell num]`; the client mentions a cell; a cell that was run without an id
gets one.  Simplified: the counter of the kernel is the one of IPython; `$t` is not expanded by
IPython: core/ipyflow/shell/interactiveshell.py 466-476 and 562-590,
core/ipyflow/line_magics.py 311-380, core/ipyflow/comm_manager.py 331-345. -/
inductive Ev where
  | run (id : Nat) (tags : List Nat)
  | slice (num : Option Nat) (t : Nat) (dollar : Bool)
  | tag (num : Option Nat) (t : Nat)
  | untag (num : Option Nat) (t : Nat)
  | mention (id : Nat)
  | rename (old new : Nat)
deriving DecidableEq, Repr

/-- A new kernel: core/ipyflow/data_model/cell.py 76-84. -/
def fresh : St := ⟨0, fun _ => none, fun _ => none, [], fun _ => [], none⟩

/-- `from_id_nullable` for a cell that was run: core/ipyflow/data_model/cell.py 522-524. -/
def prevOf (s : St) (id : Nat) : Option Obj :=
  match s.cur id with
  | none => none
  | some k => s.obj k

/-- `create_and_track` for a run: core/ipyflow/data_model/cell.py 373-417.  The tags of the previous
object are added; what it showed is forgotten. -/
def run (s : St) (id : Nat) (tags : List Nat) : St :=
  let k := s.ctr + 1
  let old : Obj := (prevOf s id).getD ⟨id, [], []⟩
  { ctr := k
    obj := fun j => if j = k then some ⟨id, tags ++ old.tags, []⟩ else s.obj j
    cur := fun i => if i = id then some k else s.cur i
    unrun := s.unrun.filter (· ≠ id)
    react := fun t => if t ∈ old.reacts then (s.react t).filter (· ≠ id) else s.react t
    last := some id }

/-- The object a command is about: `at_counter(num)` or `current_cell()`; none stands for the
KeyError: core/ipyflow/line_magics.py 371-374, core/ipyflow/data_model/cell.py 696-698. -/
def named (s : St) (num : Option Nat) : Option (Nat × Obj) :=
  let k := num.getD s.ctr
  match s.obj k with
  | none => none
  | some o => some (k, o)

/-- The tags of an object are set: core/ipyflow/line_magics.py 375-379. -/
def setObj (s : St) (k : Nat) (o : Obj) : St :=
  { s with obj := fun j => if j = k then some o else s.obj j }

/-- `mark_as_reactive_for_tag`: core/ipyflow/data_model/cell.py 312-314. -/
def mark (s : St) (k : Nat) (o : Obj) (t : Nat) : St :=
  { setObj s k { o with reacts := t :: o.reacts } with
    react := fun u => if u = t then o.id :: s.react t else s.react u }

/-- `make_slice`, as far as it changes anything: core/ipyflow/line_magics.py 325-336.  With a number
the tag is not looked at. -/
def slice (s : St) (num : Option Nat) (t : Nat) (dollar : Bool) : St :=
  match num with
  | some _ => s
  | none =>
    if dollar then
      match named s none with
      | none => s
      | some (k, o) => mark s k o t
    else s

/-- `%flow tag`: core/ipyflow/line_magics.py 371-380. -/
def tag (s : St) (num : Option Nat) (t : Nat) : St :=
  match named s num with
  | none => s
  | some (k, o) => setObj s k { o with tags := t :: o.tags }

/-- `%flow tag --remove`: core/ipyflow/line_magics.py 371-377. -/
def untag (s : St) (num : Option Nat) (t : Nat) : St :=
  match named s num with
  | none => s
  | some (k, o) => setObj s k { o with tags := o.tags.filter (· ≠ t) }

/-- `has_id`: core/ipyflow/data_model/cell.py 526-528. -/
def known (s : St) (id : Nat) : Bool := (s.cur id).isSome || s.unrun.contains id

/-- `_create_untracked_cells_for_content`: core/ipyflow/flow.py 521-528. -/
def mention (s : St) (id : Nat) : St :=
  if known s id then s else { s with unrun := id :: s.unrun }

/-- `update_id` on the current object of an id that was run, if the new one is not known:
core/ipyflow/data_model/cell.py 259-280, core/ipyflow/comm_manager.py 337-344.  The objects linked by
`prev_cell` are the ones with that id (`Verif.Registry`).  `last_executed_cell_id` stays. -/
def rename (s : St) (old new : Nat) : St :=
  match s.cur old with
  | none => s
  | some k =>
    if known s new then s
    else
      { s with
        obj := fun j => (s.obj j).map fun o => if o.id = old then { o with id := new } else o
        cur := fun i => if i = new then some k else if i = old then none else s.cur i
        react := fun t =>
          if old ∈ s.react t then new :: (s.react t).filter (· ≠ old) else s.react t }

/-- One event: core/ipyflow/data_model/cell.py 362-417, core/ipyflow/line_magics.py 311-380.  A
command that raises changes nothing. -/
def step (s : St) : Ev → St
  | .run id tags => run s id tags
  | .slice num t d => slice s num t d
  | .tag num t => tag s num t
  | .untag num t => untag s num t
  | .mention id => mention s id
  | .rename old new => rename s old new

/-- The state after a session, the last event first: core/ipyflow/data_model/cell.py 76-84. -/
def state : List Ev → St
  | [] => fresh
  | e :: h => step (state h) e

/-- What a request for the schedule does: it fails with a KeyError, or lists cells to run again. -/
inductive Res where
  | raised
  | said (ids : List Nat)
deriving DecidableEq, Repr

/-- The cells that show the slice of a tag of a cell that was run:
core/ipyflow/frontend.py 479-491. -/
def forced (s : St) (id : Nat) : Res :=
  match prevOf s id with
  | some o => .said (o.tags.flatMap s.react)
  | none => if s.unrun.contains id then .said [] else .raised

/-- The part of `forced_reactive_cells` that is due to tags; `id` is the `executed_cell_id` of the
request: core/ipyflow/comm_manager.py 164 and 182-184, core/ipyflow/frontend.py 597-605 and 479-491. -/
def ask (s : St) (id : Option Nat) : Res :=
  match id.or s.last with
  | none => .said []
  | some i => forced s i

end Verif.Tagged
