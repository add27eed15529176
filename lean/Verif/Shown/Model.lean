/-
The code that is shown for an execution of a cell: in slices by cells (`%flow slice`,
`cell.slice()`, `cell.code()`) and by `reproduce_cell`.

Modelled code, all under /repo/core/ipyflow:
* data_model/cell.py 88-106 (`__init__`), 161-163 (`text`), 362-417 (`create_and_track`), 490-491
  (`at_counter`), 557-559 (`raw_cell`), 649-650 (`sanitized_content`), 983-1000 (`reproduce`);
* shell/interactiveshell.py 522-623 (`before_run_cell`);
* comm_manager.py 228-275 (`_recompute_ast_for_cells`), 323-328, 345;
* flow.py 522-528 (`_create_untracked_cells_for_content`);
* api/cells.py 36-43 (`reproduce_cell`); slicing/mixin.py 454-476 (the texts in a slice).

Simplified: the counter of the kernel agrees with that of IPython (cell.py 376-385); ids given by
the client are not replaced (comm_manager.py 329-344, the subject of `Verif.Comm.Placeholder`);
checking new content either succeeds or raises `SyntaxError` (other exceptions are the subject of
`Verif.Content`); a message in which nothing has changed (comm_manager.py 231-243) sets contents to
what they are.

Histories are lists of events, the newest first.
-/
import Verif.Base.Dfs
import Verif.Slice.Model

namespace Verif.Shown
open Verif

/-- What is done with code: `memo` takes off the first line `%%memoize` (cell.py 534-551), `parses`
is whether `to_ast` raises no `SyntaxError` (cell.py 661-678), `clean` is the transformation of
magics and augmented syntax, stripped (cell.py 162-163, 619-636). -/
structure Lang (C : Type) where
  memo : C → Option C
  empty : C
  parses : C → Bool
  clean : C → C

/-- A `Cell` (cell.py 98-117): `ctr` is `none` for -1, `content` is `current_content`, `ran` is
`executed_content`, `prev` is `prev_cell`. -/
structure Obj (C : Type) where
  ctr : Option Nat
  content : C
  ran : Option C
  prev : Option Nat

/-- The cells of the kernel: `cur` is `_current_cell_by_cell_id`, `byCtr` is `_cell_by_cell_ctr`
(cell.py 78-82), both with addresses of cells; `counter` is `_cell_counter`. -/
structure State (C : Type) where
  heap : Nat → Option (Obj C)
  next : Nat
  cur : Nat → Option Nat
  byCtr : Nat → Option Nat
  counter : Nat

/-- What happens to the kernel: the cell `id` is run with some code, `refused` if the run is replaced
because of an out of order usage (interactiveshell.py 600-622); or the client tells the contents of
the cells (comm_manager.py 276-351). -/
inductive Event (C : Type)
  | run (id : Nat) (c : C) (refused : Bool)
  | heard (reactively : Bool) (msg : List (Nat × C))

variable {C : Type} [DecidableEq C]

/-- Assignment to an entry of a dictionary (for example cell.py 411, 414). -/
def set (f : Nat → Option α) (k : Nat) (v : α) : Nat → Option α := fun j =>
  if j = k then some v else f j

/-- No cells yet (cell.py 78-87). -/
def start : State C :=
  { heap := fun _ => none, next := 0, cur := fun _ => none, byCtr := fun _ => none, counter := 0 }

/-- `before_run_cell`, interactiveshell.py 522-623, with `create_and_track`, cell.py 372-417. -/
def runCell (L : Lang C) (s : State C) (id : Nat) (c : C) (refused : Bool) : State C :=
  { heap := set s.heap s.next
      { ctr := some (s.counter + 1), content := c,
        ran := if refused then none else some ((L.memo c).getD c), prev := s.cur id }
    next := s.next + 1
    cur := set s.cur id s.next
    byCtr := set s.byCtr (s.counter + 1) s.next
    counter := s.counter + 1 }

/-- One cell in `_recompute_ast_for_cells`, comm_manager.py 245-275: code that does not parse is taken
back. -/
def recheck (L : Lang C) (s : State C) (p : Nat × C) : State C :=
  match s.cur p.1 with
  | none => s
  | some a =>
    match s.heap a with
    | none => s
    | some o => if L.parses p.2 then { s with heap := set s.heap a { o with content := p.2 } } else s

/-- One cell in `_create_untracked_cells_for_content`, flow.py 522-528 (with cell.py 386-417). -/
def untracked (s : State C) (p : Nat × C) : State C :=
  match s.cur p.1 with
  | some _ => s
  | none =>
    { s with
      heap := set s.heap s.next { ctr := none, content := p.2, ran := none, prev := none }
      next := s.next + 1
      cur := set s.cur p.1 s.next }

/-- `_handle_notify_content_changed_impl`, comm_manager.py 323-328 and 345. -/
def hear (L : Lang C) (s : State C) (reactively : Bool) (msg : List (Nat × C)) : State C :=
  msg.foldl untracked (if reactively then s else msg.foldl (recheck L) s)

/-- The cells after a history (interactiveshell.py 522-623, comm_manager.py 276-351). -/
def replay (L : Lang C) : List (Event C) → State C
  | [] => start
  | .run id c refused :: past => runCell L (replay L past) id c refused
  | .heard reactively msg :: past => hear L (replay L past) reactively msg

/-- `raw_cell`, cell.py 557-559. -/
def raw (L : Lang C) (c : C) : C :=
  match L.memo c with
  | none => c
  | some b => if b = L.empty then c else b

/-- `cells().at_counter(n).text`, cell.py 490-491 and 161-163. -/
def shown (L : Lang C) (s : State C) (n : Nat) : Except Err C :=
  match s.byCtr n with
  | none => .error .crash
  | some a =>
    match s.heap a with
    | none => .error .crash
    | some o => .ok (L.clean (raw L o.content))

/-- Following `prev_cell`, cell.py 986-989. -/
def back (s : State C) : Nat → Nat → Except Err Nat
  | a, 0 => .ok a
  | a, k + 1 =>
    match s.heap a with
    | none => .error .crash
    | some o =>
      match o.prev with
      | none => .error .crash
      | some b => back s b k

/-- `reproduce_cell`, api/cells.py 36-43 and cell.py 983-1000: what is printed as input, if anything,
and the number under which the result is looked up.  `max` of no lines raises `ValueError`. -/
def reproduce (L : Lang C) (s : State C) (n : Nat) (showInput : Bool) (lookback : Nat) :
    Except Err (Option C × Option Nat) :=
  match s.byCtr n with
  | none => .error .crash
  | some a =>
    match back s a lookback with
    | .error e => .error e
    | .ok b =>
      match s.heap b with
      | none => .error .crash
      | some o =>
        if showInput then
          if o.ran.getD L.empty = L.empty then .error .crash
          else .ok (some (o.ran.getD L.empty), o.ctr)
        else .ok (none, o.ctr)

/-- The texts of a slice by cells, mixin.py 454-476. -/
def texts (L : Lang C) (s : State C) : List Nat → Except Err (List (Nat × C))
  | [] => .ok []
  | n :: l =>
    match shown L s n with
    | .error e => .error e
    | .ok c =>
      match texts L s l with
      | .error e => .error e
      | .ok r => .ok ((n, c) :: r)

end Verif.Shown
