/-
Slices of cells by statements: `%flow slice`, `cell.slice(stmts=…)` and `cell.code(stmts=…)`.

Modelled code, all under /repo/core/ipyflow:
* data_model/cell.py 926-939 (`_get_stmt_timestamps`, `compute_multi_slice_stmts`), 944-978
  (`slice`, `code`), 680-686 (how many statements a cell has);
* line_magics.py 318-356 (`make_slice`), without tags;
* slicing/mixin.py 482-530 (`format_multi_slice`, `format_slice`).

The closure itself is `make_multi_slice` of `Verif.Slice.Model`, once for statements and once for
cells.

Simplified: no execution was replaced by a memoized one (mixin.py 489-498 then changes nothing);
statements inside others, which share the timestamp of the outermost, are not told apart from it;
the text of statements and cells is the subject of `Verif.Text` and `Verif.Slice.Text`.
-/
import Verif.Slice.Props

namespace Verif.Parts
open Verif Verif.Slice

/-- The recorded statements and cells (statement.py 49-50, cell.py 78-79), and for every execution
of a cell the number of statements of its present content: `num_stmts` parses `current_content`
(cell.py 661-686), which follows the editor and not the execution. -/
structure Book (ι σ κι κ : Type) where
  sw : World ι σ
  cw : World κι κ
  now : κ → Nat

/-- What a slice consists of: statements or whole cells (mixin.py 454-466 asks either for their
text). -/
inductive Out (σ κ : Type)
  | stmts (l : List σ)
  | cells (l : List κ)

variable {ι σ κι κ : Type} [DecidableEq σ] [DecidableEq κ]

/-- `_get_stmt_timestamps`, cell.py 926-927. -/
def stamps (b : Book ι σ κι κ) (k : κ) : List Timestamp :=
  (List.range (b.now k)).map fun i : Nat => ⟨(b.cw.ts k).cellNum, (i : Int)⟩

/-- `compute_multi_slice_stmts`, cell.py 929-939. -/
def computeStmts (b : Book ι σ κι κ) (ctxs : List Ctx) (fuel : Nat) (ks : List κ) :
    Except Err (List σ) :=
  makeMultiSlice b.sw ctxs fuel ((ks.flatMap (stamps b)).map .time) false

/-- `format_multi_slice` called on a cell, mixin.py 500-515: seeds that are not timestamps are
replaced by their timestamps (mixin.py 486-488), and `cls` is the class of cells. -/
def formatCells (b : Book ι σ κι κ) (ctxs : List Ctx) (fuel : Nat) (seedOnly : Bool)
    (ts : List Timestamp) : Except Err (Out σ κ) :=
  match makeMultiSlice b.cw ctxs fuel (ts.map .time) seedOnly with
  | .error e => .error e
  | .ok l => .ok (.cells l)

/-- `Cell.slice`, cell.py 944-965; `Cell.code`, cell.py 967-978, is the same with
`seed_only=True`. -/
def slice (b : Book ι σ κι κ) (ctxs : List Ctx) (fuel : Nat) (stmts seedOnly : Bool) (k : κ) :
    Except Err (Out σ κ) :=
  if stmts then
    match computeStmts b ctxs fuel [k] with
    | .error e => .error e
    | .ok l => formatCells b ctxs fuel seedOnly (l.map b.sw.ts)
  else formatCells b ctxs fuel seedOnly [b.cw.ts k]

/-- What `%flow slice` does (line_magics.py 318-356). -/
inductive Reply (σ κ : Type)
  | raises (e : Err)
  | warns
  | shows (out : Out σ κ)

/-- The cells to slice, line_magics.py 330-336: by default the one that ran before; a number under
which none ran is a `KeyError` of `at_timestamp`.  `slice_cells` stays `None` only without a number
and without a tag, and then a number has been put in. -/
def chosen (b : Book ι σ κι κ) (counter : Int) (num : Option Int) : Except Err (Option (List κ)) :=
  match num with
  | some n =>
    match b.cw.at' ⟨n, 0⟩ with
    | none => .error .crash
    | some k => .ok (some [k])
  | none =>
    match b.cw.at' ⟨counter - 1, 0⟩ with
    | none => .error .crash
    | some k => .ok (some [k])

/-- `make_slice`, line_magics.py 318-356. -/
def magic (b : Book ι σ κι κ) (ctxs : List Ctx) (fuel : Nat) (counter : Int) (stmt : Bool)
    (num : Option Int) : Reply σ κ :=
  match chosen b counter num with
  | .error e => .raises e
  | .ok none => .warns
  | .ok (some ks) =>
    if stmt then
      match computeStmts b ctxs fuel ks with
      | .error e => .raises e
      | .ok l => .shows (.stmts l)
    else
      match makeMultiSlice b.cw ctxs fuel (ks.map .node) false with
      | .error e => .raises e
      | .ok l => .shows (.cells l)

end Verif.Parts
