/-!
# What a cell is recorded to have written

Each time a symbol is stored, the end of `upsert_symbol_for_name` (`data_model/scope.py`
343-366) sorts it, with the symbols of what was stored, into the static or the dynamic writes
of the current cell (`data_model/cell.py` 120-123).  Dynamic writes are pending until the end
of a statement (`after_stmt`, `tracing/ipyflow_tracer.py` 1528-1530).

Simplified: Python sets are lists without regard to order and repetition.  Whether the write
is a static one (`_compute_is_static_write`, `data_model/scope.py` 260-280) is given.
-/

namespace Verif.Writes

variable {S N : Type} [DecidableEq S] [DecidableEq N]

/-- One call of `upsert_symbol_for_name`, `data_model/scope.py` 343-353: the symbol, whether it
is a static write, the namespace of the value (`sym.namespace`), the symbols in it at any depth
(`get_namespace_symbols(recurse=True)`), and for each of these symbols the namespace it is in
(`containing_namespace`). -/
structure Write (S N : Type) where
  sym : S
  isStatic : Bool
  ns : Option N
  members : List S
  containing : S → Option N

/-- `static_writes`, `dynamic_writes` and `_pending_dynamic_writes` of the current cell,
`data_model/cell.py` 120-123. -/
structure St (S : Type) where
  statics : List S
  dynamics : List S
  pending : List S

/-- `set.discard`, as used in `data_model/scope.py` 361 and 364. -/
def discard (s : S) (l : List S) : List S := l.filter (fun x => decide (x ≠ s))

/-- The body of the loop, `data_model/scope.py` 357-365. -/
def sortOne (w : Write S N) (sub : S) (st : St S) : St S :=
  if w.containing sub ≠ w.ns then st
  else if w.isStatic = true ∧ sub ∉ st.dynamics then
    { st with
      pending := discard sub st.pending
      statics := sub :: st.statics }
  else
    { st with
      statics := discard w.sym st.statics
      pending := w.sym :: st.pending }

/-- The loop over the symbol and the symbols of its value, `data_model/scope.py` 356-365. -/
def record (w : Write S N) (st : St S) : St S :=
  (w.sym :: w.members).foldl (fun st sub => sortOne w sub st) st

/-- The end of a statement, `tracing/ipyflow_tracer.py` 1528-1530. -/
def flush (st : St S) : St S :=
  { st with dynamics := st.dynamics ++ st.pending, pending := [] }

/-- What happens to the writes of a cell: a symbol is stored (`data_model/scope.py` 356-365),
or a statement ends (`tracing/ipyflow_tracer.py` 1528-1530). -/
inductive Ev (S N : Type) where
  | write (w : Write S N)
  | stmtEnd

/-- One event, `data_model/scope.py` 356-365 and `tracing/ipyflow_tracer.py` 1528-1530. -/
def step (st : St S) : Ev S N → St S
  | .write w => record w st
  | .stmtEnd => flush st

/-- A cell begins without writes (`data_model/cell.py` 120-123) and then events happen to it
one after the other (`data_model/scope.py` 356-365). -/
def run (evs : List (Ev S N)) : St S := evs.foldl step ⟨[], [], []⟩

end Verif.Writes
