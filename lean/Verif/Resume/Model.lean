import Verif.Base.Assoc

/-!
# Generators

Python tells the tracer of a call when a function starts to run, and again each time a suspended
generator goes on.  The tracer goes by the line: when a generator goes on, this is the line of
the `yield`, whose statement is not known to belong to a function.  Modelled, of
`tracing/ipyflow_tracer.py`: `handle_call` (1727-1769), `_get_stmt_node_for_sys_event` for calls
(1690-1716), `_handle_call_transition` (333-355), the pop in `_handle_return_transition`
(471-473), and where names are stored and found: `_resolve_store_data_for_simple_target`
(508-536) and `resolve_loaded_symbols` (618-634); and `Statement.get_post_call_scope`
(`data_model/statement.py` 276-281).

Simplified: functions are defined outside of functions, so that names are looked up in the scope
of the call and then in the global one.  Scopes are numbered by calls, the global one is 0.  No
call is written with a variable that is a function of the notebook when a generator goes on
(area Callee), and its `def` stands on another line than its `yield`.  Where tracing is turned
off for a call, it is on again when the call is over (area Frames).
-/

namespace Verif.Resume

/-- What happens.
* `call key site`: a function with the `def` statement `key` starts to run (or the first part of
  a generator), at the place `site`
* `resume g y site`: the generator which is the call number `g` goes on after the `yield` of the
  statement `y`
* `leave`: the running call returns, or yields
* `store x o`: the running code gives its own variable `x` the object `o`
* `load n x`: the running code reads the name `x`; `n` tells reads apart
* `cell`: a new cell starts -/
inductive Ev where
  | call (key site : Nat)
  | resume (g y site : Nat)
  | leave
  | store (x o : Nat)
  | load (n x : Nat)
  | cell
deriving DecidableEq, Repr

/-- The state: what is recorded of the variables of the scopes; which of them reads were resolved
to; the scopes of `call_stack` (`tracing/ipyflow_tracer.py` 199-217); how many of the running
calls are not traced; the number of the next call; `node_id_for_last_call` of the statements
(`data_model/statement.py` 68). -/
structure St where
  recs : List ((Nat × Nat) × Nat)
  uses : List (Nat × Option (Nat × Nat))
  stack : List Nat
  off : Nat
  next : Nat
  last : List (Nat × Nat)

/-- Before anything has run, `tracing/ipyflow_tracer.py` 184-199. -/
def start : St := ⟨[], [], [], 0, 1, []⟩

/-- `cur_frame_original_scope`, `tracing/ipyflow_tracer.py` 217, 350. -/
def cur (st : St) : Nat := st.stack.headD 0

/-- `resolve_loaded_symbols` for a name, `tracing/ipyflow_tracer.py` 618-634: the variable of the
scope or else the global one. -/
def find (recs : List ((Nat × Nat) × Nat)) (s x : Nat) : Option (Nat × Nat) :=
  if Assoc.get recs (s, x) ≠ none then some (s, x)
  else if Assoc.get recs (0, x) ≠ none then some (0, x)
  else none

/-- `handle_call` and `_handle_call_transition`, `tracing/ipyflow_tracer.py` 333-355, 1759-1768,
for a statement, with the scope that `get_post_call_scope` gives: tracing is turned off if the
statement was called from the same place before. -/
def push (st : St) (key site scope : Nat) : St :=
  if st.off ≠ 0 then { st with off := st.off + 1 }
  else if Assoc.get st.last key = some site then { st with off := 1 }
  else { st with stack := scope :: st.stack, last := Assoc.set st.last key site }

/-- The handlers of the events.  `call`: a new scope (`data_model/statement.py` 292-301).
`resume`: no function is known for the statement of the `yield`, so the scope stays that of the
code which makes the generator go on (`data_model/statement.py` 277-281).  `leave`:
`tracing/ipyflow_tracer.py` 471-473.  `store`: 511, 533.  `cell`: statements are traced anew in
each cell, 185. -/
def step (st : St) : Ev → St
  | .call key site =>
    let st' := push st key site st.next
    { st' with next := st.next + 1 }
  | .resume _ y site => push st y site (cur st)
  | .leave =>
    if st.off ≠ 0 then { st with off := st.off - 1 } else { st with stack := st.stack.tail }
  | .store x o =>
    if st.off ≠ 0 then st else { st with recs := Assoc.set st.recs (cur st, x) o }
  | .load n x =>
    if st.off ≠ 0 then st else { st with uses := (n, find st.recs (cur st) x) :: st.uses }
  | .cell => { st with last := [] }

/-- A history, newest event first; the handlers of `tracing/ipyflow_tracer.py` 1727-1790. -/
def run : List Ev → St
  | [] => start
  | e :: h => step (run h) e

end Verif.Resume
