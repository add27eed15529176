import Verif.Base.Assoc

/-!
# Where the names of a running function are looked up

When a function of the notebook starts to run, the tracer decides in which scope the names in
its body are looked up, and whose parameters are put into that scope.  It has no hold of the
function itself: it goes by the variable the last call was written with (`calling_symbol`), and
failing that by the last variable which the statement of the function gave a function to.
Modelled: `Symbol.update_stmt_node` and the taking over of `call_scope` at the end of
`Symbol.update_deps` (`data_model/symbol.py` 796-810, 1119-1122), `Statement.get_post_call_scope`
(`data_model/statement.py` 263-303), and in `tracing/ipyflow_tracer.py` the field
`calling_symbol` (198, 315, 1208-1227), `_handle_call_transition` (333-355),
`_check_prev_stmt_done_executing_hook` (357-383), the stack of calls in
`_handle_return_transition` (471-473), `state_transition_hook` (484-499) and `after_lambda`
(1429-1447).

Simplified: variables, objects, statements and bodies of functions are numbers.  A scope of a
call is known by its parent alone: a call makes a new scope with the same parent
(`statement.py` 295-297) or, if the statement of the function is finished, uses the old one
(area Args).  The scopes in which functions run are numbered by calls, 0 being the global one.
Tracing stays enabled; class bodies are left out.
-/

namespace Verif.Callee

/-- A variable, `Symbol`, `data_model/symbol.py` 123, 138-139: its object and, if it has a
`call_scope`, the parent of that and the function in `func_def_stmt`. -/
structure Sym where
  obj : Nat
  call : Option (Nat × Nat)
deriving DecidableEq, Repr

/-- The last event the tracer saw, `prev_event`, `tracing/ipyflow_tracer.py` 183, 499. -/
inductive Prev where
  | nothing | call | ret | after | exc
deriving DecidableEq, Repr

/-- What happens while a cell runs, as far as it matters here; handlers in
`tracing/ipyflow_tracer.py` 1196-1227, 1429-1447, 1500-1520, 1720-1790.
* `define x o raw key body loc deps`: a `def` or a lambda of the statement `key` made the function
  `raw` with the body `body`; the variable `x` of the running scope (or, if `loc` is false, of the
  global scope) gets the object `o`, which is `raw` unless there are decorators; `deps` are the
  variables it depends on
* `assign x o deps`: any other statement gave `x` the object `o`
* `before x`: a call is about to be made; `x` is the variable the function was written as, if
  there is a name for it and it is known
* `enter o key`: the function `o`, of the statement `key`, starts to run
* `leave r`: the running function returns; `r`: the statement it returns from is a `return`
* `done outer`: a statement is finished; `outer`: one outside of functions
* `raised`: an exception passes through a frame -/
inductive Ev where
  | define (x o raw key body : Nat) (loc : Bool) (deps : List Nat)
  | assign (x o : Nat) (deps : List Nat)
  | before (x : Option Nat)
  | enter (o key : Nat)
  | leave (r : Bool)
  | done (outer : Bool)
  | raised
deriving DecidableEq, Repr

/-- The state: the variables; `flow().statement_to_func_sym` (`flow.py` 200); the tracer's
`calling_symbol` (`tracing/ipyflow_tracer.py` 198), `prev_event` (183), the scopes of the running
functions (`call_stack`, 199), and for all calls so far what `get_post_call_scope` chose: the
parent of the scope and the function whose parameters are put into it, or nothing. -/
structure St where
  syms : List (Nat × Sym)
  byStmt : List (Nat × Nat)
  calling : Option Nat
  prev : Prev
  stack : List Nat
  next : Nat
  calls : List (Nat × Option (Nat × Nat))

/-- Before anything has run, `flow.py` 200, `tracing/ipyflow_tracer.py` 183, 198-199. -/
def start : St := ⟨[], [], none, .nothing, [], 1, []⟩

/-- `cur_frame_original_scope`, `tracing/ipyflow_tracer.py` 217, 350. -/
def cur (stack : List Nat) : Nat := stack.headD 0

/-- `sym.call_scope` and `sym.func_def_stmt` of a variable, if there is one
(`data_model/symbol.py` 138-139). -/
def callOf (syms : List (Nat × Sym)) (x : Nat) : Option (Nat × Nat) :=
  (Assoc.get syms x).bind Sym.call

/-- One turn of the loop at the end of `update_deps`, `data_model/symbol.py` 1119-1122: take over
the scope of a dependency that has the same object. -/
def take (syms : List (Nat × Sym)) (o : Nat) (acc : Option (Nat × Nat)) (y : Nat) :
    Option (Nat × Nat) :=
  match Assoc.get syms y with
  | some s => if s.obj = o ∧ s.call ≠ none then s.call else acc
  | none => acc

/-- `upsert_symbol_for_name` for a variable whose scope for calls is so far `c`:
`_upsert_symbol_for_name_inner` (`data_model/scope.py` 384-388) gives it the new object, then
`update_deps` (`data_model/symbol.py` 1119-1122) goes through the dependencies. -/
def upsert (syms : List (Nat × Sym)) (x o : Nat) (c : Option (Nat × Nat)) (deps : List Nat) :
    List (Nat × Sym) :=
  let syms' := Assoc.set syms x ⟨o, c⟩
  Assoc.set syms' x ⟨o, deps.foldl (take syms' o) c⟩

/-- The variable `get_post_call_scope` goes by, `data_model/statement.py` 276-278. -/
def pick (st : St) (key : Nat) : Option Nat :=
  match st.calling with
  | none => Assoc.get st.byStmt key
  | some x => if callOf st.syms x = none then Assoc.get st.byStmt key else some x

/-- `get_post_call_scope`, `data_model/statement.py` 276-303: `none` where the scope of the
caller is kept (281, 291). -/
def choose (st : St) (key : Nat) : Option (Nat × Nat) :=
  (pick st key).bind (callOf st.syms)

/-- Whether a return ends statements, `_check_prev_stmt_done_executing_hook`,
`tracing/ipyflow_tracer.py` 364-381. -/
def finishes (prev : Prev) (r : Bool) : Bool :=
  r || prev = Prev.ret || prev = Prev.after

/-- The handlers of the events, see the list at the head of the file.
`define`: `data_model/symbol.py` 800-809 (`update_stmt_node`).  `assign`: the old `call_scope`
stays.  `before`: `tracing/ipyflow_tracer.py` 1208-1227.  `enter`: 333-355.  `leave`: 364-383,
471-473.  `done`: 357-363, 378-383. -/
def step (st : St) : Ev → St
  | .define x o _ key body loc deps =>
    { st with
      syms := upsert st.syms x o (some (if loc then cur st.stack else 0, body)) deps
      byStmt := Assoc.set st.byStmt key x }
  | .assign x o deps => { st with syms := upsert st.syms x o (callOf st.syms x) deps }
  | .before x => { st with calling := x }
  | .enter _ key =>
    { st with
      calls := (st.next, choose st key) :: st.calls
      stack := st.next :: st.stack
      next := st.next + 1
      prev := .call }
  | .leave r =>
    { st with
      calling := if finishes st.prev r then none else st.calling
      stack := st.stack.tail
      prev := .ret }
  | .done outer =>
    { st with
      calling := none
      stack := if outer then [] else st.stack
      prev := .after }
  | .raised => { st with prev := .exc }

/-- A history, newest event first; the events of `step`, `tracing/ipyflow_tracer.py` 1196-1790. -/
def run : List Ev → St
  | [] => start
  | e :: h => step (run h) e

end Verif.Callee
