import Verif.Base.Dfs

/-!
# Which library calls a statement is recorded with

Models how `core/ipyflow/tracing/ipyflow_tracer.py` finds the calls of library code that a statement makes, with their arguments and results: `before_call`,
1196-1249, `argument`, 1115-1176, `_resolve_external_call`, 1105-1113, `after_call`, 1258-1281, `after_for_iter`, 1470-1499, `before_stmt`, 1582-1606,
`after_stmt`, 1501-1532, `after_stmt_reset_hook`, 299-305, `_try_reenable_tracing`, 1636-1663, and `Statement.handle_dependencies`,
`data_model/statement.py` 700-703.

What is recorded for a call is the subject of `Verif.Extern` and `Verif.Annot`; here a record only says which call it is, what was passed and what was returned.
One frame is followed, the first time its statements run: a function has a frame of its own with a state of its own (203-232), and what happens while it runs is seen
here only as `off`, that tracing has been turned off by the time the function is left (`Verif.Frames` says when that happens: a function of the notebook that a
library calls twice, recursion, too many frames of libraries). The events are those that pyccolo emits, in the order in which Python evaluates an expression; a value
`V` stands for an object with the symbols that the expression for it resolves to, and with the keyword if there is one. -/

namespace Verif.Pending

/-- What is called. -/
inductive Kind where
  /-- code of a library: `resolve_external_call` makes a handler (`tracing/external_calls/__init__.py` 29-101) -/
  | lib
  /-- a function of the notebook, `print`, a logger, …: no handler, the same lines -/
  | own
  /-- methods of the shell, and objects with `__qualname__` `None`: tracing is turned off, `tracing/ipyflow_tracer.py` 1199-1207 -/
  | odd
  deriving DecidableEq

/-- Expressions with what becomes of them. -/
inductive Expr (N V : Type) where
  /-- a name or a constant -/
  | leaf (v : V)
  /-- anything else without a call at the top, with its value -/
  | op (v : V) (args : List (Expr N V))
  /-- a call: which one, what is called, whether it leaves tracing turned off, and what it returns; `none` if it raises -/
  | call (c : N) (kind : Kind) (off : Bool) (args : List (Expr N V)) (res : Option V)

/-- Statements. -/
inductive Stmt (N V : Type) where
  /-- a statement with this expression in it, or the header of an `if` or `with`, which is dealt with when its body is entered
  (`tracing/ipyflow_tracer.py` 1594-1600) -/
  | simple (e : Expr N V)
  /-- the header of a `for`; `pairs` if what is iterated over is a `zip` or `enumerate` -/
  | «for» (e : Expr N V) (pairs : Bool)
  /-- `try` with an `except` for everything -/
  | «try» (body handler : List (Stmt N V))

variable {N V : Type}

mutual
/-- The value of an expression, `none` if an exception is raised. Python. -/
def Expr.value : Expr N V → Option V
  | .leaf v => some v
  | .op v args => (values args).map fun _ => v
  | .call _ _ _ args res => (values args).bind fun _ => res
/-- The values of some expressions that are evaluated one after the other. Python. -/
def values : List (Expr N V) → Option (List V)
  | [] => some []
  | e :: es => e.value.bind fun v => (values es).map fun vs => v :: vs
end

/-- What the tracer is told. -/
inductive Ev (N V : Type) where
  /-- `before_call`, with the number of arguments -/
  | before (c : N) (kind : Kind) (args : Nat)
  /-- `after_argument` -/
  | arg (v : V) (last : Bool)
  /-- the function runs; is tracing turned off when it is left? -/
  | body (off : Bool)
  /-- `after_call` -/
  | after (v : V)
  /-- `after_for_iter` -/
  | iter (pairs : Bool)
  /-- `before_stmt` -/
  | start
  /-- `after_stmt` -/
  | finish

/-- The events of a call once its arguments have been evaluated, if they have been. pyccolo. -/
def callEnd (off : Bool) (res : Option V) : Option (List V) → List (Ev N V)
  | none => []
  | some _ => .body off ::
    (match res with
      | none => []
      | some v => [.after v])

mutual
/-- The events of an expression. pyccolo. -/
def Expr.events : Expr N V → List (Ev N V)
  | .leaf _ => []
  | .op _ args => opEvents args
  | .call c k off args res =>
    .before c k args.length :: argEvents args ++ callEnd off res (values args)
/-- The events of operands. pyccolo. -/
def opEvents : List (Expr N V) → List (Ev N V)
  | [] => []
  | e :: es => e.events ++ (if e.value.isSome then opEvents es else [])
/-- The events of arguments. pyccolo. -/
def argEvents : List (Expr N V) → List (Ev N V)
  | [] => []
  | e :: es => e.events ++
    (match e.value with
      | none => []
      | some v => .arg v es.isEmpty :: argEvents es)
end

mutual
/-- Does the statement come to its end? Python. -/
def Stmt.ok : Stmt N V → Bool
  | .simple e => e.value.isSome
  | .for e _ => e.value.isSome
  | .try b h => okAll b || okAll h
/-- The same for statements one after the other. Python. -/
def okAll : List (Stmt N V) → Bool
  | [] => true
  | s :: ss => s.ok && okAll ss
end

mutual
/-- The events of a statement. pyccolo. -/
def Stmt.events : Stmt N V → List (Ev N V)
  | .simple e => .start :: e.events ++ (if e.value.isSome then [.finish] else [])
  | .for e p => .start :: e.events ++ (if e.value.isSome then [.iter p, .finish] else [])
  | .try b h => .start :: allEvents b ++ (if okAll b then [.finish] else allEvents h ++ (if okAll h then [.finish] else []))
/-- The events of statements one after the other. pyccolo. -/
def allEvents : List (Stmt N V) → List (Ev N V)
  | [] => []
  | s :: ss => s.events ++ (if s.ok then allEvents ss else [])
end

/-- `ExternalCallHandler`, `tracing/external_calls/base_handlers.py` 41-50: the call, its arguments, and the result unless `not_yet_defined`. -/
structure Rec (N V : Type) where
  call : N
  args : List V := []
  ret : Option V := none
  deriving DecidableEq

/-- State of the tracer for a frame, `tracing/ipyflow_tracer.py` 203-232. -/
structure St (N V : Type) where
  /-- `is_tracing_enabled` -/
  on : Bool := true
  /-- `external_call_candidate` -/
  cand : Option (Rec N V) := none
  /-- `lexical_call_stack`: the candidates saved there, the last one first -/
  stack : List (Option (Rec N V)) := []
  /-- `external_calls` -/
  calls : List (Rec N V) := []
  /-- `is_external_call_pending_return` -/
  pending : Bool := false
  /-- the calls that `handle` has been called for -/
  log : List (Rec N V) := []
  /-- what `after_for_iter` takes for the arguments of `zip` or `enumerate`; `none` is an `IndexError` -/
  iters : List (Option (List V)) := []

/-- `_resolve_external_call`, `tracing/ipyflow_tracer.py` 1105-1113. -/
def resolve (s : St N V) : St N V := match s.stack with
  | some r :: _ => { s with calls := s.calls ++ [r], pending := true }
  | _ => s

/-- `lexical_call_stack.push()`, `tracing/ipyflow_tracer.py` 1245; the fields are as at the start again. -/
def push (s : St N V) : St N V := { s with stack := s.cand :: s.stack, cand := none }

/-- `lexical_call_stack.pop()` if there is something, `tracing/ipyflow_tracer.py` 1275-1277. -/
def pop (s : St N V) : St N V := match s.stack with
  | [] => s
  | c :: t => { s with stack := t, cand := c }

/-- `before_call`, `tracing/ipyflow_tracer.py` 1196-1249. -/
def before (c : N) (k : Kind) (args : Nat) (s : St N V) : St N V :=
  if s.on then
    match k with
    | .odd => { s with on := false }
    | .lib => let s := push { s with cand := some { call := c } }
      if args = 0 then resolve s else s
    | .own => let s := push { s with cand := none }
      if args = 0 then resolve s else s
  else s

/-- `argument`, `tracing/ipyflow_tracer.py` 1115-1170. -/
def arg (v : V) (last : Bool) (s : St N V) : St N V :=
  if s.on then
    match s.stack with
    | some r :: t =>
      let s := { s with stack := some { r with args := r.args ++ [v] } :: t }
      if last then resolve s else s
    | _ => s
  else s

/-- `_try_reenable_tracing`, `tracing/ipyflow_tracer.py` 1653-1663, if tracing is turned off: all that is on the stack is taken from it. -/
def enable (s : St N V) : St N V :=
  if s.on then s else { s with on := true, stack := [], cand := s.stack.getLast?.getD s.cand }

/-- `external_calls[-1].process_return(retval)`, `tracing/ipyflow_tracer.py` 1281; `external_calls` is not empty if a result is awaited (`Verif.Pending.inv_pending`). -/
def setLast (v : V) : List (Rec N V) → List (Rec N V)
  | [] => []
  | [r] => [{ r with ret := some v }]
  | r :: rs => r :: setLast v rs

/-- `after_call`, `tracing/ipyflow_tracer.py` 1258-1281. -/
def after (v : V) (s : St N V) : St N V :=
  let s := pop (enable s)
  if s.pending then { s with pending := false, calls := setLast v s.calls } else s

/-- `after_for_iter`, `tracing/ipyflow_tracer.py` 1470-1490: `external_calls[-1].args`. -/
def iter (pairs : Bool) (s : St N V) : St N V :=
  if pairs then { s with iters := s.iters ++ [s.calls.getLast?.map (·.args)] } else s

/-- `after_stmt_reset_hook`, `tracing/ipyflow_tracer.py` 299-302. -/
def reset (s : St N V) : St N V := { s with pending := false, calls := [], cand := none }

/-- `before_stmt`, `tracing/ipyflow_tracer.py` 1602-1606. -/
def start (s : St N V) : St N V := if s.on then s else reset (enable s)

/-- `after_stmt`, `tracing/ipyflow_tracer.py` 1501-1520, with `handle_dependencies`, `data_model/statement.py` 700-703, and `after_stmt_reset_hook`, 299-302. -/
def finish (s : St N V) : St N V :=
  let s := enable s
  reset { s with log := s.log ++ s.calls }

/-- One event: the handler for it. `tracing/ipyflow_tracer.py` 333-342, 385-398 for `body`: tracing is turned off while the function runs. -/
def step (s : St N V) : Ev N V → St N V
  | .before c k n => before c k n s
  | .arg v l => arg v l s
  | .body off => if off then { s with on := false } else s
  | .after v => after v s
  | .iter p => iter p s
  | .start => start s
  | .finish => finish s

/-- What the tracer knows after some events. `tracing/ipyflow_tracer.py` 203-232. -/
def run (s : St N V) (es : List (Ev N V)) : St N V := es.foldl step s

/-- What the tracer knows after some statements of a frame. `tracing/ipyflow_tracer.py` 203-232. -/
def ran (b : List (Stmt N V)) : St N V := run {} (allEvents b)

end Verif.Pending
