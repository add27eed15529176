import Verif.Client.Model

/-!
# What the client is told about runs that fail

Models `_ipyflow_run_cell` (`core/ipyflow/shell/interactiveshell.py` 395-460) as far as exceptions go, `run_cell_async`
(364-393), `on_exception` (702-703), `get_and_set_exception_raised_during_execution` and `reset_exception_counter`
(`core/ipyflow/flow.py` 477-491), `visit` of the rewriter (`core/ipyflow/tracing/flow_ast_rewriter.py` 27-50) as far as
it raises, `is_error` (`core/ipyflow/data_model/cell.py` 141-143), the debounced schedule
(`core/ipyflow/data_model/symbol.py` 64-83) and `last_execution_was_error` of an answer
(`core/ipyflow/comm_manager.py` 201-203). What the client makes of it is `Verif.Client.step`.

IPython's `run_cell_async` does not raise what a cell raises: it gives back a result with `error_before_exec` (the code
could not be compiled) or `error_in_exec`. It catches what a transformer of the syntax tree raises, and goes on. That
is part of another package and an assumption. Exceptions that are no `Exception` are left out, and so is unloading
the extension. -/

namespace Verif.Failing

/-- What comes of the code of a cell: the `ExecutionResult` of IPython. -/
inductive Result where
  | done
  | beforeExec
  | inExec
  deriving DecidableEq, Repr

/-- A run of a cell: `first` says that `before_run_cell` raises (`interactiveshell.py` 403-405), `rewriter` that the
rewriter does (`flow_ast_rewriter.py` 33-50), `setup` that something does before there is a result (414-438), `rest`
that something does after (439-453). -/
structure Run where
  first : Bool
  rewriter : Bool
  setup : Bool
  result : Result
  rest : Bool
  deriving DecidableEq, Repr

/-- What happens in the kernel: a cell is run, code is run that is silent or empty (`interactiveshell.py` 375-384), the
client asks for a schedule, a debounced schedule is made, the counter of exceptions is read. -/
inductive Event where
  | run (r : Run)
  | control
  | ask
  | late
  | reset
  deriving DecidableEq, Repr

/-- `_exception_raised_during_execution` (whether there is one), `exception_counter` (`flow.py` 206-208), and
`error_in_exec` (whether there is one) of the cell that was run last (`cell.py` 103). -/
structure Kernel where
  raised : Bool
  counter : Nat
  cellError : Bool
  deriving DecidableEq, Repr

/-- `flow.py` 206-208. -/
def Kernel.init : Kernel := ⟨false, 0, false⟩

/-- `get_and_set_exception_raised_during_execution`, `flow.py` 477-485. -/
def Kernel.note (k : Kernel) (e : Bool) : Kernel :=
  { k with raised := e, counter := if e then k.counter + 1 else k.counter }

/-- What a run gives: the result of IPython, or an exception: that of the hook, or the `UnboundLocalError` of `ret`
(460). -/
inductive Reply where
  | returned (r : Result)
  | hookRaised
  | unbound
  deriving DecidableEq, Repr

/-- `_ipyflow_run_cell`, `interactiveshell.py` 395-460. A new `Cell` has no error (`cell.py` 103). -/
def runCell (k : Kernel) (r : Run) : Kernel × Reply :=
  if r.first then (k, .hookRaised)
  else
    let k := { k with cellError := false }
    if r.setup then (k.note true, .unbound)
    else
      let k := if r.rewriter then k.note true else k
      let k := { k with cellError := decide (r.result = Result.inExec) }
      (k.note r.rest, .returned r.result)

/-- An event. -/
def step (k : Kernel) : Event → Kernel
  | .run r => (runCell k r).1
  | .control => k
  | .ask => k
  | .late => k.note false
  | .reset => { k with counter := 0 }

/-- The kernel after what happened, newest first. -/
def after : List Event → Kernel
  | [] => .init
  | e :: h => step (after h) e

/-- `last_execution_was_error` of the schedule, `comm_manager.py` 201-203. -/
def told (h : List Event) : Bool := (after h).raised

/-- `exception_counter`. -/
def counted (h : List Event) : Nat := (after h).counter

/-- `cell.is_error` of the cell that ran last, `cell.py` 141-143. -/
def isError (h : List Event) : Bool := (after h).cellError

end Verif.Failing
