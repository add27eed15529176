import Verif.Base.Dfs

/-!
# Which tracers see the statements of cells

Models `%flow register_tracer` and `deregister_tracer` (`core/ipyflow/line_magics.py` 494-542), the part of `_tracing_context` that starts, switches on and off, and
cleans up tracers (`core/ipyflow/shell/interactiveshell.py` 56-64, 104-110, 120-142, 244-322), when it is entered (393-424, 557), `%flow on` and `off`
(`line_magics.py` 197-206), `syntax_transforms_only` (139-141), and `do_debug_request` (`core/ipyflow/kernel/kernel.py` 120-135).

Taken from pyccolo, which is not part of the repository: `instance()` makes an instance if there is none, `clear_instance()` forgets it; `tracing_non_context()` puts an
instance on the stack of tracers and switches it on; `_enable_tracing` and `_disable_tracing` switch it on and off; the callback takes it off the stack. Statements are
seen by the instances on the stack that are switched on and whose filter passes.

Simplified: cells do not run other cells (`Verif.Nest`); names of classes are resolved already (`_resolve_tracer_class`); the tracers of the configuration (72-75) are
left out, as is `StackFrameManager` (263-269), which is only added if the tracer of dataflow is not registered; statements of cells pass the filters of all tracers. -/

namespace Verif.Tracers

/-- A class of tracers: the object, and its `__name__`. -/
structure Cls where
  id : Nat
  name : Nat
  deriving DecidableEq, Repr

/-- `OutputRecorder`, `interactiveshell.py` 59. -/
def recorder : Cls := ⟨0, 0⟩

/-- `DataflowTracer`, `interactiveshell.py` 60. -/
def dataflow : Cls := ⟨1, 1⟩

/-- `InterruptTracer`, `interactiveshell.py` 61. -/
def interrupt : Cls := ⟨2, 2⟩

/-- What a cell does, one after the other: a statement, `%flow register_tracer` and `deregister_tracer` (`line_magics.py` 118-121), `%flow on` and `off` (79-80),
and `%flow syntax_transforms_only` (139-141). -/
inductive Act where
  | stmt
  | register (c : Cls)
  | deregister (c : Cls)
  | deregisterAll
  | on
  | off
  | only
  deriving DecidableEq

/-- A cell is run; `capture` is whether it begins with `%%capture` (`interactiveshell.py` 411). A debugger is attached or disconnected (`kernel.py` 123, 132). -/
inductive Event where
  | cell (capture : Bool) (acts : List Act)
  | attach
  | disconnect

/-- The state: `registered_tracers`, the instance of each class, the next instance, the instances in `tracer_cleanup_callbacks`, `tracer_cleanup_pending`
(`interactiveshell.py` 58-64), `dataflow_enabled` and `syntax_transforms_only` (`config.py` 87, 104). -/
structure State where
  registered : List Cls
  inst : Cls → Option Nat
  next : Nat
  started : List (Cls × Nat)
  pending : Bool
  on : Bool
  only : Bool

/-- `_initialize`, `interactiveshell.py` 56-64; `tee_output_tracer` is the first instance. -/
def State.init : State := ⟨[recorder, dataflow, interrupt], fun c => if c = recorder then some 0 else none, 1, [], false, true, false⟩

/-- `instance()`, as in `line_magics.py` 528. -/
def instanceOf (σ : State) (c : Cls) : State × Nat :=
  match σ.inst c with
  | some n => (σ, n)
  | none => ({ σ with inst := fun d => if d = c then some σ.next else σ.inst d, next := σ.next + 1 }, σ.next)

/-- The loop of `_deregister_tracers`, `line_magics.py` 496-501: `remove` takes the first one; the error is dropped if there is none. -/
def dropAll : List Cls → State → State
  | [], σ => σ
  | c :: cs, σ => dropAll cs { σ with inst := fun d => if d = c then none else σ.inst d, registered := σ.registered.erase c }

/-- `_deregister_tracers`, `line_magics.py` 494-501. -/
def deregister (cs : List Cls) (σ : State) : State := dropAll cs { σ with pending := true }

/-- `_deregister_tracers_for`, `line_magics.py` 504-515. -/
def deregisterFor (c : Cls) (σ : State) : State := deregister (c :: σ.registered.filter (fun d => d.name = c.name)) σ

/-- One act of a cell: `register_tracer` (`line_magics.py` 518-529), `deregister_tracer` (532-542), `toggle_dataflow` (197-206). -/
def act (σ : State) : Act → State
  | .stmt => σ
  | .register c =>
    let σ := (instanceOf (deregisterFor c σ) c).1
    { σ with registered := c :: σ.registered }
  | .deregister c => deregisterFor c σ
  | .deregisterAll => deregister σ.registered σ
  | .on => { σ with on := true, only := false }
  | .off => { σ with on := false }
  | .only => { σ with only := true }

/-- How a cell is run: not traced, with transformations of syntax only, or with these tracers; `interactiveshell.py` 413-421, 254-259. -/
inductive Ctx where
  | untraced
  | syntactic
  | traced (ts : List (Cls × Nat))

/-- `all_tracers`, `interactiveshell.py` 249-253. -/
def instances : List Cls → State → State × List (Cls × Nat)
  | [], σ => (σ, [])
  | c :: cs, σ =>
    let r := instanceOf σ c
    let s := instances cs r.1
    (s.1, (c, r.2) :: s.2)

/-- The beginning of a cell, `interactiveshell.py` 410-421, 244-291: tracers are started if none are, and else switched on.
Simplified: with transformations of syntax only, instances are made too (249-253); here they are made by the next traced cell, with no difference to what is seen. -/
def enter (σ : State) (capture : Bool) : State × Ctx :=
  if σ.on then
    if σ.only then (σ, .syntactic)
    else
      let r := instances (σ.registered.filter (fun c => c ≠ recorder ∨ capture = false)) σ
      if r.1.started = [] then ({ r.1 with started := r.2 }, .traced r.2) else (r.1, .traced r.2)
  else (σ, .untraced)

/-- The end of a cell, `interactiveshell.py` 311-322, 105-110. -/
def leave (σ : State) : Ctx → State
  | .traced _ => if σ.pending then { σ with started := [], pending := false } else σ
  | _ => σ

/-- The tracers that see a statement: those that are on the stack, were switched on for this cell, and whose filter passes (`interactiveshell.py` 126-135). -/
def visible (σ : State) : Ctx → List Cls
  | .traced ts => (ts.filter (fun t => t ∈ σ.started ∧ t.1 ∈ σ.registered)).map (·.1)
  | _ => []

/-- One event. -/
def step (σ : State) : Event → State
  | .cell capture acts =>
    let r := enter σ capture
    leave (acts.foldl act r.1) r.2
  | .attach => { σ with on := false }
  | .disconnect => { σ with on := true }

/-- A session, newest event first. -/
def run : List Event → State
  | [] => .init
  | e :: h => step (run h) e

/-- The tracers that would see a statement in a cell that is run after `h`, when the cell has done `pre`. -/
def sees (h : List Event) (capture : Bool) (pre : List Act) : List Cls :=
  let r := enter (run h) capture
  visible (pre.foldl act r.1) r.2

end Verif.Tracers
