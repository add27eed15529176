/-!
# Keyboard interrupts and exception handlers of user code

Models `core/ipyflow/tracing/interrupt_tracer.py` 22-29 and 36-60, and how Python uses the type of an `except` clause.

The value of the expression of an `except` clause is a tuple of values (a single value is a tuple of length one);
values that are no exception classes are `none`. The instrumentation, which evaluates
`handle_exception_handler_type` each time the expression of an `except` clause was evaluated and replaces its value by
the result unless that is `None`, is part of another package; that it does so is an assumption. -/

namespace Verif.Interrupt
variable {T N : Type} [DecidableEq T] [DecidableEq N]

/-- Exception classes: `sub a b` is `issubclass(a, b)`, `direct` is `BaseException.__subclasses__()`, `ph` is the
`PlaceholderException` of `interrupt_tracer.py` 9-10. -/
structure Classes (T : Type) where
  sub : T → T → Bool
  base : T
  ki : T
  exit : T
  ph : T
  direct : List T

/-- `num_interrupts_by_node_id`, `interrupt_tracer.py` 19; `get(node_id, 0)` (47). -/
abbrev Counts (N : Type) := N → Nat

/-- `_get_interrupt_count_threshold`, `interrupt_tracer.py` 21-28. -/
def threshold (C : Classes T) (types : List T) : Nat := if C.ki ∈ types then 2 else 1

/-- `interrupt_tracer.py` 53-59: the classes that are left. Simplification: a list in place of a set. -/
def remaining (C : Classes T) (types : List T) : List T :=
  let l := if C.base ∈ types then types.filter (· ≠ C.base) ++ C.direct else types
  let l := l.filter (· ≠ C.ki)
  let l := l.filter (· ≠ C.exit)
  if l = [] then [C.ph] else l

/-- The classes of a tuple, if all its members are exception classes (`interrupt_tracer.py` 42-45). -/
def classes : List (Option T) → Option (List T)
  | [] => some []
  | none :: _ => none
  | some t :: l => (classes l).map (t :: ·)

/-- `handle_exception_handler_type`, `interrupt_tracer.py` 35-60. `exc` is `sys.exc_info()[0]`; the first component is
the result, `none` for `None`. -/
def handle (C : Classes T) (k : Counts N) (node : N) (exc : T) (types : List (Option T)) : Option (List T) × Counts N :=
  if exc ≠ C.ki then (none, k)
  else match classes types with
    | none => (none, k)
    | some ts =>
      let k' : Counts N := fun n => if n = node then k node + 1 else k n
      if k' node < threshold C ts then (none, k') else (some (remaining C ts), k')

/-- What an `except` clause does with an exception. -/
inductive Outcome where
  | caught
  | passed
  | typeError
  deriving DecidableEq, Repr

/-- How Python decides, given the value of the expression of the clause: `TypeError` if some member of the tuple is no
exception class, otherwise by `issubclass`. -/
def python (C : Classes T) (exc : T) (types : List (Option T)) : Outcome :=
  match classes types with
  | none => .typeError
  | some ts => if ts.any fun t => C.sub exc t then .caught else .passed

/-- An exception reaches an `except` clause: the clause, the class of the exception, the value of the expression. -/
structure Event (T N : Type) where
  node : N
  exc : T
  types : List (Option T)

/-- The clause with the instrumentation (`interrupt_tracer.py` 35-60). -/
def step (C : Classes T) (k : Counts N) (e : Event T N) : Outcome × Counts N :=
  match handle C k e.node e.exc e.types with
  | (none, k') => (python C e.exc e.types, k')
  | (some ts, k') => (python C e.exc (ts.map some), k')

/-- The counts after a history (`interrupt_tracer.py` 19 initially). -/
def after (C : Classes T) (h : List (Event T N)) : Counts N := h.foldl (fun k e => (step C k e).2) fun _ => 0

/-- What happens to an exception after a history. -/
def outcome (C : Classes T) (h : List (Event T N)) (e : Event T N) : Outcome := (step C (after C h) e).1

end Verif.Interrupt
