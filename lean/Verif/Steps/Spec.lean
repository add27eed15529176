import Verif.Steps.Model

/-!
# Executions and the events they emit

An execution of a statement says what happened, not what the statement is. The events are those that the instrumentation emits: one before each statement, one after
each that ran to its end, one after the first iteration of a loop; what happens in later iterations is not seen, because the copy of the body that is run then is
not instrumented (`activate_guard` in `after_loop_iter`, `ipyflow_tracer.py` 863). -/

namespace Verif.Steps

variable {S X : Type}

/-- Executions. -/
inductive Run (S : Type) where
  | done
  | seq (a b : Run S)
  /-- a statement without body that runs to its end -/
  | simple (s : S)
  /-- a statement that raises before anything of its body is run -/
  | fail (s : S)
  /-- `break`, `continue` -/
  | jump (s : S)
  /-- a statement with what is run of its body, and whether it gets to its end -/
  | block (s : S) (b : Run S) (ok : Bool)
  /-- a loop that gets to the end of its first iteration: this, the others, and the `else` part -/
  | loop (s : S) (first rest els : Run S) (ok : Bool)

/-- The events of an execution. -/
def events : Run S → List (Ev S X)
  | .done => []
  | .seq a b => events a ++ events b
  | .simple s => [.before s, .after s]
  | .fail s => [.before s]
  | .jump s => [.before s]
  | .block s b ok => .before s :: (events b ++ if ok then [.after s] else [])
  | .loop s first _ els ok => .before s :: (events first ++ .iter :: (events els ++ if ok then [.after s] else []))

/-- The statements that are begun, except in later iterations. -/
def begun : Run S → List S
  | .done => []
  | .seq a b => begun a ++ begun b
  | .simple s => [s]
  | .fail s => [s]
  | .jump s => [s]
  | .block s b _ => s :: begun b
  | .loop s first _ els _ => s :: (begun first ++ begun els)

/-- The order in which statements should be dealt with: `if`, `for` and `with` when their body is entered, others when they are done; later iterations are not
considered. -/
def order (header : S → Bool) : Run S → List S
  | .done => []
  | .seq a b => order header a ++ order header b
  | .simple s => [s]
  | .fail _ => []
  | .jump _ => []
  | .block s b ok => if header s then s :: order header b else order header b ++ if ok then [s] else []
  | .loop s first _ els ok =>
    if header s then s :: (order header first ++ order header els)
    else order header first ++ order header els ++ if ok then [s] else []

/-- The statements that are completed, or whose body is entered if they are `if`, `for` or `with`, in any iteration. -/
inductive Completed (header : S → Bool) : Run S → S → Prop
  | left {a b s} : Completed header a s → Completed header (.seq a b) s
  | right {a b s} : Completed header b s → Completed header (.seq a b) s
  | simple {s} : Completed header (.simple s) s
  | block {s b} : Completed header (.block s b true) s
  | entered {s b ok} : header s = true → Completed header (.block s b ok) s
  | body {s b ok t} : Completed header b t → Completed header (.block s b ok) t
  | loop {s first rest els} : Completed header (.loop s first rest els true) s
  | looped {s first rest els ok} : header s = true → Completed header (.loop s first rest els ok) s
  | first {s first rest els ok t} : Completed header first t → Completed header (.loop s first rest els ok) t
  | rest {s first rest els ok t} : Completed header rest t → Completed header (.loop s first rest els ok) t
  | els {s first rest els ok t} : Completed header els t → Completed header (.loop s first rest els ok) t

/-- No `if`, `for` or `with` raises before its body is entered, and a body that is entered begins with a statement. -/
def Regular (header : S → Bool) : Run S → Prop
  | .done => True
  | .seq a b => Regular header a ∧ Regular header b
  | .simple s => header s = false
  | .fail s => header s = false
  | .jump s => header s = false
  | .block _ b ok => Regular header b ∧ (begun b ≠ [] ∨ ok = true)
  | .loop _ first _ els _ => Regular header first ∧ Regular header els ∧ begun first ≠ []

/-- The text of a statement assigns the variable on all paths, as far as loops and branches with both parts go. -/
inductive Found : Syn X → X → Prop
  | assign {xs x} : x ∈ xs → Found (.assign xs) x
  | left {a b x} : Found a x → Found (.seq a b) x
  | right {a b x} : Found b x → Found (.seq a b) x
  | target {t b e x} : x ∈ t → Found e x → Found (.branch t b e) x
  | both {t b e x} : Found b x → Found e x → Found (.branch t b e) x

/-- An execution of a cell: its statements, each with what is run of it, and the variables that have then a value other than the one recorded. -/
def cellEvents : List (S × Run S × List X) → List (Ev S X)
  | [] => []
  | (s, r, stale) :: l => events r ++ .endModule s stale :: cellEvents l

end Verif.Steps
