import Verif.Base.Dfs

/-!
# The stack of calls of the tracer

Models what `core/ipyflow/tracing/ipyflow_tracer.py` does with `call_stack`: `handle_call`, 1727-1769, `_handle_call_transition`, 333-355, `_handle_return_transition`,
400-483, `after_loop_iter`, 860-865, `_tracked_enable_tracing` and `_tracked_disable_tracing`, 385-398, `_call_stack_length_for_reenabling_tracing`, 1607-1634,
`_try_reenable_tracing`, 1636-1663, and the calls of it in `before_stmt`, 1602-1606, `after_stmt`, 1504-1509, and `after_call`, 1267-1270.

Left out: generators and coroutines; frames that are not of a notebook are never traced (pyccolo filters them by file); of the state that belongs to a frame only
the frame itself, its depth and the call it is waiting for are kept; results go to the call and not to one of its arguments (440-466). `pyccolo`'s
`TraceStack.get_field(…, depth=d)` is taken to be the entry `-d` of the list of saved states, as its uses in 1621-1630 require. -/

namespace Verif.Frames

/-- State that belongs to a frame, 203-224. `G` are frames, `N` are calls in the text. -/
structure Entry (G N : Type) where
  frame : G
  /-- `user_call_depth` -/
  depth : Nat
  /-- `prev_node_id_in_cur_frame_lexical`: the call that is evaluated -/
  site : Option N
  deriving DecidableEq

/-- State of the tracer. `F` are statements that define functions, `R` are `return` statements, `D` are symbols. -/
structure St (G F N R D : Type) where
  /-- `is_tracing_enabled` -/
  enabled : Bool
  /-- `tracing_disabled_user_call_depth` -/
  disabledAt : Nat
  cur : Entry G N
  /-- `call_stack`, the last pushed first -/
  stack : List (Entry G N)
  /-- `node_id_for_last_call` -/
  last : List (F × N)
  /-- the statements with `lambda_call_point_deps_done_once` -/
  done : List R
  /-- `node_id_to_loaded_symbols`, as far as returns go -/
  loaded : List (N × D)

variable {G F N R D : Type} [DecidableEq F] [DecidableEq N] [DecidableEq R]

/-- `_tracked_disable_tracing`, 389-398, with the depth of the frame. -/
def disable (depth : Nat) (st : St G F N R D) : St G F N R D :=
  { st with
    enabled := false
    disabledAt := if st.enabled then depth else st.disabledAt }

/-- Has the function been called last from this call? 1759-1760. -/
def again (f : F) (n : N) (st : St G F N R D) : Bool := st.last.lookup f == some n

/-- `_handle_call_transition`, 346-355: push and set the state of the new frame. -/
def push (g : G) (depth : Nat) (n : N) (st : St G F N R D) : St G F N R D :=
  { st with
    stack := { st.cur with site := some n } :: st.stack
    cur := { frame := g, depth := max depth 1, site := none } }

/-- `handle_call`, 1727-1769, and `_handle_call_transition`: a function is called from the call `n`; `deep` if too many frames of libraries lie in between
(334-339). -/
def call (g : G) (f : F) (n : N) (depth : Nat) (deep : Bool) (st : St G F N R D) : St G F N R D :=
  if st.enabled then
    if again f n st then disable depth st
    else
      let st := { st with last := (f, n) :: st.last }
      if deep then disable depth st else push g depth n st
  else st

/-- `_handle_return_transition`, 420-470: what the `return` statement read is recorded for the call, once. -/
def result (ret : Option (R × List D)) (n : Option N) (st : St G F N R D) : St G F N R D :=
  match ret, n with
  | some (r, ds), some n =>
    if r ∈ st.done then st
    else { st with
      done := r :: st.done
      loaded := st.loaded ++ ds.map fun d => (n, d) }
  | _, _ => st

/-- `_handle_return_transition`, 400-483: a frame is left; `ret` is none if it is left by an exception or without `return`. -/
def leave (depth : Nat) (ret : Option (R × List D)) (st : St G F N R D) : St G F N R D :=
  if st.enabled then
    match st.stack with
    | [] => disable depth st
    | e :: rest => { result ret e.site st with
        cur := { e with site := none }
        stack := rest }
  else st

/-- `call_stack.pop()` until the stack has a given length, 1650-1651. -/
def popTo (len : Nat) : Entry G N → List (Entry G N) → Entry G N × List (Entry G N)
  | cur, [] => (cur, [])
  | cur, e :: rest => if rest.length + 1 > len then popTo len { e with site := none } rest else (cur, e :: rest)

/-- `_call_stack_length_for_reenabling_tracing`, 1607-1634. `fin` says if the statement that is run in the first frame is finished. -/
def lengthFor (depth : Nat) (fin : Bool) (st : St G F N R D) : Option Nat :=
  if depth > st.disabledAt then none
  else if fin then none
  else match (st.stack.reverse.map Entry.depth).findIdx? (fun d => decide (depth ≤ d)) with
    | some len => some len
    | none => if depth ≤ st.cur.depth then some st.stack.length else none

/-- `_try_reenable_tracing`, 1636-1663. -/
def reenable (depth : Nat) (fin initial : Bool) (st : St G F N R D) : St G F N R D :=
  match lengthFor depth fin st, initial with
  | none, false => st
  | none, true =>
    let p := popTo 0 st.cur st.stack
    { st with
      cur := p.1
      stack := p.2
      enabled := true }
  | some len, _ =>
    let p := popTo len st.cur st.stack
    { st with
      cur := p.1
      stack := p.2
      enabled := true }

/-- `before_stmt`, `after_stmt` and `after_call`: tracing is resumed if it was off. -/
def event (depth : Nat) (fin initial : Bool) (st : St G F N R D) : St G F N R D :=
  if st.enabled then st else reenable depth fin initial st

end Verif.Frames
