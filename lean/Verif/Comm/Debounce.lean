/-!
# Delayed recomputation: `debounce`, and its use for schedule requests

Models `debounce` (`core/ipyflow/utils/misc_utils.py` 26-47), `threading.Timer` of the Python standard library as far
as `debounce` uses it (`run` waits for the interval unless cancelled, then calls the function, then sets `finished`;
`cancel` sets `finished`), and the only use in the code base, `_debounced_exec_schedule`
(`core/ipyflow/data_model/symbol.py` 64-83) with `Symbol.debounced_exec_schedule` (1223-1227).

Threads are modelled by interleaving of events: a call of the main thread, the timer thread passing the wait and
starting the function, the function ending, and so on. Simplification: each event is atomic; in particular the four
lines of `debounced` are one event, as are the `finally` clause of the function and the setting of `finished` which
follows it. -/

namespace Verif.Debounce

/-- Settings of `exec_schedule` (`core/ipyflow/config.py`, `ExecutionSchedule`) that matter in `symbol.py` 70-71. -/
inductive Sched where
  | liveness
  | dag
  | hybrid
  deriving DecidableEq, Repr

/-- Phase of a `threading.Timer`: waiting until its deadline; running the function, which has saved the setting
`saved` (`symbol.py` 68); ended normally, so that `finished` is set; ended by an exception of the function, so that
`finished` is never set. (A cancelled timer that is still waiting does nothing any more and is dropped.) -/
inductive Phase where
  | waiting (deadline : Nat)
  | running (saved : Sched)
  | finished
  | died
  deriving DecidableEq, Repr

/-- State. `cur`: the timer `debounced.t` with its arguments, if the attribute exists; `orphans`: the saved settings
of runs whose timer has been replaced while they were running; `toSet`: the main thread has got `True` and is about
to set the pending flag (`symbol.py` 1224-1227); `pending`: `comm_manager.debounced_exec_schedule_pending`; `setting`:
`mut_settings.exec_schedule`; `log`: the arguments of the executions started so far; `flags`: the results of the calls
so far. -/
structure St (A : Type) where
  cur : Option (A × Phase) := none
  orphans : List Sched := []
  toSet : Bool := false
  pending : Bool := false
  setting : Sched
  log : List A := []
  flags : List Bool := []
  deriving DecidableEq, Repr

/-- Events: the main thread calls the debounced function; the timer thread finds its interval elapsed, is not
cancelled, and starts the function; the function of the current timer ends (`ok = false`: by an exception); a run
whose timer has been replaced ends; the main thread sets the pending flag; the user changes the setting. -/
inductive Ev (A : Type) where
  | call (a : A)
  | fire
  | exit (ok : Bool)
  | exitOrphan (i : Nat)
  | setPending
  | userSet (x : Sched)
  deriving DecidableEq, Repr

variable {A : Type}

/-- `debounced.t.finished.is_set()`, with `True` for the `AttributeError` of a missing attribute
(`misc_utils.py` 36-40). -/
def isNew : Option (A × Phase) → Bool
  | none => true
  | some (_, .finished) => true
  | some _ => false

/-- What replacing the timer leaves behind (`cancel` stops a waiting timer, not a running function). -/
def leftover : Option (A × Phase) → List Sched
  | some (_, .running x) => [x]
  | _ => []

/-- `symbol.py` 70-71. -/
def enter (x : Sched) : Sched := if x = .dag then .hybrid else x

/-- One event at time `t`; `none` if it cannot happen. -/
def step (wait : Nat) (s : St A) (t : Nat) : Ev A → Option (St A)
  -- `misc_utils.py` 35-43; `symbol.py` 1223-1226
  | .call a =>
    if s.toSet then none  -- the main thread first finishes `symbol.py` 1227
    else some { s with
      cur := some (a, .waiting (t + wait))
      orphans := s.orphans ++ leftover s.cur
      toSet := isNew s.cur
      flags := s.flags ++ [isNew s.cur] }
  -- `Timer.run`, `symbol.py` 65-71
  | .fire =>
    match s.cur with
    | some (a, .waiting d) =>
      if d ≤ t then some { s with
        cur := some (a, .running s.setting)
        setting := enter s.setting
        log := s.log ++ [a] }
      else none
    | _ => none
  -- `symbol.py` 81-83 and the end of `Timer.run`
  | .exit ok =>
    match s.cur with
    | some (a, .running x) => some { s with
        cur := some (a, if ok then .finished else .died)
        setting := x
        pending := false }
    | _ => none
  | .exitOrphan i =>
    match s.orphans[i]? with
    | some x => some { s with
        orphans := s.orphans.eraseIdx i
        setting := x
        pending := false }
    | none => none
  -- `symbol.py` 1227
  | .setPending =>
    if s.toSet then some { s with
        toSet := false
        pending := true }
    else none
  -- assignment to `mut_settings.exec_schedule` (`line_magics.py` 422-433)
  | .userSet x => if s.toSet then none else some { s with setting := x }

/-- A sequence of events with their times. -/
abbrev Trace (A : Type) := List (Nat × Ev A)

/-- The state after a sequence of events; `none` if it cannot happen. -/
def run (wait : Nat) : St A → Trace A → Option (St A)
  | s, [] => some s
  | s, (t, e) :: l =>
    match step wait s t e with
    | none => none
    | some s' => run wait s' l

end Verif.Debounce
