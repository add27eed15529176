import Mathlib.Tactic.Basic

/-!
# Recording the output of cells

Models `core/ipyflow/tracing/output_recorder.py` 15-214 and the parts of `shell/interactiveshell.py` that begin and end the recording
(246-275, 330-362, 410-413, 646-673).

The three sinks are standard output, standard error and the display publisher. What arrives is in `files` and `front`.
`StringIO`s and the lists of captured displays are `kept`, one for every time a recording began. Text and displays are numbers.

Taken from pyccolo and IPython, which are not part of the repository: `tracer.reset()` runs `__init__` of the tracer again; `init_module` is
raised when the instrumented code of a cell begins, so not if the cell has a syntax error. -/

namespace Verif.Output

/-- Standard output, standard error, displays. -/
inductive Sink where
  | out | err | disp
deriving DecidableEq

/-- What `sys.stdout` or `sys.stderr` is: a stream of the outside world or of the user, or a `StdstreamProxy`. All proxies for one of
the two work the same, as they share the one `CaptureOutputTee`. -/
inductive Tgt where
  | file (n : Nat)
  | proxy
deriving DecidableEq

/-- A display publisher: that of the shell, or a `TeeDisplayPublisher` of one and of the capturing publisher number `c`,
`output_recorder.py` 51-74. -/
inductive Pub where
  | orig
  | tee (p : Pub) (c : Nat)
deriving DecidableEq

/-- What reaches the front end: a display, or an order to clear. -/
inductive Msg where
  | data (d : Nat)
  | clear
deriving DecidableEq

/-- The state: `sys.stdout` and `sys.stderr`; `sys_stdout` and `sys_stderr` of the one `CaptureOutputTee`, 135-136; its
`tee_sys_stdout`/`tee_sys_stderr` (set and unset together, always on top of `sys_stdout`/`sys_stderr`), `save_display_pub`, `_in_context`,
137-140; `shell.display_pub`; `capture_output` and `capturing_output` of the recorder, 195-198; the next number; what was recorded; what
arrived in the streams and at the front end; writes that ended in a `RecursionError`. File 0 is the real standard output, file 1 the real
standard error. -/
structure St where
  sysOut : Tgt := .file 0
  sysErr : Tgt := .file 1
  baseOut : Tgt := .file 0
  baseErr : Tgt := .file 1
  teed : Option Nat := none
  pub : Pub := .orig
  saved : Option Pub := none
  inContext : Bool := false
  cur : Option Nat := none
  capturing : Bool := false
  next : Nat := 0
  kept : Nat → Sink → List Nat := fun _ _ => []
  files : Nat → List Nat := fun _ => []
  front : List Msg := []
  overflows : List (Bool × Nat) := []

/-- Appending to the record of capture `c`. -/
def St.record (s : St) (c : Nat) (k : Sink) (d : Nat) : St :=
  { s with kept := fun c' k' => if c' = c ∧ k' = k then s.kept c' k' ++ [d] else s.kept c' k' }

/-- A stream receives data. -/
def St.emit (s : St) (n d : Nat) : St :=
  { s with files := fun n' => if n' = n then s.files n' ++ [d] else s.files n' }

/-- Standard error or standard output. -/
def std : Bool → Sink
  | true => .err
  | false => .out

/-- `sys.stderr` or `sys.stdout`. -/
def St.sys (s : St) : Bool → Tgt
  | true => s.sysErr
  | false => s.sysOut

/-- `sys_stderr` or `sys_stdout` of the `CaptureOutputTee`. -/
def St.base (s : St) : Bool → Tgt
  | true => s.baseErr
  | false => s.baseOut

/-- `write` on `sys.stderr`/`sys.stdout`: directly, or by `StdstreamProxy._stream` and `__getattr__`, 103-112, and `Tee.write`, 26-28. `main`:
on the main thread. `ok`: the stream accepts the data; if it does not, it raises, and the exception leaves `Tee.write` before anything
is recorded. If what the proxy passes the data on to is a proxy, that calls itself without end. -/
def write (s : St) (main : Bool) (b : Bool) (d : Nat) (ok : Bool) : St :=
  match s.sys b with
  | .file n => if ok then s.emit n d else s
  | .proxy =>
    match s.base b with
    | .proxy => { s with overflows := s.overflows ++ [(b, d)] }
    | .file n =>
      if !ok then s else
        match main, s.teed with
        | true, some c => (s.emit n d).record c (std b) d
        | _, _ => s.emit n d

/-- `TeeDisplayPublisher.publish`, 62-64; `CapturingDisplayPublisher.publish` appends. -/
def publish (s : St) (d : Nat) (ok : Bool) : Pub → St
  | .orig => if ok then { s with front := s.front ++ [.data d] } else s
  | .tee p c => if ok then (publish s d ok p).record c .disp d else publish s d ok p

/-- `TeeDisplayPublisher.clear_output`, 66-68, and `TeeCompatibleCapturingDisplayPublisher.clear_output`, 78-79. -/
def clearOutput (s : St) : Pub → St
  | .orig => { s with front := s.front ++ [.clear] }
  | .tee p c =>
    let s1 := clearOutput s p
    { s1 with kept := fun c' k' => if c' = c ∧ k' = .disp then [] else s1.kept c' k' }

/-- `CaptureOutputTee.__enter__`, 142-175, in a shell, recording everything (the defaults, 130). -/
def enter (s : St) : St :=
  { s with
    teed := some s.next
    saved := some s.pub
    pub := .tee s.pub s.next
    inContext := true
    next := s.next + 1 }

/-- `CaptureOutputTee.__exit__`, 177-188. `saved` is set whenever `inContext` is. -/
def exit (s : St) : St :=
  if !s.inContext then s else
    { s with
      inContext := false
      teed := none
      pub := s.saved.getD s.pub }

/-- `OutputRecorder.init_module`, 200-206: only `sys.stdout` is looked at. -/
def proxies (s : St) : St :=
  if s.sysOut = .proxy then s else
    { s with
      baseOut := s.sysOut
      baseErr := s.sysErr
      sysOut := .proxy
      sysErr := .proxy }

/-- `OutputRecorder.init_module`, 200-208. -/
def initModule (s : St) : St :=
  let s1 := proxies s
  { enter s1 with
    capturing := true
    cur := some s1.next }

/-- `OutputRecorder.done_capturing_output`, 210-214. -/
def done (s : St) : St := if !s.capturing then s else exit { s with capturing := false }

/-- `tracer.reset()` for the recorder, `interactiveshell.py` 275: `__init__`, `output_recorder.py` 195-198. -/
def reset (s : St) : St := { s with cur := none, capturing := false }

/-- What a program does to the outputs. -/
inductive Out where
  /-- `print` and the like -/
  | write (main : Bool) (err : Bool) (d : Nat) (ok : Bool)
  /-- `display` -/
  | publish (d : Nat) (ok : Bool)
  | clear
  /-- `sys.stdout = ...`, `sys.stderr = ...`, also by `contextlib.redirect_stdout` and the like: a stream, or a proxy that was there before -/
  | assign (err : Bool) (t : Tgt)
deriving DecidableEq

/-- One action of a program. -/
def act (s : St) : Out → St
  | .write main b d ok => write s main b d ok
  | .publish d ok => publish s d ok s.pub
  | .clear => clearOutput s s.pub
  | .assign true t => { s with sysErr := t }
  | .assign false t => { s with sysOut := t }

/-- How a cell is run, `interactiveshell.py` 410-413 and 246-275: with the recorder, which begins to record unless there is a syntax error;
without it, because of `%%capture`, `syntax_transforms_only` or because it was deregistered; with dataflow turned off. -/
inductive Kind where
  | traced | syntaxError | unrecorded | untraced
deriving DecidableEq

/-- What happens, in order: output; a run begins, up to `init_module`; a run ends, `done_capturing_output` in the `finally` of
`run_cell`, 355-362. Runs may be nested: a cell may run another. -/
inductive Ev where
  | out (o : Out)
  | start (k : Kind)
  | finish
deriving DecidableEq

/-- The beginning of a run, up to the user's code. -/
def start (s : St) : Kind → St
  | .traced => initModule (reset s)
  | .syntaxError => reset s
  | .unrecorded => s
  | .untraced => s

/-- One event. -/
def ev (s : St) : Ev → St
  | .out o => act s o
  | .start k => start s k
  | .finish => done s

/-- A sequence of events. -/
def evs (s : St) (l : List Ev) : St := l.foldl ev s

/-- `_handle_output`, `interactiveshell.py` 672-673, called by `after_run_cell` 676, which `_ipyflow_run_cell` 447-448 calls if the cell was
traced: what `captured_output` of the cell is afterwards, from what it was. The cell has not been given an output before, as it is new
in every run, unless a memoised result was shown. -/
def captured (s : St) (k : Kind) (before : Option Nat) : Option Nat :=
  match k with
  | .untraced => before
  | _ =>
    match before with
    | some c => some c
    | none => s.cur

end Verif.Output
