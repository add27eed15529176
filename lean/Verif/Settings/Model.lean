/-!
# Settings changed by `%flow` commands

Models the part of `core/ipyflow/line_magics.py` that changes `mut_settings` (`core/ipyflow/config.py` 84-106):
`_flow_magic` and `_handle` (81-192), `toggle_dataflow` (195-208), `trace_messages` (279-291), `set_highlights`
(294-310), `set_exec_mode` (399-419), `set_exec_schedule` (422-433), `set_flow_direction` (436-448), `set_reactivity`
(451-470); `EnumWithDefault` (`config.py` 9-12); `toggle_reactivity` (`flow.py` 530-537).

Strings are lists of characters. Simplifications: `lower` is the ASCII one; white space is blank, tab, newline,
carriage return, vertical tab, form feed; commands which change no setting are one case; effects besides settings
(warnings, messages to the client, ready flags) are left out. -/

namespace Verif.Settings

/-- Python strings. -/
abbrev Str := List Char

/-- A literal. -/
def lit (s : String) : Str := s.toList

/-- White space for `strip` and `split`. -/
def isSpace (c : Char) : Bool := c = ' ' || c = '\t' || c = '\n' || c = '\r' || c = '\x0b' || c = '\x0c'

/-- `s.strip()`. -/
def strip (s : Str) : Str := ((s.dropWhile isSpace).reverse.dropWhile isSpace).reverse

/-- `s.lower()`. -/
def lower (s : Str) : Str := s.map Char.toLower

/-- `s.startswith(p)`. -/
def starts (p : String) (s : Str) : Bool := (lit p).isPrefixOf s

/-- `s.endswith(p)`. -/
def ends (p : String) (s : Str) : Bool := (lit p).reverse.isPrefixOf s.reverse

/-- `s.split(c, 1)` with the `ValueError` of unpacking as `none`. -/
def splitOnce (c : Char) (s : Str) : Option (Str × Str) :=
  match s.dropWhile (· ≠ c) with
  | [] => none
  | _ :: rest => some (s.takeWhile (· ≠ c), rest)

/-- `s.replace("-", "_")`. -/
def dashes (s : Str) : Str := s.map fun c => if c = '-' then '_' else c

/-- `ExecutionMode`, `config.py` 15-17. -/
inductive Mode where
  | lazy
  | reactive
  deriving DecidableEq, Repr

/-- `ExecutionSchedule`, `config.py` 20-23. -/
inductive Schedule where
  | liveness
  | dag
  | hybrid
  deriving DecidableEq, Repr

/-- `FlowDirection`, `config.py` 26-28. -/
inductive Order where
  | any
  | inOrder
  deriving DecidableEq, Repr

/-- `Highlights`, `config.py` 31-35. -/
inductive Hl where
  | all
  | none
  | executed
  | reactive
  deriving DecidableEq, Repr

/-- `ReactivityMode`, `config.py` 38-40. -/
inductive Reactivity where
  | batch
  | incremental
  deriving DecidableEq, Repr

/-- The settings which commands change, `config.py` 85-106. -/
structure S where
  dataflow : Bool
  trace : Bool
  highlights : Hl
  mode : Mode
  schedule : Schedule
  order : Order
  reactivity : Reactivity
  warnOoo : Bool
  lintOoo : Bool
  syntaxOn : Bool
  syntaxOnly : Bool
  deriving DecidableEq, Repr

/-- `ExecutionMode(value)`, `config.py` 15-17, with the default of `_missing_` (9-12) for any other value; no
`ValueError` is ever raised. -/
def modeOf (v : Str) : Mode := if v = lit "lazy" then .lazy else .reactive

/-- `set_exec_mode`, `line_magics.py` 399-419. -/
def setMode (line : Str) (s : S) : S :=
  let line := strip line
  let line := if line = lit "normal" then lit "lazy" else line
  { s with mode := modeOf (strip line) }

/-- `set_exec_schedule`, `line_magics.py` 422-433. -/
def setSchedule (line : Str) (s : S) : S :=
  if starts "liveness" line then { s with schedule := .liveness }
  else if starts "dag" line then { s with schedule := .dag }
  else if starts "hybrid" line then { s with schedule := .hybrid }
  else s

/-- `set_flow_direction`, `line_magics.py` 436-448. -/
def setOrder (line : Str) (s : S) : S :=
  let line := strip (lower line)
  if starts "any" line || line = lit "unordered" || line = lit "both" then { s with order := .any }
  else if starts "in" line || line = lit "ordered" || line = lit "linear" then { s with order := .inOrder }
  else s

/-- `set_reactivity`, `line_magics.py` 451-470. -/
def setReactivity (line : Str) (s : S) : S :=
  let line := strip (lower line)
  if line = lit "batch" then { s with reactivity := .batch }
  else if line = lit "incremental" then
    let s := if s.schedule = .liveness ∨ s.schedule = .hybrid then s else { s with schedule := .hybrid }
    { s with reactivity := .incremental }
  else s

/-- `toggle_dataflow`, `line_magics.py` 195-208. -/
def toggleDataflow (line : Str) (s : S) : S :=
  let line := strip line
  if line = lit "enable" ∨ line = lit "on" then
    { s with
      dataflow := true
      syntaxOnly := false }
  else if line = lit "disable" ∨ line = lit "off" then { s with dataflow := false }
  else s

/-- `trace_messages`, `line_magics.py` 279-291; `line.split()` with a single part is the stripped line without inner
white space. -/
def traceMessages (line : Str) (s : S) : S :=
  let w := strip line
  if w = [] ∨ w.any isSpace then s
  else
    let w := lower w
    if w = lit "on" || starts "enable" w then { s with trace := true }
    else if w = lit "off" || starts "disable" w then { s with trace := false }
    else s

/-- `set_highlights`, `line_magics.py` 294-310. -/
def setHighlights (cmd rest : Str) (s : S) : S :=
  let rest := strip (lower rest)
  if cmd = lit "nohls" then { s with highlights := .none }
  else if rest = [] || rest = lit "on" || starts "enable" rest then { s with highlights := .executed }
  else if rest = lit "off" || starts "disable" rest then { s with highlights := .none }
  else if rest = lit "all" then { s with highlights := .all }
  else if rest = lit "none" then { s with highlights := .none }
  else if rest = lit "executed" then { s with highlights := .executed }
  else if rest = lit "reactive" then { s with highlights := .reactive }
  else s

/-- `toggle_reactivity`, `flow.py` 530-537. -/
def toggleReactivity (s : S) : S :=
  match s.mode with
  | .lazy => { s with mode := .reactive }
  | .reactive => { s with mode := .lazy }

/-- `_handle`, `line_magics.py` 86-157: the commands that change settings; all others change none. -/
def handle (cmd line : Str) (s : S) : S :=
  let cmd := dashes cmd
  let is (l : List String) : Bool := l.any fun x => lit x = cmd
  if is ["enable", "disable", "on", "off"] then toggleDataflow cmd s
  else if is ["deps", "show_deps", "show_dependency", "show_dependencies", "code", "get_code", "waiting",
    "show_waiting"] then s
  else if is ["trace_messages"] then traceMessages line s
  else if is ["hls", "nohls", "highlight", "highlights"] then setHighlights cmd line s
  else if is ["dag", "make_dag", "cell_dag", "make_cell_dag", "slice", "make_slice", "gather_slice", "tag",
    "show_tags"] then s
  else if is ["mode", "exec_mode"] then setMode line s
  else if is ["schedule", "exec_schedule", "execution_schedule"] then setSchedule line s
  else if is ["direction", "flow_direction", "order", "flow_order", "semantics", "flow_semantics"] then setOrder line s
  else if is ["reactivity"] then setReactivity line s
  else if is ["register", "register_tracer", "deregister", "deregister_tracer", "clear"] then s
  else if ends "warn_ooo" cmd then { s with warnOoo := !starts "no" cmd }
  else if ends "lint_ooo" cmd then { s with lintOoo := !starts "no" cmd }
  else if is ["syntax_transforms"] then
    let on := ends "enabled" line || ends "on" line
    let off := ends "disabled" line || ends "off" line
    if on || off then { s with syntaxOn := on } else s
  else if is ["syntax_transforms_only"] then { s with syntaxOnly := true }
  else if is ["toggle_reactivity"] then toggleReactivity s
  else s

/-- `_flow_magic`, `line_magics.py` 159-181 (without the output). -/
def flowMagic (line : Str) (s : S) : S :=
  let (cmd, line) := (splitOnce ' ' line).getD (line, [])
  let line := match splitOnce '>' line with
    | some (l, _) => l
    | none => line
  handle cmd (strip line) s

end Verif.Settings
