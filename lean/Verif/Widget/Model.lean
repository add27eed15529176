import Verif.Base.Assoc

/-!
# Widgets whose values are read by cells

Models `_observe_widget`, `_handle_possible_widget_creation`, `shallow_timestamp` and the parts of `update_usage_info` and `refresh` that matter for the value of a widget,
`core/ipyflow/data_model/symbol.py` 225-230, 297-302, 1157-1173, 1186-1221, 1240-1300, 1353-1372; `create_and_track` with `override`, `core/ipyflow/data_model/statement.py` 117-155;
`add_data_dep` and `add_parent_edges`, `core/ipyflow/flow.py` 427-451, `core/ipyflow/slicing/mixin.py` 293-311; `_make_slice_helper` and `make_multi_slice`,
`core/ipyflow/slicing/mixin.py` 421-452; `num_original_stmts` and `get_max_used_live_symbol_cell_counter`, `core/ipyflow/data_model/cell.py` 681-686, 704-760; the end of
`_compute_readiness`, `core/ipyflow/frontend.py` 391-401.

Programs are made of three kinds of statements (`Stmt`); widgets are bound to names at top level and have one name each. A widget tells those who observe it that its value
changed if it did, after it changed; an exception raised by an observer reaches whoever set the value (traitlets). Left out: containers of widgets, static slices, the wait of a
tenth of a second before the schedule is computed. -/

namespace Verif.Widget

/-- Names and texts as characters. -/
abbrev Name := List Char

/-- `Timestamp`, `core/ipyflow/data_model/timestamp.py` 22-59. -/
structure Time where
  cell : Nat
  stmt : Nat
  deriving DecidableEq

/-- `<=` of timestamps: they are tuples, `core/ipyflow/data_model/timestamp.py` 22-24. -/
def Time.le (a b : Time) : Bool := decide (a.cell < b.cell) || (a.cell == b.cell && decide (a.stmt ≤ b.stmt))

/-- Values of widgets and variables; `_observe_widget` gets them as `msg["new"]`, `symbol.py` 1195. -/
inductive Val where
  | num (n : Int)
  | str (s : List Char)
  deriving DecidableEq

/-- Right-hand sides: what `ast.parse` of `symbol.py` 1197-1199 makes of the text after the `=`. -/
inductive Code where
  | lit (v : Val)
  | name (n : Name)
  deriving DecidableEq

/-- Statements of cells: `w = Text(value=v)`, `w.value = c`, `y = w.value`. Those made by `_observe_widget` are of the second kind, `symbol.py` 1197-1199. -/
inductive Stmt where
  | make (w : Name) (v : Val)
  | put (w : Name) (c : Code)
  | copy (y w : Name)
  deriving DecidableEq

/-- Decimal digits, least significant first: part of `f"{newval}"`, `symbol.py` 1197. -/
def digits : Nat → Nat → List Char
  | 0, _ => []
  | fuel + 1, n => Nat.digitChar (n % 10) :: if n / 10 = 0 then [] else digits fuel (n / 10)

/-- The digits of a number as they are written: part of `f"{newval}"`, `symbol.py` 1197. -/
def written (n : Nat) : List Char := (digits (n + 1) n).reverse

/-- `f"{newval}"`, `symbol.py` 1197: `str` of the value, so a string comes without quotes. -/
def text : Val → List Char
  | .num (.ofNat n) => written n
  | .num (.negSucc n) => '-' :: written (n + 1)
  | .str s => s

/-- The number that digits, least significant first, stand for: part of `ast.parse`, `symbol.py` 1197. -/
def number : List Char → Nat
  | [] => 0
  | c :: l => (c.toNat - '0'.toNat) + 10 * number l

/-- Words that are no names in Python: part of `ast.parse`, `symbol.py` 1197. -/
def keywords : List Name :=
  ["False", "None", "True", "and", "as", "assert", "async", "await", "break", "class", "continue", "def", "del", "elif", "else", "except", "finally", "for", "from",
    "global", "if", "import", "in", "is", "lambda", "nonlocal", "not", "or", "pass", "raise", "return", "try", "while", "with", "yield"].map String.toList

/-- A name of letters, digits and underscores: part of `ast.parse`, `symbol.py` 1197. Simplified: letters are those of ASCII. -/
def isName (s : List Char) : Bool :=
  match s with
  | [] => false
  | c :: l => (c.isAlpha || c == '_') && l.all (fun d => d.isAlphanum || d == '_') && !keywords.contains (c :: l)

/-- A number without sign: digits, and no zero in front of others. Part of `ast.parse`, `symbol.py` 1197. -/
def isNumber (s : List Char) : Bool := s == written (number s.reverse)

/-- Two names with a space between them: part of `ast.parse`, `symbol.py` 1197. -/
def isTwoNames (s : List Char) : Bool :=
  isName (s.takeWhile (· != ' ')) && isName ((s.dropWhile (· != ' ')).drop 1)

/-- `ast.parse(f"{sym.readable_name} = {newval}").body[0]`, `symbol.py` 1197-1199: the right-hand side, nothing for a `SyntaxError`. What Python's grammar makes of texts other
than blanks, numbers, names and two names is left to `rest`. -/
def parse (rest : List Char → Option Code) (s : List Char) : Option Code :=
  if s.all (· == ' ') then none
  else if isNumber s then some (.lit (.num (number s.reverse)))
  else
    match s with
    | '-' :: l => if isNumber l then some (.lit (.num (-(number l.reverse : Int)))) else rest s
    | _ => if isName s then some (.name s) else if isTwoNames s then none else rest s

/-- What a name is bound to in the user's namespace, and the value that a widget shows: `self.obj`, `symbol.py` 1159, 1168. -/
inductive Bind where
  | val (v : Val)
  | wid (v : Val)
  deriving DecidableEq

/-- What is kept for the widget bound to a name: `home` is the timestamp of its symbol; of the symbol for its `value`, `time` is `_timestamp`, `over` is
`_override_timestamp` and `ready` is `_override_ready_liveness_cell_num` (nothing for -1). `symbol.py` 157-158, 1196-1204. -/
structure Part where
  home : Time
  time : Time
  over : Option Time
  ready : Option Nat
  deriving DecidableEq

/-- State: user's namespace (`env`), counter of executions, the bodies of executions (`at_timestamp`, `cell.py` 509-516), the last execution of each cell, the statement of each
timestamp (`_stmts_by_ts`, `statement.py` 49), edges from statements to their parents (`raw_dynamic_parents`, `statement.py` 71), the timestamps of the symbols of names and what
is kept for widgets. -/
structure Sys where
  env : List (Name × Bind)
  ctr : Nat
  bodies : List (Nat × List Stmt)
  last : List (Nat × Nat)
  stmts : List (Time × Stmt)
  edges : List (Time × Time)
  homes : List (Name × Time)
  parts : List (Name × Part)

/-- Before anything ran: `core/ipyflow/flow.py` 180-240. -/
def Sys.empty : Sys := ⟨[], 0, [], [], [], [], [], []⟩

/-- `add_parent_edges`, `slicing/mixin.py` 293-311: nothing is done if the would-be parent is a child already (301-302). -/
def addEdge (child parent : Time) (σ : Sys) : Sys :=
  if (parent, child) ∈ σ.edges ∨ (child, parent) ∈ σ.edges ∨ child = parent then σ else { σ with edges := σ.edges ++ [(child, parent)] }

/-- `num_original_stmts` of the cell that made the widget, `cell.py` 681-682. -/
def bodyLength (σ : Sys) (ctr : Nat) : Nat := ((Assoc.get σ.bodies ctr).getD []).length

/-- The timestamp after the last statement of the cell that made the widget: `symbol.py` 1201-1203. -/
def extraTime (σ : Sys) (p : Part) : Time := ⟨p.home.cell, bodyLength σ p.home.cell⟩

/-- `_observe_widget`, `symbol.py` 1197-1220, for a value that could be read: `create_and_track` replaces the statement of that timestamp and keeps its edges
(`statement.py` 133-145). -/
def take (w : Name) (p : Part) (c : Code) (σ : Sys) : Sys :=
  let e := extraTime σ p
  addEdge e p.time <| addEdge p.time e
    { σ with parts := Assoc.set σ.parts w { p with over := some e, ready := some (σ.ctr + 1) }, stmts := Assoc.set σ.stmts e (.put w c) }

/-- `_observe_widget`, `symbol.py` 1186-1221. The second component is whether no exception was raised. -/
def observe (rest : List Char → Option Code) (w : Name) (v : Val) (σ : Sys) : Sys × Bool :=
  match Assoc.get σ.parts w with
  | none => (σ, true)
  | some p =>
    match parse rest (text v) with
    | none => (σ, false)
    | some c => (take w p c σ, true)

/-- A widget gets a value, and `_observe_widget` (`symbol.py` 1172, 1186-1221) is called if the value is another one. -/
def assign (rest : List Char → Option Code) (w : Name) (old v : Val) (σ : Sys) : Sys × Bool :=
  if old = v then (σ, true) else observe rest w v { σ with env := Assoc.set σ.env w (.wid v) }

/-- The value of a right-hand side made by `symbol.py` 1197-1199 or written by the user. -/
def look (σ : Sys) : Code → Option Val
  | .lit v => some v
  | .name n =>
    match Assoc.get σ.env n with
    | some (.val v) => some v
    | _ => none

/-- The usage of a name on a right-hand side: `update_usage_info`, `symbol.py` 1284-1294. -/
def useName (t : Time) (σ : Sys) : Code → Sys
  | .lit _ => σ
  | .name n =>
    match Assoc.get σ.homes n with
    | none => σ
    | some u => addEdge t u σ

/-- After `w.value = c`: the statement uses `w` (`tracing/ipyflow_tracer.py` 948-956) and the symbol for the value is refreshed, `symbol.py` 1353-1355. -/
def refreshPart (w : Name) (t : Time) (σ : Sys) : Sys :=
  match Assoc.get σ.parts w with
  | none => σ
  | some p => addEdge t p.home { σ with parts := Assoc.set σ.parts w { p with time := t, over := none } }

/-- `w = Text(value=v)`: `_handle_possible_widget_creation`, `symbol.py` 1157-1173; a symbol for the value of an earlier widget of that name is taken over
(`update_obj_ref`, `symbol.py` 737-747) and refreshed. -/
def runMake (t : Time) (w : Name) (v : Val) (σ : Sys) : Sys × Bool :=
  ({ σ with
      env := Assoc.set σ.env w (.wid v)
      homes := Assoc.set σ.homes w t
      parts := Assoc.set σ.parts w ⟨t, t, none, (Assoc.get σ.parts w).bind Part.ready⟩ }, true)

/-- `w.value = c`: the observer runs within the assignment (`symbol.py` 1172, 1186-1221), then the symbol is updated. -/
def runPut (rest : List Char → Option Code) (t : Time) (w : Name) (c : Code) (σ : Sys) : Sys × Bool :=
  match look σ c, Assoc.get σ.env w with
  | some v, some (.wid old) =>
    match assign rest w old v σ with
    | (σ', true) => (useName t (refreshPart w t σ') c, true)
    | (σ', false) => (σ', false)
  | _, _ => (σ, false)

/-- The usage of the value of a widget: `update_usage_info`, `symbol.py` 1284-1294, with `_timestamp` (226-228), not the overriding one. -/
def usePart (t : Time) (w : Name) (σ : Sys) : Sys :=
  match Assoc.get σ.parts w with
  | none => σ
  | some p => addEdge t p.time σ

/-- `y = w.value`: `tracing/ipyflow_tracer.py` 958-962 and the symbol of `y`, `scope.py` 368-440. -/
def runCopy (t : Time) (y w : Name) (σ : Sys) : Sys × Bool :=
  match Assoc.get σ.env w with
  | some (.wid v) =>
    let σ := usePart t w σ
    ({ σ with env := Assoc.set σ.env y (.val v), homes := Assoc.set σ.homes y t, parts := Assoc.erase σ.parts y }, true)
  | _ => (σ, false)

/-- A statement of a cell, tracked by `create_and_track`, `statement.py` 146-148. -/
def runStmt (rest : List Char → Option Code) (t : Time) (s : Stmt) (σ : Sys) : Sys × Bool :=
  let σ := { σ with stmts := Assoc.set σ.stmts t s }
  match s with
  | .make w v => runMake t w v σ
  | .put w c => runPut rest t w c σ
  | .copy y w => runCopy t y w σ

/-- The statements of a cell one after the other until one raises: `shell/interactiveshell.py` 396-460. -/
def runBody (rest : List Char → Option Code) (ctr : Nat) : Nat → List Stmt → Sys → Sys
  | _, [], σ => σ
  | i, s :: l, σ =>
    match runStmt rest ⟨ctr, i⟩ s σ with
    | (σ', true) => runBody rest ctr (i + 1) l σ'
    | (σ', false) => σ'

/-- A cell runs, or the user moves a widget. -/
inductive Event where
  | run (k : Nat) (body : List Stmt)
  | move (w : Name) (v : Val)

/-- One event. An exception raised by `_observe_widget` (`symbol.py` 1197) when the user moves a widget is logged. -/
def step (rest : List Char → Option Code) (σ : Sys) : Event → Sys
  | .run k body =>
    runBody rest (σ.ctr + 1) 0 body
      { σ with ctr := σ.ctr + 1, bodies := Assoc.set σ.bodies (σ.ctr + 1) body, last := Assoc.set σ.last k (σ.ctr + 1) }
  | .move w v =>
    match Assoc.get σ.env w with
    | some (.wid old) => (assign rest w old v σ).1
    | _ => σ

/-- After a history, newest event first. `flow.py` 180-240 is where it starts. -/
def after (rest : List Char → Option Code) : List Event → Sys
  | [] => .empty
  | e :: h => step rest (after rest h) e

/-- The widgets whose values the code reads before it makes or sets them: the live symbols of `cell.py` 727-735, for values of widgets. -/
def live : List Stmt → List Name
  | [] => []
  | .make w _ :: l => (live l).filter (· ≠ w)
  | .put w _ :: l => (live l).filter (· ≠ w)
  | .copy y w :: l => w :: (live l).filter (· ≠ y)

/-- `max(live_sym_updated_cell_ctr, _override_ready_liveness_cell_num)`, `cell.py` 741-760, with `timestamp`, `symbol.py` 297-302. -/
def newest (p : Part) : Nat := max (max p.time.cell ((p.over.map Time.cell).getD 0)) (p.ready.getD 0)

/-- `_compute_readiness`, `frontend.py` 391-401: whether the cell is reported to be run again because of widgets it reads. -/
def ready (σ : Sys) (k : Nat) : Bool :=
  match Assoc.get σ.last k with
  | none => false
  | some c =>
    (live ((Assoc.get σ.bodies c).getD [])).any fun w =>
      match Assoc.get σ.parts w with
      | none => false
      | some p => decide (c < newest p)

/-- `raw_parents`, `slicing/mixin.py` 360-365. -/
def parents (edges : List (Time × Time)) (t : Time) : List Time := (edges.filter fun e => e.1 = t).map Prod.snd

/-- `_make_slice_helper`, `slicing/mixin.py` 421-432. Simplified: the walk is with a list of timestamps yet to come; parents that came later are statements of `_observe_widget`,
which are taken as they are (429-430). -/
def closure (edges : List (Time × Time)) : Nat → List Time → List Time → List Time
  | 0, _, done => done
  | _, [], done => done
  | fuel + 1, t :: todo, done => if t ∈ done then closure edges fuel todo done else closure edges fuel (parents edges t ++ todo) (done ++ [t])

/-- `sorted(closure, key=...)`, `slicing/mixin.py` 452: one element. -/
def place (t : Time) : List Time → List Time
  | [] => [t]
  | u :: l => if t.le u then t :: u :: l else u :: place t l

/-- `make_multi_slice`, `slicing/mixin.py` 437-452, of the statement that the symbol of `y` is from: the code for `y`. -/
def code (σ : Sys) (y : Name) : List Stmt :=
  match Assoc.get σ.homes y with
  | none => []
  | some t => ((closure σ.edges (σ.edges.length + 4) [t] []).foldr place []).filterMap (Assoc.get σ.stmts)

end Verif.Widget
