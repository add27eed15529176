import Verif.Base.Assoc
import Verif.Slice.Model

/-!
# The code of older versions of a variable

Models which statements `code(x, version=k)` is made of: the times that `refresh` and `_take_timestamp_snapshots` note for variables and for the
parts of dictionaries, and what `_compute_namespace_timestamps` and `_get_timestamps_for_version` make of them
(`core/ipyflow/data_model/symbol.py` 316-372, 1060-1080, 1327-1360), together with the links between statements on which the slice is based
(`symbol.py` 1240-1309, `tracing/ipyflow_tracer.py` 316-318, 930-963, `tracing/symbol_resolver.py` 57-79, 155-163).

A notebook is a list of statements, each in a cell of its own that is run once. Values are numbers and dictionaries of numbers. -/

namespace Verif.Versions
open Verif

/-- What is added up in an expression: `y` or `y[k]`. Part of the language that is traced, `tracing/symbol_resolver.py` 77-79, 155-163. -/
inductive Operand where
  | name (y : Nat)
  | elt (y k : Nat)
  deriving DecidableEq, Repr

/-- A statement; the assignments of `data_model/statement.py` 400-440 that are modelled. -/
inductive Stmt where
  /-- `x = a + b + … + c` -/
  | num (x : Nat) (ops : List Operand) (c : Int)
  /-- `x = {k: a + b + … + c, …}` -/
  | dict (x : Nat) (items : List (Nat × List Operand × Int))
  /-- `x[k] = a + b + … + c` -/
  | put (x k : Nat) (ops : List Operand) (c : Int)
  /-- `y = x`, where `y` is a new name -/
  | same (y x : Nat)
  deriving DecidableEq, Repr

/-! ### Python -/

/-- A value: a number or a reference to the dictionary made by statement `o` (`Symbol.obj`, `data_model/symbol.py` 233-240). -/
inductive Val where
  | num (n : Int)
  | ref (o : Nat)
  deriving DecidableEq, Repr

/-- Variables and dictionaries: the user namespace, `data_model/symbol.py` 1405. -/
structure Py where
  env : List (Nat × Val)
  heap : List (Nat × List (Nat × Int))
  deriving DecidableEq, Repr

/-- The value of an operand; `none` if Python raises. The expressions of `tracing/symbol_resolver.py` 77-79, 155-163. -/
def evalOp (p : Py) : Operand → Option Int
  | .name y => match Assoc.get p.env y with
    | some (.num n) => some n
    | _ => none
  | .elt y k => match Assoc.get p.env y with
    | some (.ref o) => (Assoc.get p.heap o).bind fun d => Assoc.get d k
    | _ => none

/-- The value of a sum. The expressions of `tracing/symbol_resolver.py` 77-79, 155-163. -/
def evalSum (p : Py) : List Operand → Int → Option Int
  | [], c => some c
  | o :: os, c => (evalOp p o).bind fun a => (evalSum p os c).bind fun b => some (a + b)

/-- The dictionary made by a literal (`tracing/ipyflow_tracer.py` 1307-1360 sees it when it is complete). -/
def evalItems (p : Py) : List (Nat × Int) → List (Nat × List Operand × Int) → Option (List (Nat × Int))
  | d, [] => some d
  | d, (k, ops, c) :: r => (evalSum p ops c).bind fun n => evalItems p (Assoc.set d k n) r

/-- Statement number `t` is run. `none`: it raises, or it gives a second name that was bound before, which is not modelled (the condition on
`new_dep.parents` in `data_model/symbol.py` 1043-1046 is then not met in general). -/
def exec (t : Nat) (s : Stmt) (p : Py) : Option Py :=
  match s with
  | .num x ops c => (evalSum p ops c).bind fun n => some { p with env := Assoc.set p.env x (.num n) }
  | .dict x items => (evalItems p [] items).bind fun d => some ⟨Assoc.set p.env x (.ref t), Assoc.set p.heap t d⟩
  | .put x k ops c => (evalSum p ops c).bind fun n =>
    match Assoc.get p.env x with
    | some (.ref o) => (Assoc.get p.heap o).bind fun d => some { p with heap := Assoc.set p.heap o (Assoc.set d k n) }
    | _ => none
  | .same y x => (Assoc.get p.env x).bind fun v =>
    if (Assoc.get p.env y).isSome then none else some { p with env := Assoc.set p.env y v }

/-- Python's `l[v]`; `none` is the `IndexError` (`data_model/symbol.py` 357). -/
def pyIndex {α : Type} (l : List α) (v : Int) : Option α :=
  if 0 ≤ v then l[v.toNat]? else if -v ≤ l.length then l[(l.length + v).toNat]? else none

/-! ### What is noted -/

/-- A variable, `data_model/symbol.py` 140-175: `_timestamp`, `defined_cell_num` and `_snapshot_timestamps`, where `none` is the uninitialised
timestamp. Times are numbers of statements. -/
structure Tracked where
  ts : Nat
  defined : Nat
  snaps : List (Option Nat)
  deriving DecidableEq, Repr

/-- An element of a dictionary, or the symbol that stands for changes of the whole (`data_model/symbol.py` 104, 1077-1079). -/
structure Part where
  ts : Nat
  snaps : List Nat
  deriving DecidableEq, Repr

/-- The namespace of a dictionary (`data_model/namespace.py` 30-60). Key `none` is the symbol that stands for changes of the whole. -/
structure Ns where
  parts : List (Option Nat × Part)
  /-- `max_descendent_timestamp` -/
  desc : Nat
  deriving DecidableEq, Repr

/-- The notebook after some statements: `flow.py` 100-160, `data_model/statement.py` 45-60, `slicing/mixin.py` 40-60. -/
structure State where
  py : Py
  time : Nat
  syms : List (Nat × Tracked)
  nss : List (Nat × Ns)
  /-- the statements that a statement was linked to when it ran -/
  edges : Nat → List Nat
  text : Nat → Option Stmt

/-- Nothing has been run. `flow.py` 100-160. -/
def State.init : State := ⟨⟨[], []⟩, 0, [], [], fun _ => [], fun _ => none⟩

/-- The times of the parts of what `x` refers to: `get_namespace_symbols`, `data_model/symbol.py` 1312-1325. -/
def partTimes (σ : State) (x : Nat) : List Nat :=
  match Assoc.get σ.py.env x with
  | some (.ref o) => match Assoc.get σ.nss o with
    | some ns => ns.parts.map fun p => p.2.ts
    | none => []
  | _ => []

/-- `update_usage_info` for variable `x`, `data_model/symbol.py` 1259-1309: the current statement is linked to the last update of `x`, and without
`exclude_ns` to those of its parts. -/
def useName (σ : State) (x : Nat) (excludeNs : Bool) : List Nat :=
  match Assoc.get σ.syms x with
  | some s => s.ts :: if excludeNs then [] else partTimes σ x
  | none => []

/-- The part of what `x` refers to with key `k`; `tracing/ipyflow_tracer.py` 943-948. -/
def partOf (σ : State) (x : Nat) (k : Option Nat) : Option Part :=
  match Assoc.get σ.py.env x with
  | some (.ref o) => (Assoc.get σ.nss o).bind fun ns => Assoc.get ns.parts k
  | _ => none

/-- The links made for an operand: `visit_Name` and `visit_Subscript`, `tracing/symbol_resolver.py` 77-79, 155-163. -/
def useOp (σ : State) : Operand → List Nat
  | .name y => useName σ y false
  | .elt y k => match partOf σ y (some k) with
    | some m => [m.ts]
    | none => []

/-- The links made for a statement: for what it reads, and for the dictionary that it stores into, whose parts are included if there is no element
with the key yet (`tracing/ipyflow_tracer.py` 949-957, 316-317). -/
def links (σ : State) : Stmt → List Nat
  | .num _ ops _ => ops.flatMap (useOp σ)
  | .dict _ items => items.flatMap fun i => i.2.1.flatMap (useOp σ)
  | .put x k ops _ => ops.flatMap (useOp σ) ++ useName σ x (partOf σ x (some k)).isSome
  | .same _ x => useName σ x false

/-- `refresh` of a variable that is bound, with its snapshot: `data_model/symbol.py` 1349-1360. -/
def bindSym (t : Nat) (syms : List (Nat × Tracked)) (x : Nat) : List (Nat × Tracked) :=
  match Assoc.get syms x with
  | some s => Assoc.set syms x { s with ts := t, snaps := s.snaps ++ [some t] }
  | none => Assoc.set syms x ⟨t, t, [some t]⟩

/-- `refresh` of a part of a dictionary, its own snapshot: `data_model/symbol.py` 1349-1360, 1334-1335. -/
def refreshPart (t : Nat) (parts : List (Option Nat × Part)) (k : Option Nat) : List (Option Nat × Part) :=
  match Assoc.get parts k with
  | some m => Assoc.set parts k ⟨t, m.snaps ++ [t]⟩
  | none => Assoc.set parts k ⟨t, [t]⟩

/-- `refresh` of a part of a dictionary, the namespace: `data_model/symbol.py` 1364-1369. -/
def refreshNs (t : Nat) (ns : Ns) (k : Option Nat) : Ns := ⟨refreshPart t ns.parts k, max ns.desc t⟩

/-- `_take_timestamp_snapshots` for the names of the dictionary, `data_model/symbol.py` 1334-1341: each notes the time at which *it* was bound. -/
def snapshotAll (env : List (Nat × Val)) (o : Nat) (syms : List (Nat × Tracked)) : List (Nat × Tracked) :=
  syms.map fun p => if Assoc.get env p.1 = some (.ref o) then (p.1, { p.2 with snaps := p.2.snaps ++ [some p.2.ts] }) else p

/-- The namespace of a literal: an element for each key, and the symbol for the whole that is made along with the symbol of the literal
(`tracing/ipyflow_tracer.py` 1351-1376, `data_model/symbol.py` 1065-1079). -/
def literalNs (t : Nat) (d : List (Nat × Int)) : Ns :=
  ⟨(none, ⟨t, [t]⟩) :: d.map fun p => (some p.1, ⟨t, [t]⟩), t⟩

/-- What is noted about variables and namespaces when statement number `t` has run; `p` is the state of Python after it.
`data_model/symbol.py` 1011-1110, 1327-1369; a new name for a dictionary counts as a change of its parts (1065-1079), before it is refreshed itself. -/
def note (σ : State) (p : Py) : Stmt → List (Nat × Tracked) × List (Nat × Ns)
  | .num x _ _ => (bindSym σ.time σ.syms x, σ.nss)
  | .dict x _ =>
    (bindSym σ.time σ.syms x,
      Assoc.set σ.nss σ.time (literalNs σ.time ((Assoc.get p.heap σ.time).getD [])))
  | .put x k _ _ => match Assoc.get σ.py.env x with
    | some (.ref o) => match Assoc.get σ.nss o with
      | some ns => (snapshotAll σ.py.env o σ.syms, Assoc.set σ.nss o (refreshNs σ.time ns (some k)))
      | none => (σ.syms, σ.nss)
    | _ => (σ.syms, σ.nss)
  | .same y x => match Assoc.get σ.py.env x with
    | some (.ref o) => match Assoc.get σ.nss o with
      | some ns =>
        (Assoc.set (snapshotAll σ.py.env o σ.syms) y ⟨σ.time, σ.time, [none, some σ.time]⟩, Assoc.set σ.nss o (refreshNs σ.time ns none))
      | none => (σ.syms, σ.nss)
    | _ => (bindSym σ.time σ.syms y, σ.nss)

/-- A cell with one statement is run: `data_model/statement.py` 717-733, `data_model/symbol.py` 1011-1110. -/
def step (s : Stmt) (σ : State) : Option State :=
  (exec σ.time s σ.py).bind fun p =>
    some {
      py := p
      time := σ.time + 1
      syms := (note σ p s).1
      nss := (note σ p s).2
      edges := fun u => if u = σ.time then links σ s else σ.edges u
      text := fun u => if u = σ.time then some s else σ.text u }

/-- The notebook after the statements of `h`, the last of which comes first; `none` if one of them raises. `flow.py` 100-160. -/
def track : List Stmt → Option State
  | [] => some .init
  | s :: h => (track h).bind (step s)

/-! ### The code of a version -/

/-- The timestamp of the statement in the cell that was run as number `t`, `data_model/timestamp.py` 36-48. -/
def stamp (t : Nat) : Timestamp := ⟨t + 1, 0⟩

/-- `timestamp`, `data_model/symbol.py` 316-321; `None` for a name that is not known (`api/lift.py` 12-15). -/
def timestamp (σ : State) (x : Nat) : Option Nat :=
  match Assoc.get σ.syms x with
  | none => none
  | some s => match Assoc.get σ.py.env x with
    | some (.ref o) => match Assoc.get σ.nss o with
      | some ns => some (max s.ts ns.desc)
      | none => some s.ts
    | _ => some s.ts

/-- `data_model/symbol.py` 331-335, for the snapshots of a variable: the last one that is not after `b`, if it is initialised. -/
def lastLeqSym (snaps : List (Option Nat)) (b : Nat) : List Nat :=
  match snaps.reverse.find? (fun s => match s with | some t => decide (t ≤ b) | none => true) with
  | some (some t) => [t]
  | _ => []

/-- `data_model/symbol.py` 331-335, for the snapshots of a part. -/
def lastLeq (snaps : List Nat) (b : Nat) : List Nat := (snaps.reverse.find? (· ≤ b)).toList

/-- The parts of what `x` refers to, `ns.all_symbols_this_indentation()`, `data_model/symbol.py` 340-349. -/
def partsOf (σ : State) (x : Nat) : List Part :=
  match Assoc.get σ.py.env x with
  | some (.ref o) => match Assoc.get σ.nss o with
    | some ns => ns.parts.map Prod.snd
    | none => []
  | _ => []

/-- `_compute_namespace_timestamps`, `data_model/symbol.py` 323-352. Parts are numbers here and have no parts. -/
def nsTimes (σ : State) (x : Nat) (s : Tracked) : Option Nat → List Nat
  | none => s.ts :: (timestamp σ x).toList ++ (partsOf σ x).map Part.ts
  | some b => lastLeqSym s.snaps b ++ (partsOf σ x).flatMap fun m => lastLeq m.snaps b

/-- `_get_timestamps_for_version`, `data_model/symbol.py` 354-363. -/
def versionTimes (σ : State) (x : Nat) (s : Tracked) (v : Int) : Except Err (List Timestamp) :=
  if s.snaps = [] then .ok ((timestamp σ x).toList.map stamp)
  else match pyIndex s.snaps v with
    | none => .error .crash
    | some none => .ok [⟨(s.defined : Int) + 1, -1⟩]
    | some (some t) => .ok ((nsTimes σ x s (if v = -1 then none else some t)).map stamp)

/-- The statements and their links, as `Slice` reads them (`slicing/mixin.py` 421-452, `data_model/statement.py` 170-183). `stat`: the links made
by static analysis, which is not modelled here. -/
def world (σ : State) (stat : Nat → List Nat) : Slice.World Nat Nat where
  ts := stamp
  parents
    | .dynamic, t => σ.edges t
    | .static, t => stat t
  chain t := if t < σ.time then [t] else []
  override _ := false
  at' ts := if ts.stmtNum = 0 ∧ 1 ≤ ts.cellNum ∧ ts.cellNum ≤ σ.time then some (ts.cellNum - 1).toNat else none

/-- `code(x, version=v)`, `api/lift.py` 28-37, `data_model/symbol.py` 365-372: the numbers of the statements. An error is an exception. -/
def code (σ : State) (stat : Nat → List Nat) (x : Nat) (v : Int) : Except Err (List Nat) :=
  match Assoc.get σ.syms x with
  | none => .error .crash
  | some s => match versionTimes σ x s v with
    | .error e => .error e
    | .ok ts => Slice.makeMultiSlice (world σ stat) [.dynamic, .static] (σ.time + 1) (ts.map .time) false

/-- The code is run on its own, as `test_api.py` 27 does. `slicing/mixin.py` 454-466 puts the statements in the order of their numbers. -/
def runCode (σ : State) : List Nat → Py → Option Py
  | [], p => some p
  | t :: l, p => (σ.text t).bind fun s => (exec t s p).bind (runCode σ l)

end Verif.Versions
