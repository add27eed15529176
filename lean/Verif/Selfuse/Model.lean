import Verif.Base.Assoc
import Verif.Slice.Line

/-!
# Attributes that are used to set themselves

Models the links that are made for the attributes read by a statement: `core/ipyflow/tracing/symbol_resolver.py` 133-138 leaves them to
`core/ipyflow/tracing/ipyflow_tracer.py` 949-962, which notes them until the statement is done and what it sets has been refreshed (316-318,
`core/ipyflow/data_model/symbol.py` 1284-1296); and the code that is made from these links (`symbol.py` 316-372).

A notebook is a list of statements, each in a cell of its own that is run once. Values are numbers and objects whose attributes are numbers; an object
has one name. -/

namespace Verif.Selfuse
open Verif

/-- A variable or an attribute of the object with the given name: `data_model/symbol.py` 140-175. -/
inductive Key where
  | var (x : Nat)
  | attr (o a : Nat)
  deriving DecidableEq, Repr

/-- A statement; the assignments of `data_model/statement.py` 400-440 that are modelled. -/
inductive Stmt where
  /-- `x = k + … + c` -/
  | num (x : Nat) (ops : List Key) (c : Int)
  /-- `x = SimpleNamespace()` -/
  | make (x : Nat)
  /-- `o.a = k + … + c` -/
  | put (o a : Nat) (ops : List Key) (c : Int)
  /-- `o.a += k + … + c` -/
  | aug (o a : Nat) (ops : List Key) (c : Int)
  deriving DecidableEq, Repr

/-! ### Python -/

/-- A value, `data_model/symbol.py` 233-240. -/
inductive Val where
  | num (n : Int)
  | obj
  deriving DecidableEq, Repr

/-- The user's variables and the attributes of their objects, `data_model/symbol.py` 1405. -/
abbrev Env := Key → Option Val

/-- Variable `x` is bound; the attributes of the object that it was are gone. Python's assignment, traced in `data_model/statement.py` 400-440. -/
def bindVar (e : Env) (x : Nat) (v : Val) : Env
  | .var y => if y = x then some v else e (.var y)
  | .attr o a => if o = x then none else e (.attr o a)

/-- An attribute is set. Python's assignment, traced in `data_model/statement.py` 400-440. -/
def setAttr (e : Env) (o a : Nat) (n : Int) : Env := fun k => if k = .attr o a then some (.num n) else e k

/-- The value of a sum; `none` if Python raises. The expressions of `tracing/symbol_resolver.py` 77-79, 133-153. -/
def evalSum (e : Env) : List Key → Int → Option Int
  | [], c => some c
  | k :: ks, c => match e k with
    | some (.num n) => (evalSum e ks c).map (n + ·)
    | _ => none

/-- A statement is run; `none` if it raises. The statements of `data_model/statement.py` 400-440. -/
def exec (s : Stmt) (e : Env) : Option Env :=
  match s with
  | .num x ops c => (evalSum e ops c).map fun n => bindVar e x (.num n)
  | .make x => some (bindVar e x .obj)
  | .put o a ops c => (evalSum e ops c).bind fun n => if e (.var o) = some .obj then some (setAttr e o a n) else none
  | .aug o a ops c => (evalSum e (.attr o a :: ops) c).bind fun n => if e (.var o) = some .obj then some (setAttr e o a n) else none

/-! ### What is noted -/

/-- The notebook after some statements: `flow.py` 100-160; `ts` is `Symbol._timestamp` for the symbols that there are. -/
structure State where
  env : Env
  time : Nat
  ts : List (Key × Nat)
  edges : Nat → List Nat
  text : Nat → Option Stmt

/-- Nothing has been run. `flow.py` 100-160. -/
def State.init : State := ⟨fun _ => none, 0, [], fun _ => [], fun _ => none⟩

/-- The key is an attribute of `x`: `data_model/namespace.py` 30-60. -/
def isAttrOf (x : Nat) : Key → Bool
  | .var _ => false
  | .attr o _ => decide (o = x)

/-- What a statement sets: `data_model/statement.py` 400-440. -/
def target : Stmt → Key
  | .num x _ _ => .var x
  | .make x => .var x
  | .put o a _ _ => .attr o a
  | .aug o a _ _ => .attr o a

/-- The times after a statement: `refresh`, `data_model/symbol.py` 1349-1360; the symbols of the attributes of another object are not those of this
one (`data_model/namespace.py` 30-60). -/
def refresh (σ : State) : Stmt → List (Key × Nat)
  | .num x _ _ => Assoc.set (σ.ts.filter fun p => !isAttrOf x p.1) (.var x) σ.time
  | .make x => Assoc.set (σ.ts.filter fun p => !isAttrOf x p.1) (.var x) σ.time
  | .put o a _ _ => Assoc.set σ.ts (.attr o a) σ.time
  | .aug o a _ _ => Assoc.set σ.ts (.attr o a) σ.time

/-- The time of a symbol when the statement is done: `data_model/symbol.py` 1349-1360. -/
def doneTime (σ : State) (s : Stmt) (k : Key) : Option Nat := if k = target s then some σ.time else Assoc.get σ.ts k

/-- `update_usage_info` of one symbol whose last update was at `u`, in a statement at time `t`: `data_model/symbol.py` 1246-1248, 1284-1296. Only the last
update is looked at. -/
def use (t : Nat) (u : Option Nat) : List Nat :=
  match u with
  | some u => if u < t then [u] else []
  | none => []

/-- The link for something that is read: at once for a variable (`tracing/symbol_resolver.py` 57-79), when the statement is done for an attribute
(133-138, `tracing/ipyflow_tracer.py` 958-962, 316-318). -/
def useKey (σ : State) (s : Stmt) : Key → List Nat
  | .var x => use σ.time (Assoc.get σ.ts (.var x))
  | .attr o a => use σ.time (doneTime σ s (.attr o a))

/-- The links for the object of an attribute that is set, `tracing/ipyflow_tracer.py` 949-957, 316-318: if the attribute is new, to its attributes
too. -/
def useObj (σ : State) (s : Stmt) (o a : Nat) : List Nat :=
  use σ.time (doneTime σ s (.var o)) ++
    if (Assoc.get σ.ts (.attr o a)).isSome then [] else (σ.ts.filter fun p => isAttrOf o p.1).flatMap fun p => use σ.time (doneTime σ s p.1)

/-- The links made for a statement: `data_model/statement.py` 717-733; an augmented assignment uses its target before that is refreshed,
`data_model/symbol.py` 1063-1064. -/
def links (σ : State) (s : Stmt) : List Nat :=
  match s with
  | .num _ ops _ => ops.flatMap (useKey σ s)
  | .make _ => []
  | .put o a ops _ => ops.flatMap (useKey σ s) ++ useObj σ s o a
  | .aug o a ops _ => ops.flatMap (useKey σ s) ++ use σ.time (Assoc.get σ.ts (.attr o a)) ++ useObj σ s o a

/-- A cell with one statement is run: `data_model/statement.py` 717-733. -/
def step (s : Stmt) (σ : State) : Option State :=
  (exec s σ.env).map fun e =>
    { env := e
      time := σ.time + 1
      ts := refresh σ s
      edges := fun u => if u = σ.time then links σ s else σ.edges u
      text := fun u => if u = σ.time then some s else σ.text u }

/-- The notebook after the statements of `h`, the last of which comes first; `none` if one of them raises. `flow.py` 100-160. -/
def track : List Stmt → Option State
  | [] => some .init
  | s :: h => (track h).bind (step s)

/-- The times for `code(k)`: `_compute_namespace_timestamps`, `data_model/symbol.py` 323-352. -/
def times (σ : State) (k : Key) : List Nat :=
  (Assoc.get σ.ts k).toList ++ match k with
    | .var x => (σ.ts.filter fun p => isAttrOf x p.1).map Prod.snd
    | .attr _ _ => []

/-- `code(k)`, `api/lift.py` 28-37, `data_model/symbol.py` 354-372: the numbers of the statements. -/
def code (σ : State) (stat : Nat → List Nat) (k : Key) : Except Err (List Nat) :=
  if (Assoc.get σ.ts k).isSome then Slice.Line.slice σ.time σ.edges stat (times σ k) else .error .crash

/-- The code is run on its own, as `test_api.py` 27 does. `slicing/mixin.py` 454-466 puts the statements in the order of their numbers. -/
def runCode (σ : State) : List Nat → Env → Option Env
  | [], e => some e
  | t :: l, e => (σ.text t).bind fun s => (exec s e).bind (runCode σ l)

end Verif.Selfuse
