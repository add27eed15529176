import Verif.Slice.Order

/-!
# The code of objects that methods change

Models which statements `code(x)` is made of when objects have several names and are changed by method calls that return nothing: `s.add(e)` and
`s.discard(e)` for a set `s`, which are handled by `StandardMutation` (`core/ipyflow/tracing/external_calls/base_handlers.py` 170-211, 242-250).
Such a call gives the time of the statement to every name of the object (`data_model/utils/update_protocol.py` 38-60), and to the symbol that stands
for changes of the whole, which lives in the namespace of the object (`data_model/symbol.py` 1060-1079). Sets have no namespace until a method is
called on them (`tracing/ipyflow_tracer.py` 642-703, 1282-1283, 935-939).

A notebook is a list of statements, each in a cell of its own that is run once. Values are numbers and sets of numbers. -/

namespace Verif.Inplace
open Verif

/-- What is added up in an expression: `y` or `sum(y)`. Part of the language that is traced, `tracing/symbol_resolver.py` 77-79, 114-121. -/
inductive Op where
  | name (y : Nat)
  | sum (y : Nat)
  deriving DecidableEq, Repr

/-- The variable that is read. `tracing/symbol_resolver.py` 77-79. -/
def Op.var : Op → Nat
  | .name y => y
  | .sum y => y

/-- A statement, `data_model/statement.py` 525-569, 717-733. -/
inductive Stmt where
  /-- `x = a + b + … + c` -/
  | num (x : Nat) (ops : List Op) (c : Int)
  /-- `x = set()` -/
  | fresh (x : Nat)
  /-- `y = x`, where `y` is a new name -/
  | same (y x : Nat)
  /-- `x.add(a + b + … + c)`, or `x.discard(…)` if not `put` -/
  | change (x : Nat) (put : Bool) (ops : List Op) (c : Int)
  deriving DecidableEq, Repr

/-! ### Python -/

/-- A value: a number or a reference to the set made by statement `o` (`Symbol.obj`, `data_model/symbol.py` 233-240). -/
inductive Val where
  | num (n : Int)
  | ref (o : Nat)
  deriving DecidableEq, Repr

/-- A table with another value for `a`. The user namespace is a `dict`, `data_model/symbol.py` 1405. -/
def upd {α : Type} (f : Nat → α) (a : Nat) (v : α) : Nat → α := fun b => if b = a then v else f b

/-- Variables and sets: the user namespace, `data_model/symbol.py` 1405. -/
structure Py where
  env : Nat → Option Val
  heap : Nat → Option (List Int)

/-- The value of an operand; `none` if Python raises. The expressions of `tracing/symbol_resolver.py` 77-79, 114-121. -/
def evalOp (p : Py) : Op → Option Int
  | .name y => match p.env y with
    | some (.num n) => some n
    | _ => none
  | .sum y => match p.env y with
    | some (.ref o) => (p.heap o).map List.sum
    | _ => none

/-- The value of a sum. The expressions of `tracing/symbol_resolver.py` 77-79, 114-121. -/
def evalSum (p : Py) : List Op → Int → Option Int
  | [], c => some c
  | o :: os, c => (evalOp p o).bind fun a => (evalSum p os c).bind fun b => some (a + b)

/-- `add` and `discard`: the calls of `tracing/external_calls/base_handlers.py` 242-250. -/
def alter (put : Bool) (n : Int) (l : List Int) : List Int :=
  if put then (if n ∈ l then l else l ++ [n]) else l.filter (· ≠ n)

/-- Statement number `t` is run. `none`: it raises, or it gives a second name that was bound before, which is not modelled (the condition on
`new_dep.parents` in `data_model/symbol.py` 1043-1046 is then not met in general). -/
def exec (t : Nat) (s : Stmt) (p : Py) : Option Py :=
  match s with
  | .num x ops c => (evalSum p ops c).map fun n => { p with env := upd p.env x (some (.num n)) }
  | .fresh x => some ⟨upd p.env x (some (.ref t)), upd p.heap t (some [])⟩
  | .same y x => match p.env x with
    | some v => if (p.env y).isSome then none else some { p with env := upd p.env y (some v) }
    | none => none
  | .change x put ops c => match p.env x with
    | some (.ref o) => match p.heap o with
      | some l => (evalSum p ops c).map fun n => { p with heap := upd p.heap o (some (alter put n l)) }
      | none => none
    | _ => none

/-! ### What is noted -/

/-- The notebook after some statements: `flow.py` 100-160, `data_model/statement.py` 45-60, `slicing/mixin.py` 40-60. -/
structure State where
  py : Py
  time : Nat
  /-- the last update of a variable, `_timestamp` (`data_model/symbol.py` 140-175) -/
  ts : Nat → Option Nat
  /-- the last update of the symbol that stands for changes of a set; `none`: the set has no namespace (`data_model/symbol.py` 104, 1060-1079) -/
  virt : Nat → Option Nat
  /-- the statements that a statement was linked to when it ran -/
  dyn : Nat → List Nat
  /-- the statements that it was linked to by static analysis -/
  stat : Nat → List Nat
  text : Nat → Option Stmt

/-- Nothing has been run. `flow.py` 100-160. -/
def State.init : State := ⟨⟨fun _ => none, fun _ => none⟩, 0, fun _ => none, fun _ => none, fun _ => [], fun _ => [], fun _ => none⟩

/-- The times of the symbols in the namespace of what `x` is: `get_namespace_symbols`, `data_model/symbol.py` 1312-1325. -/
def whole (σ : State) (x : Nat) : List Nat :=
  match σ.py.env x with
  | some (.ref o) => (σ.virt o).toList
  | _ => []

/-- `update_usage_info` for variable `x`, `data_model/symbol.py` 1259-1309: the current statement is linked to the *last* update of `x`, and to those of
the symbols in the namespace. -/
def useName (σ : State) (x : Nat) : List Nat := (σ.ts x).toList ++ whole σ x

/-- `x` and `y` are the same set: `flow().aliases`, `data_model/utils/update_protocol.py` 38-40. -/
def isAlias (σ : State) (x y : Nat) : Bool :=
  match σ.py.env x, σ.py.env y with
  | some (.ref o), some (.ref o') => decide (o = o')
  | _, _ => false

/-- The links made for the operands when a statement is finished; `data_model/statement.py` 717-733: the effects of calls come first, after
which the names of a set that has just been changed have no update before the current time (`data_model/symbol.py` 1247). -/
def lateOps (σ : State) (x : Nat) (ops : List Op) : List Nat :=
  ops.flatMap fun o => if isAlias σ x o.var then [] else useName σ o.var

/-- The links made when a statement runs. For a change, the object is used before it is updated: `data_model/symbol.py` 1060-1061. -/
def dynLinks (σ : State) : Stmt → List Nat
  | .num _ ops _ => ops.flatMap fun o => useName σ o.var
  | .fresh _ => []
  | .same _ x => useName σ x
  | .change x _ ops _ => useName σ x ++ lateOps σ x ops

/-- The links made by static analysis before the cell runs: `analysis/live_refs.py` 552-562. What a method is called on is not used as a whole. -/
def statLinks (σ : State) : Stmt → List Nat
  | .num _ ops _ => ops.flatMap fun o => useName σ o.var
  | .fresh _ => []
  | .same _ x => useName σ x
  | .change x _ ops _ => (σ.ts x).toList ++ ops.flatMap fun o => useName σ o.var

/-- The last updates of variables: an assignment refreshes one name, a change refreshes all of them (`data_model/symbol.py` 1099-1108, 1343-1360,
`data_model/utils/update_protocol.py` 57-60). -/
def newTs (σ : State) : Stmt → Nat → Option Nat
  | .num x _ _ => upd σ.ts x (some σ.time)
  | .fresh x => upd σ.ts x (some σ.time)
  | .same y _ => upd σ.ts y (some σ.time)
  | .change x _ _ _ => fun n => if isAlias σ x n then some σ.time else σ.ts n

/-- The symbols for changes as a whole: `data_model/symbol.py` 1062-1079. A new name for an object that has a namespace counts as a change; a method
call gives the object a namespace (`tracing/ipyflow_tracer.py` 935-939). -/
def newVirt (σ : State) : Stmt → Nat → Option Nat
  | .num _ _ _ => σ.virt
  | .fresh _ => upd σ.virt σ.time none
  | .same _ x => match σ.py.env x with
    | some (.ref o) => upd σ.virt o ((σ.virt o).map fun _ => σ.time)
    | _ => σ.virt
  | .change x _ _ _ => match σ.py.env x with
    | some (.ref o) => upd σ.virt o (some σ.time)
    | _ => σ.virt

/-- A cell with one statement is run: `data_model/statement.py` 717-733, `data_model/symbol.py` 1011-1110. -/
def step (s : Stmt) (σ : State) : Option State :=
  (exec σ.time s σ.py).map fun p =>
    { py := p, time := σ.time + 1, ts := newTs σ s, virt := newVirt σ s,
      dyn := upd σ.dyn σ.time (dynLinks σ s), stat := upd σ.stat σ.time (statLinks σ s), text := upd σ.text σ.time (some s) }

/-- The notebook after the statements of `h`, the last of which comes first; `none` if one of them raises. `flow.py` 100-160. -/
def track : List Stmt → Option State
  | [] => some .init
  | s :: h => (track h).bind (step s)

/-! ### The code -/

/-- The timestamp of the statement in the cell that was run as number `t`, `data_model/timestamp.py` 36-48. -/
def stamp (t : Nat) : Timestamp := ⟨t + 1, 0⟩

/-- `code(x)`, `api/lift.py` 28-37, `data_model/symbol.py` 323-372: the numbers of the statements. The slice starts from the last updates of `x` and of
the symbols in the namespace. -/
def code (σ : State) (x : Nat) : Except Err (List Nat) :=
  match σ.ts x with
  | none => .error .crash
  | some _ => Slice.Order.slice σ.time stamp σ.dyn σ.stat (useName σ x)

/-- The code is run on its own. `slicing/mixin.py` 454-466 puts the statements in the order of their numbers. -/
def runCode (σ : State) : List Nat → Py → Option Py
  | [], p => some p
  | t :: l, p => (σ.text t).bind fun s => (exec t s p).bind (runCode σ l)

end Verif.Inplace
