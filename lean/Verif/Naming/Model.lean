import Verif.Base.Assoc

/-!
# The names under which parts of objects are shown

Models `readable_name`, `core/ipyflow/data_model/symbol.py` 422-424, `full_namespace_path`, `data_model/scope.py` 493-507, `make_namespace_qualified_name`,
`data_model/namespace.py` 229-238, and where the names of namespaces come from: displays (`tracing/ipyflow_tracer.py` 1283-1425), assignments of displays
(`data_model/statement.py` 418-422) and new objects for variables (`data_model/symbol.py` 738-750). These names are what `%flow deps` and `%flow waiting` print,
what is sent to the client for uses out of order (`frontend.py` 517-523) and what watchpoints are told (`data_model/statement.py` 726-733).

The program is a sequence of statements `x = [ ... ]`, `x = { ... }`, `x = y[i][j]`, and `del x` at the top level of cells. Objects are never changed.

Left out: values of variables that are not lists or dictionaries made by displays (`fresh_copy` in 745-747 is the subject of C113); keys other than
natural numbers and strings of letters or digits; starred items; assignments to parts; reuse of identities of objects that are gone. -/

namespace Verif.Naming
open Verif

/-- Keys: natural numbers, strings that are words, strings of digits. Words are numbered, like variables: `a` is the variable, `'a'` the string. -/
inductive Key where
  | int (n : Nat)
  | word (w : Nat)
  | digits (n : Nat)
  deriving DecidableEq, Repr

/-- The place of a display in the display that contains it, innermost key first. -/
abbrev Pos := List Key

/-- Lists and dictionaries: the display `pos` of the `lit`-th statement that evaluated displays. -/
structure Obj where
  lit : Nat
  pos : Pos
  deriving DecidableEq, Repr

/-- Items of displays as they are written: something that has no parts, a display, `x[k1][k2]`. -/
inductive Src where
  | plain
  | sub
  | ref (x : Nat) (ks : List Key)
  deriving DecidableEq, Repr

/-- Items of displays as they are. -/
inductive Item where
  | plain
  | sub
  | ref (o : Obj)
  deriving DecidableEq, Repr

/-- Statements. The items of a display and of the displays in it are given with their places. -/
inductive Ev where
  | display (x : Nat) (items : List (Pos × Src))
  | copy (x y : Nat) (ks : List Key)
  | del (x : Nat)
  deriving DecidableEq, Repr

/-- The state of the program (Python's, not ipyflow's): objects and variables. -/
structure Py where
  tab : Nat → List (Pos × Item)
  next : Nat
  env : Nat → Option Obj

/-- The object that an item is (Python's). -/
def itemObj (o : Obj) (k : Key) : Item → Option Obj
  | .plain => none
  | .sub => some ⟨o.lit, k :: o.pos⟩
  | .ref o' => some o'

/-- The item of `o` with key `k` (Python's). -/
def Py.item (py : Py) (o : Obj) (k : Key) : Option Item := Assoc.get (py.tab o.lit) (k :: o.pos)

/-- The object that is the part `k` of `o` (Python's). -/
def Py.part (py : Py) (o : Obj) (k : Key) : Option Obj :=
  match py.item o k with
  | some i => itemObj o k i
  | none => none

/-- `o[k1][k2]` (Python's). -/
def Py.walk (py : Py) : Obj → List Key → Option Obj
  | o, [] => some o
  | o, k :: ks =>
    match py.part o k with
    | some o' => py.walk o' ks
    | none => none

/-- `x[k1][k2]` (Python's). -/
def Py.value (py : Py) (x : Nat) (ks : List Key) : Option Obj :=
  match py.env x with
  | some o => py.walk o ks
  | none => none

/-- The items of a display are evaluated (Python's). -/
def Py.items (py : Py) : List (Pos × Src) → Option (List (Pos × Item))
  | [] => some []
  | (p, .plain) :: r => (py.items r).map ((p, .plain) :: ·)
  | (p, .sub) :: r => (py.items r).map ((p, .sub) :: ·)
  | (p, .ref x ks) :: r =>
    match py.value x ks with
    | some o => (py.items r).map ((p, .ref o) :: ·)
    | none => none

/-- A changed table (Python's). -/
def upd {α : Type} (f : Nat → α) (a : Nat) (v : α) : Nat → α := fun b => if b = a then v else f b

/-- One statement (Python's); one that raises changes nothing. -/
def Py.step (py : Py) : Ev → Py
  | .display x items =>
    match py.items items with
    | some t => ⟨upd py.tab py.next t, py.next + 1, upd py.env x (some ⟨py.next, []⟩)⟩
    | none => py
  | .copy x y ks =>
    match py.value y ks with
    | some o => { py with env := upd py.env x (some o) }
    | none => py
  | .del x => { py with env := upd py.env x none }

/-- The program with what ipyflow keeps of the names of namespaces. `name o = some x`: the namespace of `o` has `scope_name` `x` and the global scope as
`parent_scope`. Otherwise it has the last key of its place and the namespace of the display around it: `tracing/ipyflow_tracer.py` 1292-1296, 1406, 1424. -/
structure St where
  py : Py
  name : Obj → Option Nat

/-- `update_obj_ref`, `data_model/symbol.py` 738-750, for a variable that gets an object that has a namespace: the namespace of the new object gets the
name of that of the old one if this is the name of the variable. The old one keeps it. A new symbol has no old object. -/
def rename (name : Obj → Option Nat) (x : Nat) (old : Option Obj) (new : Obj) : Obj → Option Nat :=
  match old with
  | some o => if o ≠ new ∧ name o = some x then fun b => if b = new then some x else name b else name
  | none => name

/-- One statement. For displays the new namespace is anonymous, and it gets the name of the variable, in `data_model/symbol.py` 748-750 or else
in `data_model/statement.py` 418-422. `del`: `data_model/scope.py` 440-447, names of namespaces stay. -/
def St.step (st : St) (e : Ev) : St :=
  match e with
  | .display x items =>
    match st.py.items items with
    | some _ => ⟨st.py.step e, fun b => if b = ⟨st.py.next, []⟩ then some x else st.name b⟩
    | none => ⟨st.py.step e, st.name⟩
  | .copy x y ks =>
    match st.py.value y ks with
    | some o => ⟨st.py.step e, rename st.name x (st.py.env x) o⟩
    | none => ⟨st.py.step e, st.name⟩
  | .del _ => ⟨st.py.step e, st.name⟩

/-- The beginning of a session: `flow.py` 118-130. -/
def init : St := ⟨⟨fun _ => [], 0, fun _ => none⟩, fun _ => none⟩

/-- What a session has come to; the statement run last comes first. Statement by statement, `data_model/statement.py` 418-422. -/
def run : List Ev → St
  | [] => init
  | e :: h => (run h).step e

/-- Pieces of text. `str w` is the quoted string, which is never printed (`str(sym.name)` in `data_model/namespace.py` 231). -/
inductive Tok where
  | name (x : Nat)
  | num (n : Nat)
  | str (w : Nat)
  | lbr
  | rbr
  | dot
  deriving DecidableEq, Repr

/-- `str(name)`: `data_model/namespace.py` 231, `tracing/ipyflow_tracer.py` 1406, 1424. -/
def keyTok : Key → Tok
  | .int n => .num n
  | .word w => .name w
  | .digits n => .num n

/-- `full_namespace_path`, `data_model/scope.py` 493-507. `first o` tells whether the symbol that `get_first_full_symbol` (`flow.py` 388-398) comes
across first for `o` is a part of an object (`is_subscript`, `data_model/namespace.py` 177-183); this depends on the order in which sets are gone through. -/
def path (name : Obj → Option Nat) (first : Obj → Bool) (lit : Nat) : Pos → List Tok
  | [] =>
    match name ⟨lit, []⟩ with
    | some x => [.name x]
    | none => []
  | k :: p =>
    match name ⟨lit, k :: p⟩ with
    | some x => [.name x]
    | none =>
      match keyTok k with
      | .num n => path name first lit p ++ [.lbr, .num n, .rbr]
      | t => if first ⟨lit, k :: p⟩ then path name first lit p ++ [.lbr, t, .rbr] else path name first lit p ++ [.dot, t]

/-- `readable_name` of the part `k` of `o`: `data_model/namespace.py` 229-238. Items of lists and dictionaries are subscripts. -/
def St.shown (st : St) (first : Obj → Bool) (o : Obj) (k : Key) : List Tok :=
  path st.name first o.lit o.pos ++ [.lbr, keyTok k, .rbr]

end Verif.Naming
