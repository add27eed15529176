import Verif.Ref.Model
import Verif.Base.Assoc

/-!
# Reads that would fail

Models `is_deep`, `is_mutating` and `is_unsafe` of `ResolvedSymbol`, `core/ipyflow/analysis/resolved_symbols.py` 112-186, `gen_symbols_for_attrsub_chain` of
`core/ipyflow/data_model/scope.py` 139-166, and what `get_live_symbols_and_cells_for_references` does with them, `core/ipyflow/analysis/live_refs.py` 505-551, up to
the comparison of timestamps that makes a cell ready (`core/ipyflow/frontend.py` 393-396).

Chains are those of `Verif.Ref.chain`. A symbol is given by the way to it. The references are not killed, there is nothing on the left of an assignment and no mark of
reactivity but `hot`. Positions, counters and the table of methods that change objects are parameters. -/

namespace Verif.Fails

open Ref (Const Index Exp Val Atom)

/-- Objects, as far as `is_unsafe` looks at them (`resolved_symbols.py` 166-186). Names of attributes are numbers, as in `Verif.Ref`. -/
inductive Obj where
  /-- a list or a tuple -/
  | seq (elems : List Obj)
  /-- a dict; `dflt`: missing keys have a value, as in a `defaultdict` -/
  | dict (dflt : Bool) (items : List (Val × Obj))
  /-- something else: what its class has (`none`: a property that raises), its own attributes, what `o[v]` gives -/
  | inst (cls : List (Nat × Option Obj)) (attrs : List (Nat × Obj)) (items : List (Val × Obj))

/-- What is known when a cell is checked. -/
structure World where
  /-- the object of the symbol that is found for a way, `data_model/scope.py` 149-166 -/
  sym : List Val → Option Obj
  /-- `resolve_external_call(..) is not None`, `resolved_symbols.py` 142-150: the method changes the object -/
  mutates : Obj → Val → Bool
  /-- `is_reactive`, `resolved_symbols.py` 86-94 -/
  hot : List Val → Bool
  /-- `exec_mode == ExecutionMode.REACTIVE`, `resolved_symbols.py` 160 -/
  reactive : Bool
  /-- `sym.shallow_timestamp.cell_num`, `resolved_symbols.py` 63 -/
  shallow : List Val → Int
  /-- `sym.timestamp.cell_num`, `resolved_symbols.py` 61 -/
  deep : List Val → Int

/-- `isinstance(v, str)`, `resolved_symbols.py` 176. -/
def isText : Val → Bool
  | .one (.str _) => true
  | .one (.digits _) => true
  | _ => false

/-- `isinstance(v, int) and v >= len(obj)`, `resolved_symbols.py` 167-169. -/
def beyond (n : Nat) : Val → Bool
  | .one (.int z) => decide (z ≥ n)
  | _ => false

/-- `hasattr(cls, v) or hasattr(obj, v)`, `resolved_symbols.py` 180-181. -/
def has (cls : List (Nat × Option Obj)) (attrs : List (Nat × Obj)) : Val → Bool
  | .one (.str a) => (Assoc.get cls a).isSome || (Assoc.get attrs a).isSome
  | _ => false

/-- The last three tests of `is_unsafe`, `resolved_symbols.py` 165-186. `called`: `atom.is_callpoint`. -/
def misses (called : Bool) (v : Val) : Obj → Bool
  | .seq es => beyond es.length v
  | .dict _ items => (Assoc.get items v).isNone
  | .inst cls attrs _ => !called && isText v && !has cls attrs v

/-- `is_mutating`, `resolved_symbols.py` 136-150. -/
def mutating (w : World) (o : Obj) : Option Atom → Bool
  | none => false
  | some n => n.callpoint && w.mutates o n.value

/-- `is_unsafe`, `resolved_symbols.py` 153-186. -/
def fails (w : World) (q : List Val) (o : Obj) (a : Atom) (next : Option Atom) : Bool := match next with
  | none => false
  | some n => if n.callpoint then mutating w o next && (w.hot q || w.reactive) else misses a.callpoint n.value o

/-- `is_deep`, `resolved_symbols.py` 112-127. -/
def isDeep (w : World) (q : List Val) (o : Obj) (next : Option Atom) : Bool :=
  w.hot q || match next with
    | none => true
    | some n => n.callpoint && !mutating w o next

/-- A symbol that a chain goes through, with its object, atom and the next atom: `ResolvedSymbol`, `resolved_symbols.py` 20-36. -/
structure Found where
  way : List Val
  obj : Obj
  atom : Atom
  next : Option Atom

/-- `gen_symbols_for_attrsub_chain`, `data_model/scope.py` 139-166; `p` is the way so far. -/
def found (w : World) (p : List Val) : List Atom → List Found
  | [] => []
  | a :: l => match w.sym (p ++ [a.value]) with
    | none => []
    | some o => ⟨p ++ [a.value], o, a, l.head?⟩ :: (if a.callpoint then [] else found w (p ++ [a.value]) l)

/-- The symbols that count as read, `analysis/live_refs.py` 533-551; `allow` is `allow_unsafe`. -/
def live (w : World) (allow : Bool) (e : Exp) : List Found :=
  (found w [] (Ref.chain none e)).filter fun f => allow || !fails w f.way f.obj f.atom f.next

/-- `allow_unsafe`, `analysis/live_refs.py` 510-524: `cell` and `current` are the positions of the checked cell and of the current cell, `parents` those of the cells
that the checked one depends on. `known`: the checked cell has been run. -/
def allowed (known inOrder : Bool) (cell current : Int) (parents : List Int) : Bool :=
  known && inOrder && (decide (current ≥ cell) || decide (parents.foldl min cell > current))

/-- `timestamp`, `resolved_symbols.py` 58-63. -/
def stamp (w : World) (f : Found) : Int := if isDeep w f.way f.obj f.next then w.deep f.way else w.shallow f.way

/-- Whether what the cell reads with `e` makes it ready, `frontend.py` 393-396 with `data_model/cell.py` 729-760: something that counts as read is newer than the last
execution `ctr` of the cell. -/
def ready (w : World) (allow : Bool) (ctr : Int) (e : Exp) : Bool := (live w allow e).any fun f => decide (stamp w f > ctr)

end Verif.Fails
