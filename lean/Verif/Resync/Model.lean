import Verif.Base.Dfs

/-!
# What is known about variables is brought up to date at the end of a cell

Modelled: `resync_if_necessary` (`data_model/symbol.py` 1404-1444), the parts of `update_obj_ref`
(710-758) and `_handle_aliases` (792-794) that concern the object of a symbol and the table of
names of objects, and the selection of symbols in `after_run_cell`
(`shell/interactiveshell.py` 682-693, `flow.py` 592-594, 616-618).

Simplified: objects are numbers and no number is used twice; symbols are numbers; the
namespaces of objects are not moved (`data_model/symbol.py` 737-757); names are given
for global symbols and positions for symbols of elements of lists.
-/

namespace Verif.Resync
open Verif

/-- The fields of a symbol used here, `data_model/symbol.py` 119-139, 149-158: `home` is the
object in whose namespace the symbol is, `pos` its name there. -/
structure Sym where
  name : Nat
  isGlobal : Bool
  obj : Nat
  cached : Option Nat
  isVirtual : Bool
  home : Option Nat
  pos : Nat
  cell : Nat

/-- Symbols, `flow().aliases` (`flow.py` 182), and `_subscript_symbol_by_name` of the namespaces
(`data_model/namespace.py` 85). -/
structure St where
  sym : Nat → Sym
  names : Nat → List Nat
  sub : Nat → Nat → Option Nat

/-- The running program: the variables (`user_ns`), the elements of lists, and whether the
length of an object is another than when it was last looked at, `data_model/symbol.py` 1408,
1430, 1439. -/
structure World where
  var : Nat → Option Nat
  elems : Nat → Option (List Nat)
  grown : Nat → Bool

/-- `cleanup_discard`, `utils/misc_utils.py` 12-16. -/
def discard (st : St) (o : Option Nat) (s : Nat) : St :=
  { st with names := fun k => if some k = o then (st.names k).filter (· ≠ s) else st.names k }

/-- `aliases.setdefault(id, set()).add(self)`, `data_model/symbol.py` 794. -/
def add (st : St) (o s : Nat) : St :=
  { st with names := fun k => if k = o then (if s ∈ st.names k then st.names k else st.names k ++ [s])
      else st.names k }

/-- Assignment to fields of a symbol, as in `data_model/symbol.py` 735, 1432. -/
def modify (st : St) (s : Nat) (f : Sym → Sym) : St :=
  { st with sym := fun k => if k = s then f (st.sym k) else st.sym k }

/-- `_handle_aliases`, `data_model/symbol.py` 792-794, if the object differs from the one last
looked at, 736. -/
def relist (st : St) (s o : Nat) : St :=
  if (st.sym s).cached ≠ none ∧ (st.sym s).cached ≠ some o then
    add (discard st (st.sym s).cached s) o s
  else st

/-- `update_obj_ref`, `data_model/symbol.py` 735-736, 750, 757-758. -/
def updateObjRef (st : St) (s o : Nat) : St :=
  modify (relist st s o) s fun y => { y with obj := o, cached := some o }

/-- `_subscript_symbol_by_name` changed at one place, `data_model/symbol.py` 1431, 1434. -/
def setSub (st : St) (h k : Nat) (v : Option Nat) : St :=
  { st with sub := fun h' k' => if h' = h ∧ k' = k then v else st.sub h' k' }

/-- The body of the loop over other names of the old object, `data_model/symbol.py` 1420-1434;
`containing_obj[-1]` of an empty list raises. -/
def moveOne (w : World) (o : Nat) (st : St) (a : Nat) : Except Err St :=
  let y := st.sym a
  if y.isVirtual then .ok st
  else match y.home with
    | none => .ok st
    | some h => match w.elems h with
      | none => .ok st
      | some l => match l.getLast? with
        | none => .error .crash
        | some e =>
          if e = o then
            let st := setSub st h y.pos none
            let st := modify st a fun y => { y with pos := l.length - 1 }
            let st := updateObjRef st a o
            .ok (setSub st h (l.length - 1) (some a))
          else .ok st

/-- The loop, `data_model/symbol.py` 1420-1434. -/
def moveAll (w : World) (o : Nat) : St → List Nat → Except Err St
  | st, [] => .ok st
  | st, a :: as => match moveOne w o st a with
    | .error e => .error e
    | .ok st => moveAll w o st as

/-- The names that are looked at, `data_model/symbol.py` 1414-1419. -/
def toCheck (st : St) (s o : Nat) : List Nat :=
  if st.names o = [] then
    (match (st.sym s).cached with
      | none => []
      | some c => st.names c) ++
    (st.names (st.sym s).obj).filter fun a =>
      match (st.sym s).cached with
      | none => true
      | some c => !(st.names c).contains a
  else []

/-- The symbol becomes a name of the new object, `data_model/symbol.py` 1435-1438. -/
def rebind (st : St) (s o : Nat) : St :=
  updateObjRef (add (discard (discard st (st.sym s).cached s) (some (st.sym s).obj) s) o s) s o

/-- `resync_if_necessary`, `data_model/symbol.py` 1404-1444, without `refresh`. -/
def resync (w : World) (st : St) (s : Nat) : Except Err St :=
  let y := st.sym s
  if y.isGlobal then
    match w.var y.name with
    | none => .ok st
    | some o =>
      if y.obj ≠ o then
        match moveAll w o st (toCheck st s o) with
        | .error e => .error e
        | .ok st => .ok (rebind st s o)
      else if w.grown y.obj then .ok (modify st s fun y => { y with cached := some y.obj })
      else .ok st
  else .ok st

/-- `_resync_symbols`, `flow.py` 592-594. -/
def resyncAll (w : World) : St → List Nat → Except Err St
  | st, [] => .ok st
  | st, s :: ss => match resync w st s with
    | .error e => .error e
    | .ok st => resyncAll w st ss

/-- `after_run_cell`, `shell/interactiveshell.py` 682-693, for cell number `now`, where `all` are
the symbols (`all_symbols`, `flow.py` 616-618). -/
def afterRun (w : World) (now : Nat) (all : List Nat) (st : St) : Except Err St :=
  resyncAll w st (all.filter fun s => (st.sym s).cell = now)

end Verif.Resync
