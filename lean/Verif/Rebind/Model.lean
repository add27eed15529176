import Verif.Base.Dfs
import Verif.Base.Assoc

/-!
# A variable is given another object: what is known about the parts of the old one

Modelled: `update_obj_ref` (`data_model/symbol.py` 735-758) with the treatment of namespaces,
`_handle_aliases` (792-794), `transfer_symbols_to` (`data_model/namespace.py` 391-423), `fresh_copy`
(221-227), `mark_garbage` (162-167, the mark only) and `retrieve_namespace_attr_or_sub`
(`flow.py` 650-672).

Simplified: objects, symbols and names of parts are numbers, and no number is used twice for
objects; the parts that are moved do not have namespaces of their own (the recursion in 408 and
421 is one level deep); what observers of widgets and type checks do (711-733) is left out.
-/

namespace Verif.Rebind
open Verif

/-- What looking up a part of an object comes to, `flow.py` 650-672: an object, or one of the
exceptions told apart in `data_model/namespace.py` 398-401, 415-418. `missAttr` is
`AttributeError`, `missItem` is `IndexError` or `KeyError`. -/
inductive Res where
  | val (o : Nat)
  | missAttr
  | missItem
  | typeErr
  | other
  deriving DecidableEq

/-- An object as far as it is looked at: `getattr`, `obj[…]`, and whether it is a `defaultdict`,
`flow.py` 658-665. -/
structure Obj where
  attr : Nat → Res
  item : Nat → Res
  defaultdict : Bool

/-- The fields of a symbol used here, `data_model/symbol.py` 119-139: `path` is
`full_namespace_path`, `home` the object in whose namespace it is (`containing_scope`). -/
structure Sym where
  path : List Nat
  obj : Nat
  cached : Option Nat
  home : Option Nat
  deriving DecidableEq

/-- Symbols, `flow().aliases` (`flow.py` 182), and `flow().namespaces` (`flow.py` 181): `path` is
`full_namespace_path` of the namespace of an object (`none`: it has none), `tab` its two tables
(`data_model/namespace.py` 85 and `data_model/scope.py` 45; `true` is for subscripts), `dead`
its `_tombstone`. -/
structure St where
  sym : Nat → Sym
  names : Nat → List Nat
  path : Nat → Option (List Nat)
  tab : Nat → Bool → List (Nat × Nat)
  dead : Nat → Bool

/-- `retrieve_namespace_attr_or_sub`, `flow.py` 650-672. -/
def retrieve (w : Nat → Obj) (o k : Nat) (sub : Bool) : Res :=
  if sub then (if (w o).defaultdict then .typeErr else (w o).item k) else (w o).attr k

/-- `_handle_aliases`, `data_model/symbol.py` 792-794: `cleanup_discard` and `add`. -/
def rename (names : Nat → List Nat) (c o s : Nat) : Nat → List Nat := fun k =>
  let l := if k = c then (names k).filter (· ≠ s) else names k
  if k = o then (if s ∈ l then l else l ++ [s]) else l

/-- `update_obj_ref` of a part, `data_model/symbol.py` 735-736, 750, 757-758. -/
def updatePart (st : St) (s o : Nat) : St :=
  { st with
    names := match (st.sym s).cached with
      | none => st.names
      | some c => if c = o then st.names else rename st.names c o s
    sym := fun i => if i = s then { st.sym s with obj := o, cached := some o } else st.sym i }

/-- A part goes from the namespace of `c` to the one of `n`, `data_model/namespace.py` 402-406,
419-423. -/
def movePart (st : St) (c n : Nat) (sub : Bool) (k s o : Nat) : St :=
  let st := updatePart st s o
  { st with
    tab := fun i b =>
      if b = sub then
        (if i = n then Assoc.set (st.tab n sub) k s
         else if i = c then Assoc.erase (st.tab c sub) k
         else st.tab i b)
      else st.tab i b
    sym := fun i => if i = s then { st.sym s with home := some n } else st.sym i }

/-- One of the two loops of `transfer_symbols_to`, `data_model/namespace.py` 392-406 and 407-423:
`AttributeError` is passed over for attributes, `IndexError` and `KeyError` for subscripts,
`TypeError` ends the loop, everything else is an error. -/
def moveTable (w : Nat → Obj) (c n : Nat) (sub : Bool) : St → List (Nat × Nat) → Except Err St
  | st, [] => .ok st
  | st, (k, s) :: l => match retrieve w n k sub with
    | .val o => moveTable w c n sub (movePart st c n sub k s o) l
    | .missAttr => if sub then .error .crash else moveTable w c n sub st l
    | .missItem => if sub then moveTable w c n sub st l else .error .crash
    | .typeErr => .ok st
    | .other => .error .crash

/-- `transfer_symbols_to`, `data_model/namespace.py` 391-423. -/
def transfer (w : Nat → Obj) (c n : Nat) (st : St) : Except Err St :=
  match moveTable w c n false st (st.tab c false) with
  | .error e => .error e
  | .ok st => moveTable w c n true st (st.tab c true)

/-- `fresh_copy`, `data_model/namespace.py` 221-227, 58-87: an empty namespace for `n` with the
name of the one of `c`. -/
def fresh (st : St) (c n : Nat) : St :=
  { st with
    path := fun i => if i = n then st.path c else st.path i
    tab := fun i b => if i = n then [] else st.tab i b
    dead := fun i => if i = n then false else st.dead i }

/-- The namespaces when a symbol with the path `p` goes from object `c` to `n`,
`data_model/symbol.py` 737-749. -/
def renewNs (w : Nat → Obj) (st : St) (p : List Nat) (c n : Nat) : Except Err St :=
  if st.path c = some p then
    match st.path n with
    | none => transfer w c n (fresh st c n)
    | some _ => .ok { st with path := fun i => if i = n then st.path c else st.path i }
  else .ok st

/-- `_handle_aliases`, the mark for namespaces of objects without a name, and the new object,
`data_model/symbol.py` 750-758; `old` says whether the old object had a namespace (739). -/
def settle (st : St) (x c n : Nat) (old : Bool) : St :=
  let names := rename st.names c n x
  { st with
    names := names
    dead := fun i => if i = c ∧ old ∧ names c = [] then true else st.dead i
    sym := fun i => if i = x then { st.sym x with obj := n, cached := some n } else st.sym i }

/-- `update_obj_ref`, `data_model/symbol.py` 735-758. -/
def rebind (w : Nat → Obj) (st : St) (x n : Nat) : Except Err St :=
  match (st.sym x).cached with
  | none => .ok { st with sym := fun i => if i = x then { st.sym x with obj := n, cached := some n } else st.sym i }
  | some c =>
    if c = n then
      .ok { st with sym := fun i => if i = x then { st.sym x with obj := n, cached := some n } else st.sym i }
    else match renewNs w st (st.sym x).path c n with
      | .error e => .error e
      | .ok st' => .ok (settle st' x c n (st.path c).isSome)

end Verif.Rebind
