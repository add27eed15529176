import Mathlib.Data.List.Basic
import Mathlib.Data.Finset.Basic
import Verif.Base.Dfs

/-! # Staleness propagation: model

`data_model/utils/update_protocol.py`. Symbols, objects and namespaces are numbers (a namespace is known by its object).
Python recursion is unbounded here, see `Verif.Base.Dfs`: recursion depth is passed as fuel and exhausting it is the separate
outcome `Err.fuel`. What is noted about cell counters and timestamps of namespaces is not modelled. -/

namespace Verif.Propagate
open Verif

/-- What propagation reads but does not change. -/
structure Graph where
  /-- `children`, in the order of the dictionary, `data_model/symbol.py` 144. -/
  children : Nat → List Nat
  /-- `obj_id` of a symbol, `data_model/symbol.py` 596-602. -/
  obj : Nat → Nat
  /-- `flow().aliases`: the symbols listed for an object. -/
  aliases : Nat → List Nat
  /-- `containing_namespace`, `data_model/symbol.py` 607-612. -/
  cont : Nat → Option Nat
  /-- `is_module` of a namespace. -/
  nsModule : Nat → Bool
  /-- `all_symbols_this_indentation()` of the namespace of an object, if there is one, `data_model/namespace.py` 330-346. -/
  members : Nat → List Nat
  /-- The same with `exclude_class=True`. -/
  ownMembers : Nat → List Nat
  /-- The object of `namespace.cloned_from` for the symbol, `update_protocol.py` 165-167. -/
  cloned : Nat → Option Nat
  /-- `is_import`, `data_model/symbol.py` 445-447. -/
  isImport : Nat → Bool
  /-- `is_module`, `data_model/symbol.py` 449-451. -/
  isModule : Nat → Bool
  /-- `disable_warnings`, `data_model/symbol.py` 1001. -/
  disabled : Nat → Bool

/-- What propagation changes: `seen` (in order of insertion), the symbols whose `required_timestamp` is set, the pairs of a
namespace and a member of its `namespace_waiting_symbols`. `ran` lists the symbols for which `_propagate_waiting_to_deps`
got past its test; the code has no such list, it is used to state properties. -/
structure St where
  seen : List Nat
  marked : Finset Nat
  nsw : Finset (Nat × Nat)
  ran : List Nat

/-- `self.seen.add(sym)`. -/
def St.see (st : St) (s : Nat) : St := if s ∈ st.seen then st else { st with seen := st.seen ++ [s] }

/-- `_non_class_to_instance_children`, `update_protocol.py` 156-169; `u` is the updated symbol. -/
def kids (G : Graph) (u s : Nat) : List Nat :=
  if u = s then G.children s else (G.children s).filter (fun c => G.cloned c ≠ some (G.obj s))

/-- The aliases of the containing namespace of a symbol that `_propagate_waiting_to_namespace_parents` goes over,
`update_protocol.py` 139-145, 148. -/
def holders (G : Graph) (s : Nat) : List Nat :=
  match G.cont s with
  | none => []
  | some o => if G.nsModule o then [] else G.aliases o

/-- `containing_ns.namespace_waiting_symbols.add(sym)`, `update_protocol.py` 140-143. -/
def noteWaiting (G : Graph) (s : Nat) (st : St) : St :=
  match G.cont s with
  | none => st
  | some o => if G.nsModule o then st else { st with nsw := insert (o, s) st.nsw }

/-- The three functions that call each other. -/
inductive Fn where
  | deps
  | parents
  | children
  deriving DecidableEq

/-- `sym.should_mark_waiting(self.updated_sym)` and the two tests before, `update_protocol.py` 190-194,
`data_model/symbol.py` 1000-1005; `upd` is `flow().updated_symbols | tracer().this_stmt_updated_symbols`. -/
def eligible (G : Graph) (u : Nat) (upd : Finset Nat) (s : Nat) : Bool :=
  !decide (s ∈ upd) && !G.disabled s && !decide (u = s)

/-- Lines 195-197 of `update_protocol.py`. -/
def St.mark (st : St) (s : Nat) : St := { st with marked := insert s st.marked }

/-- Record of a run of `_propagate_waiting_to_deps` past its test. -/
def St.run (st : St) (s : Nat) : St := { st with ran := st.ran ++ [s] }

/-- `_propagate_waiting_to_deps`, `_propagate_waiting_to_namespace_parents` and `_propagate_waiting_to_namespace_children`,
`update_protocol.py` 133-154, 171-202. -/
def go (G : Graph) (u : Nat) (upd : Finset Nat) : Nat → Fn → Bool → Nat → St → Except Err St
  | 0, _, _, _, _ => .error .fuel
  | n + 1, f, skip, s, st =>
    if skip = false ∧ s ∈ st.seen then .ok st
    else match f with
      | .parents =>
        match (holders G s).foldlM (fun st a => go G u upd n .parents false a st) (noteWaiting G s (st.see s)) with
        | .error e => .error e
        | .ok st1 =>
          (holders G s).foldlM
            (fun st a => (kids G u a).foldlM (fun st c => go G u upd n .deps false c st) st) st1
      | .children => (G.ownMembers (G.obj s)).foldlM (fun st c => go G u upd n .deps false c st) (st.see s)
      | .deps =>
        let st0 := (st.see s).run s
        let r : Except Err St :=
          if eligible G u upd s then
            match go G u upd n .parents true s (st0.mark s) with
            | .error e => .error e
            | .ok st1 => go G u upd n .children true s st1
          else .ok st0
        match r with
        | .error e => .error e
        | .ok st1 => (kids G u s).foldlM (fun st c => go G u upd n .deps false c st) st1

/-- The aliases of the containing namespace that `_collect_updated_symbols_and_refresh_namespaces` goes over,
`update_protocol.py` 111-124. -/
def upward (G : Graph) (s : Nat) : List Nat :=
  if G.isModule s then []
  else match G.cont s with
    | none => []
    | some o => G.aliases o

/-- Lines 107-108 and 120 of `update_protocol.py`. -/
def St.fresh (G : Graph) (st : St) (s : Nat) : St :=
  { st with
    seen := st.seen ++ [s]
    marked := st.marked.erase s
    nsw := if G.isModule s then st.nsw else match G.cont s with
      | none => st.nsw
      | some o => st.nsw.erase (o, s) }

/-- One pass of the loop of `_collect_updated_symbols_and_refresh_namespaces`, `update_protocol.py` 101-131. -/
def collect (G : Graph) (desc : Bool) : Nat → Nat → St → Except Err St
  | 0, _, _ => .error .fuel
  | n + 1, s, st =>
    if G.isImport s = true ∨ s ∈ st.seen then .ok st
    else match (upward G s).foldlM (fun st a => collect G desc n a st) (st.fresh G s) with
      | .error e => .error e
      | .ok st1 =>
        if desc then (G.members (G.obj s)).foldlM (fun st c => collect G desc n c st) st1 else .ok st1

/-- `__call__`, `update_protocol.py` 40-66. `direct` are the directly updated symbols, `D` the new dependencies, `upd` the
symbols updated before by this statement or cell, `ord` the order in which the set of line 65 is gone through. -/
def call (G : Graph) (n u : Nat) (direct D : List Nat) (desc : Bool) (upd : Finset Nat) (ord : List Nat → List Nat)
    (st : St) : Except Err (List Nat × St) :=
  match direct.foldlM (fun st s => collect G desc n s st) { st with seen := [], ran := [] } with
  | .error e => .error e
  | .ok st1 =>
    match (ord st1.seen).foldlM (fun st s => go G u (upd ∪ st1.seen.toFinset) n .deps true s st)
        (D.foldl St.see st1) with
    | .error e => .error e
    | .ok st2 => .ok (st1.seen, st2)

/-- The symbol is waiting after all: its own mark is set or its namespace has waiting members,
`data_model/symbol.py` 936-946 (with the default `min_timestamp`, and taking the last update of a marked symbol to be in an
earlier cell). -/
def Waiting (G : Graph) (st : St) (s : Nat) : Prop :=
  G.disabled s = false ∧ (s ∈ st.marked ∨ ∃ z, (G.obj s, z) ∈ st.nsw)

end Verif.Propagate
