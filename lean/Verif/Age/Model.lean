import Verif.Base.Dfs
import Mathlib.Order.Defs.LinearOrder

/-!
# How new objects are

Models `timestamp`, `refresh` and the part of `update_deps` that concerns versions (`core/ipyflow/data_model/symbol.py` 294-321, 792-794, 1080-1110, 1344-1403)
and `UpdateProtocol.__call__` and `_collect_updated_symbols_and_refresh_namespaces` (`core/ipyflow/data_model/utils/update_protocol.py` 23-63, 95-131), as far as they
set versions. Versions are of an arbitrary linearly ordered type; symbols and objects are of arbitrary types. Left out: versions overridden by widgets, symbols that
have no version of their own yet (`_get_initialized_timestamp`), snapshots, and what else these functions do (`Verif.Propagate`). -/

namespace Verif.Age

variable {S O T : Type} [DecidableEq S] [DecidableEq O] [LinearOrder T]

/-- What does not change here. -/
structure Heap (S O : Type) where
  /-- the object whose namespace holds the symbol: `containing_namespace`; `none` for variables -/
  holder : S → Option O
  /-- there is a namespace for the object: `flow().namespaces` -/
  hasNs : O → Bool
  isImport : S → Bool
  isModule : S → Bool
  /-- `all_symbols_this_indentation(exclude_class=True)`, `namespace.py` 330-346 -/
  own : O → List S
  /-- `all_symbols_this_indentation()` -/
  members : O → List S
  /-- the name is not `__class__`, `symbol.py` 1398 -/
  rest : S → Bool
  /-- `_maybe_get_duped_attrsub_updated_syms`, `update_protocol.py` 68-93: attribute and element of the same name, for data frames and the like -/
  dup : S → List S

/-- What changes: the objects of the symbols, `flow().aliases`, `_timestamp` and `max_descendent_timestamp`. -/
structure St (S O T : Type) where
  obj : S → O
  aliases : O → List S
  ts : S → T
  md : O → T

/-- `timestamp`, `symbol.py` 315-321. -/
def deep (H : Heap S O) (st : St S O T) (s : S) : T :=
  if H.isImport s || H.isModule s then st.ts s
  else if H.hasNs (st.obj s) then max (st.ts s) (st.md (st.obj s)) else st.ts s

/-- `_handle_aliases`, 792-794, after the object was exchanged. -/
def relink (st : St S O T) (s : S) (o : O) : St S O T :=
  { st with
    obj := fun q => if q = s then o else st.obj q
    aliases := fun o' =>
      let l := if o' = st.obj s then (st.aliases o').filter (fun q => decide (q ≠ s)) else st.aliases o'
      if o' = o ∧ s ∉ l then l ++ [s] else l }

/-- `refresh` without descendents, 1351-1370. -/
def bump (H : Heap S O) (now : T) (s : S) (st : St S O T) : St S O T :=
  { st with
    ts := fun q => if q = s then now else st.ts q
    md := fun o => if H.holder s = some o then max (st.md o) now else st.md o }

/-- `refresh`, 1344-1403. -/
def refresh (H : Heap S O) (now : T) : Nat → Bool → S → St S O T × List S → Except Err (St S O T × List S)
  | 0, _, _, _ => .error .fuel
  | n + 1, desc, s, x =>
    if s ∈ x.2 then .ok x
    else if desc then
      if H.hasNs (x.1.obj s) then (H.own (x.1.obj s)).foldlM (fun x m => refresh H now n (H.rest m) m x) (bump H now s x.1, x.2 ++ [s])
      else .ok (bump H now s x.1, x.2 ++ [s])
    else .ok (bump H now s x.1, x.2)

/-- Line 120 of `update_protocol.py`. -/
def stamp (now : T) (o : O) (st : St S O T) : St S O T := { st with md := fun o' => if o' = o then now else st.md o' }

/-- The first half of a turn of the loop, 107-124; `self` is the recursive call. -/
def climb (H : Heap S O) (now : T) (self : St S O T × List S → S → Except Err (St S O T × List S)) (s : S) (x : St S O T × List S) :
    Except Err (St S O T × List S) :=
  match (if H.isModule s then none else H.holder s) with
  | none => .ok (x.1, x.2 ++ [s])
  | some o => (x.1.aliases o).foldlM self (stamp now o x.1, x.2 ++ [s])

/-- One turn of the loop of `_collect_updated_symbols_and_refresh_namespaces`, `update_protocol.py` 104-131. -/
def collect (H : Heap S O) (now : T) (desc : Bool) : Nat → S → St S O T × List S → Except Err (St S O T × List S)
  | 0, _, _ => .error .fuel
  | n + 1, s, x =>
    if H.isImport s || decide (s ∈ x.2) then .ok x
    else
      match climb H now (fun x a => collect H now desc n a x) s x with
      | .error e => .error e
      | .ok x1 =>
        if desc && H.hasNs (x1.1.obj s) then (H.members (x1.1.obj s)).foldlM (fun x a => collect H now desc n a x) x1 else .ok x1

/-- A call of `update_deps`. -/
structure Upd (S O T : Type) where
  sym : S
  /-- the object the symbol has from now on, if it changes -/
  target : Option O
  mutated : Bool
  /-- `propagate_to_namespace_descendents` -/
  descend : Bool
  /-- `propagate`, after line 1082 -/
  propagate : Bool
  refresh : Bool
  /-- `_is_underscore_or_simple_assign` -/
  simple : Bool
  /-- symbols that are waiting, `update_protocol.py` 62 -/
  waiting : S → Bool
  now : T

/-- `a | b` for sets. -/
def union (a b : List S) : List S := a ++ b.filter (fun q => decide (q ∉ a))

/-- `directly_updated_symbols`, `update_protocol.py` 40-43. -/
def direct (H : Heap S O) (e : Upd S O T) (st : St S O T) : List S :=
  union (if e.mutated then st.aliases (st.obj e.sym) else [e.sym]) (H.dup e.sym)

/-- `directly_updated_symbols |= ..` changes the set in the table if that is what the name stands for, 40-43. -/
def pollute (H : Heap S O) (e : Upd S O T) (st : St S O T) : St S O T :=
  if e.mutated then { st with aliases := fun o => if o = st.obj e.sym then direct H e st else st.aliases o } else st

/-- `refresh_descendent_namespaces`, `symbol.py` 1103-1105. -/
def deepRefresh (e : Upd S O T) : Bool := e.propagate && !(e.mutated && !e.descend) && !e.simple

/-- The loop of `update_protocol.py` 60-63. -/
def others (H : Heap S O) (e : Upd S O T) (l : List S) (st : St S O T) : St S O T :=
  l.foldl (fun st q => if !e.waiting q && decide (q ≠ e.sym) then bump H e.now q st else st) st

/-- `UpdateProtocol.__call__`, `update_protocol.py` 23-63. -/
def protocol (H : Heap S O) (n : Nat) (e : Upd S O T) (st : St S O T) : Except Err (St S O T) :=
  match (direct H e st).foldlM (fun x a => collect H e.now e.descend n a x) (pollute H e st, []) with
  | .error err => .error err
  | .ok x => .ok (if e.refresh then others H e (direct H e st) x.1 else x.1)

/-- The state when `update_deps` is called: `update_obj_ref` came first, `symbol.py` 711-758. -/
def start (e : Upd S O T) (st : St S O T) : St S O T :=
  match e.target with
  | none => st
  | some o => relink st e.sym o

/-- `update_deps`, `symbol.py` 1080-1110. -/
def update (H : Heap S O) (n : Nat) (e : Upd S O T) (st : St S O T) : Except Err (St S O T) :=
  match (if e.refresh then refresh H e.now n (deepRefresh e) e.sym (start e st, []) else .ok (start e st, [])) with
  | .error err => .error err
  | .ok x => if e.propagate then protocol H n e x.1 else .ok x.1

/-- A run: one update after the other. -/
def run (H : Heap S O) (n : Nat) (es : List (Upd S O T)) (st : St S O T) : Except Err (St S O T) :=
  es.foldlM (fun st e => update H n e st) st

end Verif.Age
