import Verif.Base.Dfs
import Verif.Base.Assoc
import Verif.Chain.Model

/-!
# Assigning to parts of objects

Models what is recorded when `e.a` or `e[i]` is assigned to: `resolve_store_data_for_target`,
`core/ipyflow/tracing/ipyflow_tracer.py` 544-606, `get_earliest_ancestor_containing` and
`all_symbols_this_indentation`, `core/ipyflow/data_model/namespace.py` 331-377, the upsert in
`core/ipyflow/data_model/statement.py` 389-406 and 654-667, `_upsert_symbol_for_name_inner`,
`core/ipyflow/data_model/scope.py` 385-460, and what `update_obj_ref` does to namespaces,
`core/ipyflow/data_model/symbol.py` 735-751.

Which object and which part a target is, is worked out by `attrsub_tracer` (see `Chain`); this comes with the
targets. Namespaces are identified with their objects, as in `Chain`. A name of a namespace is the part that it
is, and paths are lists of names instead of strings. Left out: the table of aliases and the marks for unused
namespaces (see `Rebind`), the names of anonymous namespaces (`statement.py` 418-422), timestamps and the
propagation of changes (see `Propagate`), columns of data frames (`statement.py` 374-388).
-/

namespace Verif.Place
open Verif Verif.Chain

/-- Python objects as they are after the statement. `get` is `obj.a` or `obj[i]`; `table` says whether the object is
a `dict` or a `list` (`ipyflow_tracer.py` 581), `len` is the length of a `Sequence`, `nil` is `None`. -/
structure World (O : Type) where
  get : O → Key → Option O
  table : O → Bool
  len : O → Option Nat
  nil : O

/-- What is recorded. `parent` is `namespace_parent_scope` (`namespace.py` 379-383), `nm` the name of a namespace
(`scope_name`), the rest as in `Chain`. `deps` are the symbols that a symbol was computed from. -/
structure St (O : Type) where
  tab : O → List (Key × Nat)
  obj : Nat → O
  next : Nat
  made : O → Bool
  base : O → Option O
  parent : O → Option O
  nm : O → Key
  deps : Nat → List Nat

variable {O : Type} [DecidableEq O]

/-- `is_subscript`, `ipyflow_tracer.py` 943. -/
def isSub : Key → Bool
  | .attr _ => false
  | .sub _ => true

/-- Some symbol of the tables of `o` itself has the object `v`: `namespace.py` 370-373 with the tables of 334-343. -/
def owns (s : St O) (o : O) (b : Bool) (v : O) : Bool :=
  (s.tab o).any fun e => decide (isSub e.1 = b ∧ s.obj e.2 = v)

/-- The same for both tables of the class, `namespace.py` 344-347. Classes of classes are left out. -/
def classOwns (s : St O) (o : O) (v : O) : Bool :=
  match s.base o with
  | none => false
  | some c => (s.tab c).any fun e => decide (s.obj e.2 = v)

/-- `get_earliest_ancestor_containing`, `namespace.py` 360-377. `n` is how deep Python lets calls nest; beyond that
there is a `RecursionError`. -/
def earliest (s : St O) (b : Bool) (v : O) : Nat → O → Except Err (Option O)
  | 0, _ => .error .fuel
  | n + 1, o =>
    let self := if owns s o b v || classOwns s o v then some o else none
    match s.parent o with
    | none => .ok self
    | some p =>
      match earliest s b v n p with
      | .error e => .error e
      | .ok (some r) => .ok (some r)
      | .ok none => .ok self

/-- `full_namespace_path`, `scope.py` 493-507. -/
def path (s : St O) : Nat → O → Except Err (List Key)
  | 0, _ => .error .fuel
  | n + 1, o =>
    match s.parent o with
    | none => .ok [s.nm o]
    | some p =>
      match path s n p with
      | .error e => .error e
      | .ok l => .ok (l ++ [s.nm o])

/-- The parts of `c` that `v` has as well, `namespace.py` 391-423. -/
def shared (w : World O) (s : St O) (c v : O) : List (Key × Nat) := (s.tab c).filter fun e => (w.get v e.1).isSome

/-- `fresh_copy` and `transfer_symbols_to`, `namespace.py` 221-227, 391-423, for an object `v` without a namespace: the
symbols of the parts that `v` has as well go to `v`. The same for parts of parts is left out. -/
def transfer (w : World O) (s : St O) (c v : O) : St O :=
  { s with
    tab := put (put s.tab c ((s.tab c).filter fun e => (w.get v e.1).isNone)) v (shared w s c v)
    obj := fun a =>
      match (shared w s c v).find? (fun e => e.2 = a) with
      | some e => (w.get v e.1).getD (s.obj a)
      | none => s.obj a
    made := put s.made v true
    base := put s.base v none
    parent := put s.parent v (s.parent c)
    nm := put s.nm v (s.nm c) }

/-- `symbol.py` 744-750. -/
def renew (w : World O) (s : St O) (c v : O) : St O :=
  if s.made v then { s with parent := put s.parent v (s.parent c), nm := put s.nm v (s.nm c) } else transfer w s c v

/-- `update_obj_ref`, `symbol.py` 735-751, for the symbol `a` of part `k` of `o`. The object it had before is the one
with `cached_obj_id`. -/
def rebind (w : World O) (s : St O) (n : Nat) (a : Nat) (o : O) (k : Key) (v : O) : Except Err (St O) :=
  let c := s.obj a
  let s' := { s with obj := put s.obj a v }
  if c = v then .ok s'
  else if s.made c then
    match path s n c with
    | .error e => .error e
    | .ok p =>
      match path s n o with
      | .error e => .error e
      | .ok q => .ok (if p = q ++ [k] then renew w s' c v else s')
  else .ok s'

/-- `namespace.py` 222-224: where an element with a negative index is also looked for. -/
def other (w : World O) (o : O) : Key → Option Key
  | .sub (.int i) => if i < 0 then (w.len o).map (fun n => .sub (.int (n + i))) else none
  | _ => none

/-- `scope.py` 398-402, 436: a symbol found under another index. -/
def twin (w : World O) (s : St O) (o : O) (k : Key) : List Nat :=
  match other w o k with
  | none => []
  | some k' => (Assoc.get (s.tab o) k').toList

/-- `scope.py` 437-448: the symbol of the class. -/
def classSym (s : St O) (o : O) : Key → List Nat
  | .sub _ => []
  | .attr a =>
    match s.base o with
    | none => []
    | some c => (Assoc.get (s.tab c) (.attr a)).toList

/-- `symbol.py` 1044-1047: what there was is forgotten unless the symbol is among the new ones or they depend on it. -/
def forgets (s : St O) (a : Nat) (ds : List Nat) (over : Bool) : Bool :=
  over && decide (a ∉ ds) && ds.all fun d => decide (a ∉ s.deps d)

/-- `update_deps`, `symbol.py` 1044-1059, as far as it says what the symbol depends on (more in `Edges`). The symbol
that stands for changes of an object (1065-1079) is left out. -/
def redep (s : St O) (a : Nat) (ds : List Nat) (over : Bool) : St O :=
  { s with deps := put s.deps a (((if forgets s a ds over then [] else s.deps a) ++ ds).filter fun d => d ≠ a) }

/-- A new symbol, `scope.py` 449-460. -/
def create (w : World O) (s : St O) (o : O) (k : Key) (v : O) (ds : List Nat) : St O :=
  { s with
    tab := put s.tab o (Assoc.set (s.tab o) k s.next)
    obj := put s.obj s.next v
    next := s.next + 1
    deps := put s.deps s.next (ds ++ twin w s o k ++ classSym s o k) }

/-- `upsert_symbol_for_name`, `scope.py` 282-345, 385-460. -/
def upsert (w : World O) (s : St O) (n : Nat) (o : O) (k : Key) (v : O) (ds : List Nat) (over : Bool) : Except Err (St O) :=
  match Assoc.get (s.tab o) k with
  | none => .ok (create w s o k v ds)
  | some a =>
    match rebind w s n a o k v with
    | .error e => .error e
    | .ok s' => .ok (redep s' a ds over)

/-- A target: part `k` of `o`, the symbols that the value was computed from, and those of the variables in the index
(`node_id_to_saved_live_subscript_refs`, `ipyflow_tracer.py` 887-893). -/
structure Leaf (O : Type) where
  o : O
  k : Key
  deps : List Nat
  idx : List Nat

/-- The object that is recorded, `ipyflow_tracer.py` 581-593. `rhs` is `saved_assign_rhs_obj`: the value of the right side
of `=`, and `None` for `+=` (no event, see `core/test/test_trace_events.py` 537-569). `off`: tracing has been
switched off in the meantime. -/
def value (w : World O) (off : Bool) (rhs : O) (o : O) (k : Key) : Except Err O :=
  if w.table o = true ∧ (off = false ∨ rhs ≠ w.nil) then .ok rhs
  else match w.get o k with
    | none => .error .crash
    | some v => .ok v

/-- The namespace where it is recorded, `ipyflow_tracer.py` 594-602. -/
def place (w : World O) (s : St O) (n : Nat) (o : O) (k : Key) (v : O) : Except Err O :=
  if v = w.nil then .ok o
  else match earliest s (isSub k) v n o with
    | .error e => .error e
    | .ok r => .ok (r.getD o)

/-- One target, `statement.py` 342-406, 642-667. -/
def record (w : World O) (n : Nat) (off : Bool) (rhs : O) (over : Bool) (s : St O) (l : Leaf O) : Except Err (St O) :=
  match value w off rhs l.o l.k with
  | .error e => .error e
  | .ok v =>
    match place w s n l.o l.k v with
    | .error e => .error e
    | .ok r => upsert w s n r l.k v (l.deps.filter fun d => d ∉ l.idx) over

/-- All targets, `statement.py` 424-438, 571-574, 611-667. An error leaves the rest unrecorded. -/
def statement (w : World O) (n : Nat) (off : Bool) (rhs : O) (over : Bool) : St O → List (Leaf O) → Except Err (St O)
  | s, [] => .ok s
  | s, l :: ls =>
    match record w n off rhs over s l with
    | .error e => .error e
    | .ok s' => statement w n off rhs over s' ls

end Verif.Place
