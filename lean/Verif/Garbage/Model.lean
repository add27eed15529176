import Verif.Base.Dfs
import Verif.Base.Assoc
import Verif.Chain.Model

/-!
# What becomes of objects that are not named any more

Models how symbols and namespaces are marked and collected: `mark_garbage` and `collect_self_garbage` of symbols
(`core/ipyflow/data_model/symbol.py` 670-698) and of namespaces (`core/ipyflow/data_model/namespace.py` 158-176), the
marking when a name is deleted (`core/ipyflow/data_model/scope.py` 442-449, `namespace.py` 313-328) or gets another object
(`symbol.py` 710-759), and `gc` (`core/ipyflow/flow.py` 630-648).

`tab none` is the table of the variables, `tab (some o)` the tables of the namespace of object `o`; keys of type `K` are names
of variables, attributes or elements. Left out: anonymous symbols (`flow.py` 638), `numpy` arrays (`symbol.py` 633-649), the transfer
of parts to a new object (see `Rebind`), the renumbering of lists (see `ListNs`), dependencies (see `Sym`).
-/

namespace Verif.Garbage
open Verif Verif.Chain

/-- Symbols, `flow().aliases` (`flow.py` 182) and `flow().namespaces` (`flow.py` 181). `home` and `key` say where a symbol
was entered (`containing_scope`, `name`), `obj` is `sym.obj` (`none` once collected), `tomb` the mark of symbols, `dead` the mark
of namespaces (`_tombstone`), `made` says that an object has a namespace. -/
structure St (O K : Type) where
  tab : Option O → List (K × Nat)
  home : Nat → Option O
  key : Nat → K
  obj : Nat → Option O
  names : O → List Nat
  tomb : Nat → Bool
  made : O → Bool
  dead : O → Bool
  next : Nat

variable {O K : Type} [DecidableEq O] [DecidableEq K]

/-- The symbols of the parts of an object, `all_symbols_this_indentation(exclude_class=True)`, `namespace.py` 330-347. -/
def parts (s : St O K) (o : O) : List Nat := (s.tab (some o)).map Prod.snd

/-- All names of the object are marked, `symbol.py` 679. -/
def nameless (s : St O K) (o : O) : Bool := (s.names o).all s.tomb

/-- `mark_garbage` of symbols and namespaces, `symbol.py` 674-680 and `namespace.py` 162-167: the list holds the symbols that remain to
be marked, in the order of the calls; `n` limits how long this goes on. -/
def mark : Nat → List Nat → St O K → Except Err (St O K)
  | _, [], s => .ok s
  | 0, _ :: _, _ => .error .fuel
  | n + 1, a :: l, s =>
    if s.tomb a then mark n l s
    else
      let s1 := { s with tomb := put s.tomb a true }
      match s.obj a with
      | none => mark n l s1
      | some o =>
        if s.made o && nameless s1 o && !s.dead o then mark n (parts s o ++ l) { s1 with dead := put s.dead o true }
        else mark n l s1

/-- `old_ns.mark_garbage()`, `symbol.py` 752-756, `namespace.py` 162-167. -/
def markNs (n : Nat) (s : St O K) (o : O) : Except Err (St O K) :=
  if s.made o && (s.names o).isEmpty && !s.dead o then mark n (parts s o) { s with dead := put s.dead o true } else .ok s

/-- A new symbol, `scope.py` 429-439 (`Symbol.__init__` adds it to the aliases, `symbol.py` 194). -/
def create (s : St O K) (h : Option O) (k : K) (o : O) : St O K :=
  { s with
    tab := put s.tab h (Assoc.set (s.tab h) k s.next)
    home := put s.home s.next h
    key := put s.key s.next k
    obj := put s.obj s.next (some o)
    names := put s.names o (s.names o ++ [s.next])
    tomb := put s.tomb s.next false
    next := s.next + 1 }

/-- `_handle_aliases`, `symbol.py` 792-794, and 725, 735. -/
def redirect (s : St O K) (a : Nat) (c o : O) : St O K :=
  let names := put s.names c ((s.names c).filter fun b => b ≠ a)
  { s with
    tomb := put s.tomb a false
    obj := put s.obj a (some o)
    names := put names o (names o ++ [a]) }

/-- The name `k` in the scope or namespace `h` is given the object `o`: `scope.py` 368-440, `symbol.py` 710-759. -/
def bind (n : Nat) (s : St O K) (h : Option O) (k : K) (o : O) : Except Err (St O K) :=
  match Assoc.get (s.tab h) k with
  | none => .ok (create s h k o)
  | some a =>
    match s.obj a with
    | none => .ok s
    | some c => if c = o then .ok { s with tomb := put s.tomb a false } else markNs n (redirect s a c o) c

/-- `del`, `scope.py` 442-449, and for elements `namespace.py` 313-328, where nothing is marked. -/
def delete (n : Nat) (s : St O K) (h : Option O) (k : K) (sub : Bool) : Except Err (St O K) :=
  match Assoc.get (s.tab h) k with
  | none => .ok s
  | some a =>
    let s1 := { s with tab := put s.tab h (Assoc.erase (s.tab h) k) }
    if sub then .ok s1 else mark n [a] s1

/-- A namespace is made for an object, `core/ipyflow/tracing/ipyflow_tracer.py` 642-661, 674. -/
def openNs (s : St O K) (o : O) : St O K :=
  if s.made o then s else { s with made := put s.made o true, dead := put s.dead o false }

/-- `collect_self_garbage` of a symbol, `symbol.py` 670-672, 682-695. -/
def collect (s : St O K) (a : Nat) : St O K :=
  match s.obj a with
  | none => s
  | some o =>
    { s with
      names := put s.names o ((s.names o).filter fun b => b ≠ a)
      obj := put s.obj a none
      tab := put s.tab (s.home a) (Assoc.erase (s.tab (s.home a)) (s.key a)) }

/-- The symbols collected, `flow.py` 640. -/
def garbage (s : St O K) : List Nat := (List.range s.next).filter fun a => s.tomb a && (s.obj a).isSome

/-- The namespaces collected or unmarked, `flow.py` 643-648, `namespace.py` 172-175. -/
def sweep (s : St O K) : St O K :=
  { s with
    made := fun o => s.made o && !(s.dead o && (s.tab (some o)).isEmpty)
    dead := fun _ => false }

/-- `gc`, `flow.py` 630-648. -/
def gc (s : St O K) : St O K := sweep ((garbage s).foldl collect s)

/-- What a notebook does to names. -/
inductive Op (O K : Type) where
  | bind (h : Option O) (k : K) (o : O)
  | delete (h : Option O) (k : K) (sub : Bool)
  | openNs (o : O)
  | gc

/-- One operation. -/
def step (n : Nat) (s : St O K) : Op O K → Except Err (St O K)
  | .bind h k o => bind n s h k o
  | .delete h k sub => delete n s h k sub
  | .openNs o => .ok (openNs s o)
  | .gc => .ok (gc s)

/-- Nothing is recorded at first, `flow.py` 181-182. -/
def empty (k : K) : St O K := ⟨fun _ => [], fun _ => none, fun _ => k, fun _ => none, fun _ => [], fun _ => false, fun _ => false, fun _ => false, 0⟩

end Verif.Garbage
