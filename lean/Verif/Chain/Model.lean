import Verif.Base.Dfs

/-!
# Reading parts of objects

Models what the tracer does when an expression such as `x.a[0].b` is evaluated: `attrsub_tracer`,
`core/ipyflow/tracing/ipyflow_tracer.py` 914-1048, `after_complex_symbol`, 1050-1069,
`_clear_info_and_maybe_lookup_or_create_complex_symbol`, 777-817, the creation of namespaces in
`_get_namespace_for_obj`, 642-661, what `before_call` does with the state of a chain, 1207-1248, and the
lookups in namespaces (`core/ipyflow/data_model/namespace.py` 216-262).

The order of events is that of `core/test/test_trace_events.py` 457-487: the object of a subscript comes
first, then the index, then `before_subscript_load`.

Every object has at most one namespace (they are registered under the identity of the object, `namespace.py`
77), so that namespaces are identified with their objects. Left out: parents and names of namespaces, module
symbols, the entry of symbols made for objects of method calls in a scope, arguments and bodies of called
functions, default dictionaries; and `update_obj_ref` changes only the object here (see `Rebind` for the rest).
-/

namespace Verif.Chain

/-- Indices, `core/ipyflow/types.py` 15-30. `other n true`: `None`, booleans and tuples of supported indices;
`other n false`: everything that is not supported, such as slices, floats, arrays. -/
inductive Idx where
  | int (i : Int)
  | str (s : String)
  | other (n : Nat) (ok : Bool)
  deriving DecidableEq

/-- An attribute or an element. -/
inductive Key where
  | attr (a : String)
  | sub (i : Idx)
  deriving DecidableEq

/-- The checks in `ipyflow_tracer.py` 975-983. -/
def supported : Key → Bool
  | .attr _ => true
  | .sub (.other _ ok) => ok
  | .sub _ => true

/-- Expressions. `part e k` is `e.a` or `e[c]` with a constant or a variable `c`, `item e n i` is `e[i]`
where the node of `i` is `n`, and `call e k` is `e.a()`. -/
inductive Exp where
  | var (x : String)
  | part (e : Exp) (k : Key)
  | item (e : Exp) (n : Nat) (i : Exp)
  | call (e : Exp) (k : Key)

/-- What Python objects are like while the expression is evaluated; nothing they consist of changes.
`none` is an exception. -/
structure World (O : Type) where
  val : String → Option O
  get : O → Key → Option O
  ret : O → Key → Option O
  cls : O → O
  /-- the length of a `Sequence` -/
  len : O → Option Nat
  /-- `name in obj.__dict__` -/
  own : O → String → Bool
  /-- the object is `None` or the shell, `ipyflow_tracer.py` 928 -/
  skip : O → Bool
  idx : O → Idx

/-- What the tracer knows. Symbols and nodes are numbers. -/
structure St (O : Type) where
  /-- the tables of the namespaces, `scope.py` 63, `namespace.py` 81 -/
  tab : O → Key → Option Nat
  /-- `sym.obj` -/
  obj : Nat → O
  next : Nat
  /-- the symbols of the scope of the code that runs -/
  vars : String → Option Nat
  /-- those of the enclosing scopes -/
  outer : String → Option Nat
  /-- `id(obj) in flow().namespaces` -/
  made : O → Bool
  /-- `cloned_from` -/
  base : O → Option O
  /-- `active_scope`: the scope of the code that runs, or a namespace -/
  active : Option O
  /-- `saved_complex_symbol_load_data` -/
  saved : Option (O × Key)
  /-- `first_obj_id_in_chain` -/
  first : Option O
  /-- `top_level_node_id_for_chain` -/
  top : Option Nat
  /-- `node_id_to_loaded_symbols` -/
  loaded : Nat → List Nat
  /-- `pending_usage_updates_by_sym` -/
  pend : Nat → Option Bool
  /-- `node_id_to_saved_store_data` -/
  stores : Nat → Option (O × Key)
  /-- `node_id_to_saved_del_data` -/
  dels : Nat → Option (O × Key)

/-- A function changed at one place: an assignment to an element of a dictionary, e.g. `ipyflow_tracer.py` 947. -/
def put {A B : Type} [DecidableEq A] (f : A → B) (a : A) (b : B) : A → B := fun x => if x = a then b else f x

variable {O : Type} [DecidableEq O]

/-- `namespace.py` 222-224: where an element with a negative index is also looked for. -/
def other (w : World O) (o : O) : Key → Option Key
  | .sub (.int i) => if i < 0 then (w.len o).map (fun n => .sub (.int (n + i))) else none
  | _ => none

/-- `lookup_symbol_by_name_this_indentation` with `skip_cloned_lookup=True`, and `_lookup_subscript`,
`namespace.py` 216-227, 237-243. -/
def look (w : World O) (s : St O) (o : O) (k : Key) : Option Nat :=
  match s.tab o k with
  | some a => some a
  | none => (other w o k).bind (s.tab o)

/-- `namespace.py` 244-255: the symbol of the class. -/
def classLook (w : World O) (s : St O) (o : O) : Key → Option Nat
  | .attr a => if w.own o a then none else (s.base o).bind (fun c => s.tab c (.attr a))
  | .sub _ => none

/-- `lookup_symbol_by_name_this_indentation`, `namespace.py` 229-256. -/
def lookAll (w : World O) (s : St O) (o : O) (k : Key) : Option Nat :=
  match look w s o k with
  | some a => some a
  | none => classLook w s o k

/-- `active_scope.get`, `scope.py` 84-85 and `namespace.py` 237-240. -/
def activeGet (w : World O) (s : St O) (x : String) : Option Nat :=
  match s.active with
  | none => s.vars x
  | some o =>
    match s.tab o (.attr x) with
    | some a => some a
    | none =>
      match s.tab o (.sub (.str x)) with
      | some a => some a
      | none => classLook w s o (.attr x)

/-- `ipyflow_tracer.py` 790-815: the symbol for part `k` of `o`, which is `v`, is found or made. -/
def enter (w : World O) (s : St O) (o : O) (k : Key) (v : O) : Nat × St O :=
  match look w s o k with
  | some a => (a, { s with obj := put s.obj a v })
  | none => (s.next, { s with
      tab := fun o' k' => if o' = o ∧ k' = k then some s.next else s.tab o' k'
      obj := put s.obj s.next v
      next := s.next + 1 })

/-- `_clear_info_and_maybe_lookup_or_create_complex_symbol`, `ipyflow_tracer.py` 777-817. -/
def settle (w : World O) (s : St O) (v : O) : Option Nat × St O :=
  match s.saved with
  | none => (none, s)
  | some (o, k) =>
    let (a, s') := enter w { s with saved := none } o k v
    (some a, s')

/-- `_get_namespace_for_obj`, `ipyflow_tracer.py` 642-661, 673. -/
def mkNs (w : World O) (o : O) (s : St O) : St O :=
  if s.made o then s
  else { s with
    made := put s.made o true
    base := put s.base o (if s.made (w.cls o) then some (w.cls o) else none) }

/-- The events, `ipyflow_tracer.py` 905-913: `call` is a load with `call_context`. -/
inductive Ev where
  | load | call | store | del
  deriving DecidableEq

/-- The event is `before_attribute_load` or `before_subscript_load`, `ipyflow_tracer.py` 949-952. -/
def isLoad : Ev → Bool
  | .load | .call => true
  | _ => false

/-- `ipyflow_tracer.py` 949-963: the uses that are to be recorded at the end of the statement. -/
def usage (ev : Ev) (so : Nat) (sym : Option Nat) (pend : Nat → Option Bool) : Nat → Option Bool :=
  let p := if ev = .load then pend
    else put pend so (some ((pend so).getD true && sym.isSome && decide (ev ≠ .call)))
  match sym with
  | some a => if isLoad ev then (if (p a).isSome then p else put p a (some true)) else p
  | none => p

/-- An element is added to a list of loaded symbols, `ipyflow_tracer.py` 970-973, 1044-1046, 1062-1064. -/
def load (s : St O) (n a : Nat) : St O := { s with loaded := put s.loaded n (s.loaded n ++ [a]) }

/-- `ipyflow_tracer.py` 936-963: the symbol of the part that is read, if that of its object is known. -/
def partSym (w : World O) (s : St O) (so : Option Nat) (o : O) (k : Key) : Option Nat :=
  match so with
  | some a => if s.obj a = o then lookAll w s o k else none
  | none => none

/-- `ipyflow_tracer.py` 943-963. -/
def recordUse (ev : Ev) (so sym : Option Nat) (o : O) (s : St O) : St O :=
  match so with
  | some a => if s.obj a = o then { s with pend := usage ev a sym s.pend } else s
  | none => s

/-- `ipyflow_tracer.py` 965-973. -/
def note (n : Nat) (o : O) (sym : Option Nat) (s : St O) : St O :=
  let s1 : St O := { s with
    top := some (s.top.getD n)
    first := some (s.first.getD o) }
  match sym with
  | some a => load s1 (s.top.getD n) a
  | none => s1

/-- `ipyflow_tracer.py` 1022-1029: the symbol of the object of a method call. -/
def calleeSym (name : Option String) (so : Option Nat) (s : St O) : Option Nat :=
  match so, name, s.active with
  | some a, _, _ => some a
  | none, some x, none =>
    match s.vars x with
    | some a => some a
    | none => s.outer x
  | _, _, _ => none

/-- `ipyflow_tracer.py` 1022-1046: the object of a method call counts as loaded; a symbol is made for it if there
is none. -/
def callee (n : Nat) (name : Option String) (o : O) (so : Option Nat) (s : St O) : St O :=
  match calleeSym name so s with
  | some a => load s (s.top.getD n) a
  | none => load { s with
      obj := put s.obj s.next o
      next := s.next + 1 } (s.top.getD n) s.next

/-- `ipyflow_tracer.py` 975-1046: what is saved for later events. -/
def save (ev : Ev) (n : Nat) (name : Option String) (o : O) (k : Key) (so : Option Nat) (s : St O) : St O :=
  if supported k then
    match ev with
    | .store => { s with stores := put s.stores n (some (o, k)) }
    | .del => { s with dels := put s.dels n (some (o, k)) }
    | .load => { s with saved := some (o, k) }
    | .call => callee n name o so { s with saved := some (o, k) }
  else s

/-- `ipyflow_tracer.py` 935-936. -/
def symFor (w : World O) (name : Option String) (p : Option Nat × St O) : Option Nat :=
  match p.1 with
  | some a => some a
  | none => name.bind (activeGet w p.2)

/-- `attrsub_tracer`, `ipyflow_tracer.py` 914-1048: part `k` of `o` is about to be read, written or deleted, in the
chain with node `n`. `name` is the variable that holds the object, if the object is that of a variable. -/
def link (w : World O) (ev : Ev) (n : Nat) (name : Option String) (o : O) (k : Key) (s : St O) : St O :=
  if w.skip o then s
  else
    let p := settle w s o
    let so := symFor w name p
    let s2 := mkNs w o p.2
    let sym := partSym w s2 so o k
    { save ev n name o k so (note n o sym (recordUse ev so sym o s2)) with active := some o }

/-- `ipyflow_tracer.py` 1066-1069. -/
def reset (s : St O) : St O := { s with
  saved := none
  first := none
  top := none
  active := none }

/-- `after_complex_symbol`, `ipyflow_tracer.py` 1050-1069: the chain has the value `v`. -/
def finish (w : World O) (v : O) (s : St O) : St O :=
  if s.first.isNone then reset s
  else
    let p := settle w s v
    match p.1, s.top with
    | some a, some n => reset (load p.2 n a)
    | _, _ => reset p.2

/-- `before_call`, `ipyflow_tracer.py` 1244-1247. -/
def beforeCall (s : St O) : St O := { s with
  saved := none
  active := none }

/-- `obj_name`: the name of the variable the object of a part is held in. -/
def nameOf : Exp → Option String
  | .var x => some x
  | _ => none

/-- `after_load_complex_symbol` is emitted for everything but variables, `core/test/test_trace_events.py` 457-487. -/
def close (w : World O) : Exp → O → St O → St O
  | .var _, _, s => s
  | _, v, s => finish w v s

/-- Evaluates an expression, with the events of `core/test/test_trace_events.py` 457-487; `n` is the node of the
chain. The value, or `none` for an exception, and the state. -/
def run (w : World O) (n : Nat) : Exp → St O → Option O × St O
  | .var x, s => (w.val x, s)
  | .part e k, s =>
    match run w n e s with
    | (some o, s1) => (w.get o k, link w .load n (nameOf e) o k s1)
    | (none, s1) => (none, s1)
  | .item e m i, s =>
    match run w n e s with
    | (some o, s1) =>
      match run w m i s1 with
      | (some j, s2) =>
        (w.get o (.sub (w.idx j)), link w .load n (nameOf e) o (.sub (w.idx j)) (close w i j s2))
      | (none, s2) => (none, s2)
    | (none, s1) => (none, s1)
  | .call e k, s =>
    match run w n e s with
    | (some o, s1) =>
      match w.get o k with
      | some _ => (w.ret o k, beforeCall (link w .call n (nameOf e) o k s1))
      | none => (none, link w .call n (nameOf e) o k s1)
    | (none, s1) => (none, s1)

/-- A whole expression. -/
def eval (w : World O) (n : Nat) (e : Exp) (s : St O) : Option O × St O :=
  match run w n e s with
  | (some v, s1) => (some v, close w e v s1)
  | (none, s1) => (none, s1)

/-- The events of the target of an assignment `e.a = …` or `e[c] = …` or of a deletion. -/
def target (w : World O) (ev : Ev) (n : Nat) (e : Exp) (k : Key) (s : St O) : St O :=
  match run w n e s with
  | (some o, s1) => link w ev n (nameOf e) o k s1
  | (none, s1) => s1

end Verif.Chain
