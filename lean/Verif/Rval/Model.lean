import Verif.Base.Dfs

/-!
# What an assigned value depends on

Models `ResolveRvalSymbols` and `resolve_rval_symbols`, `core/ipyflow/tracing/symbol_resolver.py` 24-293, and `_partial_resolve_ref` and `resolve_loaded_symbols`,
`core/ipyflow/tracing/ipyflow_tracer.py` 500-508, 619-634, on expressions.

Names, nodes and symbols are of arbitrary types. What the tracer recorded for a node (`node_id_to_loaded_symbols`) is given. The list there is not extended in
place by `visit_Subscript`. The static resolution that is used when nothing was found (`static_resolve_rvals`) is given. -/

namespace Verif.Rval

variable {X N S : Type} [DecidableEq S]

/-- Expressions. Lists of expressions are built with `done` and `pair`. -/
inductive Exp (X N : Type) where
  /-- a constant, or nothing -/
  | done
  | pair (a b : Exp X N)
  | name (x : X)
  | attr (n : N) (e : Exp X N)
  | sub (n : N) (e i : Exp X N)
  /-- function, and arguments with keywords -/
  | call (n : N) (f args : Exp X N)
  /-- displays of lists, tuples and dictionaries -/
  | disp (n : N) (es : Exp X N)
  | star (e : Exp X N)
  | lam (n : N)
  /-- targets, element (or key and value), first iterable, the other iterables and the conditions -/
  | comp (t e f m : Exp X N)
  /-- operators, conditional expressions, formatted strings, set displays, slices, ... -/
  | op (n : N) (e : Exp X N)

/-- What the tracer knows. -/
structure Env (X N S : Type) where
  /-- `cur_frame_original_scope.lookup_symbol_by_name` -/
  look : X → Option S
  /-- `node_id_to_loaded_symbols` -/
  loaded : N → List S
  /-- the symbol of the attribute or element in the namespace of the object of a symbol, `symbol_resolver.py` 143-147, 165-181 -/
  member : S → N → Option S
  /-- `resolve_slice_to_constant` gives a constant -/
  const : N → Bool

/-- The attributes of the visitor, 27-32. `used`: what `Timestamp.update_usage_info` was called for. -/
structure St (S : Type) where
  syms : List S
  used : List S
  dead : List S
  kill : Bool
  upd : Bool

/-- `resolve_loaded_symbols`, `ipyflow_tracer.py` 619-634. -/
def resolve (E : Env X N S) : Exp X N → List S
  | .name x => (E.look x).toList
  | .attr n _ => E.loaded n
  | .sub n _ _ => E.loaded n
  | .call n _ _ => E.loaded n
  | .disp n _ => E.loaded n
  | .lam n => E.loaded n
  | .op n _ => E.loaded n
  | .star e => resolve E e
  | .done => []
  | .pair _ _ => []
  | .comp _ _ _ _ => []

/-- `_add_to_resolved`, 56-73. -/
def add (l : List S) (extend usage : Bool) (st : St S) : St S :=
  if st.kill then { st with dead := st.dead ++ l }
  else if st.upd then
    let l' := l.filter (fun s => decide (s ∉ st.dead))
    { st with
      used := if usage then st.used ++ l' else st.used
      syms := if extend then st.syms ++ l' else st.syms }
  else st

/-- `isinstance(node, ast.Call)`. -/
def isCall : Exp X N → Bool
  | .call _ _ _ => true
  | _ => false

/-- `isinstance(node, (ast.Attribute, ast.Subscript))`. -/
def isAttrSub : Exp X N → Bool
  | .attr _ _ => true
  | .sub _ _ _ => true
  | _ => false

/-- The state of `_resolve_symbols_without_side_effects`, 38-43. -/
def quietSt : St S := { syms := [], used := [], dead := [], kill := false, upd := false }

/-- The last part of `visit_Attribute` and `visit_Subscript`, 137-151, 160-186: `q` are the symbols of the object. -/
def fallback (E : Env X N S) (n : N) (q : List S) (st : St S) : St S :=
  match q with
  | [s] =>
    match E.member s n with
    | some s' => add [s'] true true st
    | none => st
  | _ => st

/-- `killed_context`, 45-54: before the body. `d`: what the targets killed. -/
def enterKill (d : List S) (st : St S) : St S := { st with dead := st.dead ++ d }

/-- `killed_context`, 45-54: after the body. -/
def leaveKill (d old : List S) (st : St S) : St S :=
  { st with dead := st.dead.filter (fun s => !(decide (s ∈ d) && decide (s ∉ old))) }

/-- The visitor, 75-236. -/
def visit (E : Env X N S) : Exp X N → St S → St S
  | .done, st => st
  | .pair a b, st => visit E b (visit E a st)
  | .op _ e, st => visit E e st
  | .name x, st => add (E.look x).toList true true st
  | .attr n e, st =>
    let st1 := if isCall e then visit E e st else st
    if E.loaded n = [] then fallback E n (visit E e quietSt).syms st1
    else add (E.loaded n) true false st1
  | .sub n e i, st =>
    let st1 := if isCall e then visit E e st else st
    let st2 := add (E.loaded n) false true st1
    let l := E.loaded n ++ (visit E i quietSt).syms
    if l = [] then
      if E.const n then fallback E n (visit E e quietSt).syms st2 else st2
    else { st2 with syms := st2.syms ++ l }
  | .call n f args, st =>
    let st1 := if isAttrSub f then visit E f st else st
    visit E args (add (E.loaded n) true true (add (resolve E f) true true st1))
  | .disp n es, st => if E.loaded n = [] then visit E es st else add (E.loaded n) true true st
  | .star e, st => { st with syms := st.syms ++ resolve E e }
  | .lam n, st => { st with syms := st.syms ++ E.loaded n }
  | .comp t e f m, st =>
    let k := visit E t { st with
      dead := []
      kill := true }
    let st1 : St S := { st with
      syms := k.syms
      used := k.used }
    leaveKill k.dead st.dead (visit E m (visit E f (visit E e (enterKill k.dead st1))))

/-- The state at the start, 27-32. -/
def init (upd : Bool) : St S := { syms := [], used := [], dead := [], kill := false, upd := upd }

/-- `resolve_rval_symbols`, 272-293: what the value depends on. `static`: what `static_resolve_rvals` gives. -/
def deps (E : Env X N S) (upd : Bool) (static : List S) (e : Exp X N) : List S :=
  let l := (visit E e (init upd)).syms
  if l = [] then static else l

/-- `resolve_rval_symbols`, 272-293: what is recorded as used. -/
def usages (E : Env X N S) (upd : Bool) (static : List S) (e : Exp X N) : List S :=
  let st := visit E e (init upd)
  if st.syms = [] then (if upd then st.used ++ static else st.used) else st.used

end Verif.Rval
