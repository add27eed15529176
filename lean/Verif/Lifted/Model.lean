/-!
# The variable that an argument stands for

`lift(e)`, `code(e)`, `deps(e)`, `users(e)`, `timestamp(e)`, `watchpoints(e)`, `set_tag(e, ...)` and the like are given an object by Python, and get the symbol for it from the
tracer, which looks for it among the symbols that the expression mentions.

Models `handle_lift_argument` and the counting of arguments, `core/ipyflow/tracing/ipyflow_tracer.py` 1070-1103, 1126, `_validate`, `core/ipyflow/api/lift.py` 12-15,
`resolve_rval_symbols` and `ResolveRvalSymbols` without recording of uses, `core/ipyflow/tracing/symbol_resolver.py` 24-293, `static_resolve_rvals` with
`ComputeLiveSymbolRefs` on expressions, `core/ipyflow/analysis/live_refs.py` 119-147, 281-301, 347-415, 487-577, 683-694, `SymbolRefVisitor`,
`core/ipyflow/analysis/symbol_ref.py` 218-310, and `gen_symbols_for_attrsub_chain`, `core/ipyflow/data_model/scope.py` 150-175.

Left out: comprehensions, lambdas and starred arguments; variables named like the functions of the quasi-quoter (`f`, `q`, `map`, ...), subscripts of which are skipped;
versions of symbols that are killed in the text, of which there are none in an expression without `:=`; the filter for symbols that cannot be read safely (`live_refs.py` 552), which concerns links
of a chain the next link of which cannot be read: of the argument everything has been read.
-/

namespace Verif.Lifted

/-- Expressions; `S` are symbols. Displays and subscripts carry what the tracer has recorded for them (`node_id_to_loaded_symbols`, `ipyflow_tracer.py` 966-969, 1059-1062):
the symbols of the parts that were read, or the symbol of the display. Lists of expressions are built with `done` and `pair` (`symbol_resolver.py` 24-293). -/
inductive Exp (S : Type) where
  | done
  | pair (a b : Exp S)
  | name (x : Nat)
  | lit
  | attr (e : Exp S) (a : Nat)
  /-- a subscript that is a constant, whose key is given -/
  | item (loaded : List S) (e : Exp S) (k : Nat)
  /-- any other subscript -/
  | sub (loaded : List S) (e i : Exp S)
  | call (f args : Exp S)
  | bin (a b : Exp S)
  | disp (loaded : List S) (es : Exp S)
  /-- conditional expressions, `and`, `or`, comparisons, ... -/
  | op (es : Exp S)

/-- What the tracer knows: the symbols of names (`lookup_symbol_by_name`, `core/ipyflow/data_model/scope.py` 127-134), the objects they stand for, the symbol of a part in the
namespace of the object of a symbol, as attribute or else as element (`core/ipyflow/data_model/namespace.py` 252-285), and what the analysis of the body of a called function
finds (`core/ipyflow/analysis/live_refs.py` 579-660). -/
structure World (S O : Type) where
  look : Nat → Option S
  obj : S → O
  member : S → Nat → Option S
  body : S → List S

variable {S O : Type}

/-- `Atom`, as far as it matters (`core/ipyflow/analysis/symbol_ref.py` 83-99). -/
structure Atom where
  key : Nat
  call : Bool
  deriving DecidableEq, Repr

/-- `isinstance(node, ast.Call)` (`core/ipyflow/tracing/symbol_resolver.py` 131, 157). -/
def Exp.isCall : Exp S → Bool
  | .call _ _ => true
  | _ => false

/-- `isinstance(node.func, (ast.Attribute, ast.Subscript))` (`core/ipyflow/tracing/symbol_resolver.py` 115). -/
def Exp.isPart : Exp S → Bool
  | .attr _ _ => true
  | .item _ _ _ => true
  | .sub _ _ _ => true
  | _ => false

/-- What `ResolveRvalSymbols` collects when uses are not to be recorded: `_add_to_resolved` drops everything, so that only subscripts, which add to the list themselves, count
(`core/ipyflow/tracing/symbol_resolver.py` 57-75, 93-111, 114-121, 130-163). -/
def direct : Exp S → List S
  | .done => []
  | .pair a b => direct a ++ direct b
  | .name _ => []
  | .lit => []
  | .attr e _ => if e.isCall then direct e else []
  | .item l e _ => (if e.isCall then direct e else []) ++ l
  | .sub l e i => (if e.isCall then direct e else []) ++ l ++ direct i
  | .call f args => (if f.isPart then direct f else []) ++ direct args
  | .bin a b => direct a ++ direct b
  | .disp l es => if l.isEmpty then direct es else []
  | .op es => direct es

/-- `_chain_root(node)` is an operation with two operands (`core/ipyflow/analysis/live_refs.py` 42-51). -/
def rootBin : Exp S → Bool
  | .attr e _ => rootBin e
  | .item _ e _ => rootBin e
  | .sub _ e _ => rootBin e
  | .call f _ => rootBin f
  | .bin _ _ => true
  | _ => false

/-- `SymbolRefVisitor`, without a scope: the atoms of a chain, last one first; none if there is a literal in it (`core/ipyflow/analysis/symbol_ref.py` 218-316). Subscripts
that are names and not constants are passed over, and so is everything else that is not part of a chain. -/
def atoms : Exp S → Option (List Atom)
  | .done => some []
  | .pair _ _ => some []
  | .name x => some [⟨x, false⟩]
  | .lit => none
  | .attr e a => (atoms e).map (⟨a, false⟩ :: ·)
  | .item _ e k => (atoms e).map (⟨k, false⟩ :: ·)
  | .sub _ e _ => atoms e
  | .call (.attr e a) _ => (atoms e).map (⟨a, true⟩ :: ·)
  | .call (.item _ e k) _ => (atoms e).map (⟨k, true⟩ :: ·)
  | .call (.sub _ e _) _ => atoms e
  | .call (.name x) _ => some [⟨x, true⟩]
  | .call _ _ => some []
  | .bin _ _ => some []
  | .disp _ _ => none
  | .op _ => some []

/-- The rest of a chain, from a symbol on: `gen_symbols_for_attrsub_chain` (`core/ipyflow/data_model/scope.py` 158-175), with what a call adds
(`core/ipyflow/analysis/live_refs.py` 550-551, 565-575). -/
def walk (W : World S O) (s : S) : List Atom → List S
  | [] => []
  | a :: l =>
    match W.member s a.key with
    | none => []
    | some t => if a.call then t :: W.body t else t :: walk W t l

/-- The symbols of a chain, first atom first (`core/ipyflow/data_model/scope.py` 158-175, `core/ipyflow/analysis/live_refs.py` 519-577). -/
def chainSyms (W : World S O) : List Atom → List S
  | [] => []
  | a :: l =>
    match W.look a.key with
    | none => []
    | some t => if a.call then t :: W.body t else t :: walk W t l

/-- `_add_attrsub_to_live_if_eligible` with the resolution of the reference (`core/ipyflow/analysis/live_refs.py` 119-147). A chain that begins with a number as subscript is
not one; numbers and names are not told apart here, which only adds chains that begin with the name. -/
def ofChain (W : World S O) (e : Exp S) : List S :=
  if rootBin e then [] else
    match atoms e with
    | none => []
    | some l => chainSyms W l.reverse

/-- `ComputeLiveSymbolRefs` with the resolution of references; `inside` is `_inside_attrsub` and `_skip_simple_names` (`core/ipyflow/analysis/live_refs.py` 116-117, 281-301,
347-353, 386-415). -/
def static (W : World S O) : Bool → Exp S → List S
  | _, .done => []
  | b, .pair x y => static W b x ++ static W b y
  | b, .name x => if b then [] else (W.look x).toList
  | _, .lit => []
  | b, .attr e a => (if b then [] else ofChain W (.attr e a)) ++ static W true e
  | b, .item l e k => (if b then [] else ofChain W (.item l e k)) ++ static W true e
  | b, .sub l e i => (if b then [] else ofChain W (.sub l e i)) ++ static W true e ++ static W false i
  | b, .call f args => static W false args ++ (if b then [] else ofChain W (.call f args)) ++ static W true f
  | _, .bin x y => static W false x ++ static W false y
  | _, .disp _ es => static W false es
  | b, .op es => static W b es

/-- `resolve_rval_symbols(node, should_update_usage_info=False)` (`core/ipyflow/tracing/symbol_resolver.py` 269-293). -/
def resolve (W : World S O) (e : Exp S) : List S :=
  match direct e with
  | [] => static W false e
  | l => l

/-- The only element of a list, as a set (`core/ipyflow/tracing/ipyflow_tracer.py` 1095-1103). -/
def only [DecidableEq S] : List S → Option S
  | [] => none
  | s :: l => if l.all (· = s) then some s else none

/-- `handle_lift_argument` for the first argument: the symbol that takes the place of the object (`core/ipyflow/tracing/ipyflow_tracer.py` 1095-1103). -/
def lift [DecidableEq S] [DecidableEq O] (W : World S O) (e : Exp S) (v : O) : Option S :=
  only ((resolve W e).filter fun s => W.obj s = v)

/-- An argument: whether it is the one for the parameter `sym`, its expression and its value (`core/ipyflow/tracing/ipyflow_tracer.py` 1115-1126). -/
structure Arg (S O : Type) where
  main : Bool
  exp : Exp S
  val : O

/-- What a function of the interface speaks about, given its arguments in the order in which they are evaluated; none: it raises
(`core/ipyflow/tracing/ipyflow_tracer.py` 1070-1103, 1126, `core/ipyflow/api/lift.py` 12-15). Only the first argument is exchanged, and only while the tracer is on
(`skip_when_tracing_disabled`, 1071). -/
def speaks [DecidableEq S] [DecidableEq O] (W : World S O) (traced : Bool) : List (Arg S O) → Option S
  | [] => none
  | a :: _ => if traced && a.main then lift W a.exp a.val else none

end Verif.Lifted
