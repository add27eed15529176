/-!
# Arguments of calls of functions of the notebook

When a function of the notebook is called, the tracer makes a scope for the call and puts a
symbol into it for each parameter.  The symbols of the argument expressions become the
dependencies of the symbols of the parameters.  Modelled: `get_definition_args`,
`_match_call_args_with_definition_args` and `create_symbols_for_call_args`
(`data_model/symbol.py` 819-934), `resolve_loaded_symbols` (`tracing/ipyflow_tracer.py`
618-634) and the choice of the scope in `get_post_call_scope` (`data_model/statement.py`
260-303).

Simplified: symbols are elements of a type `S`, objects of a type `O`.  The scope made for a
call is an association list; a later entry for a name replaces an earlier one, as
`upsert_symbol_for_name` with `overwrite=True` does.  `_get_calling_ast_node`
(`data_model/symbol.py` 880-907) is the option `caller`.
-/

namespace Verif.Args

/-- Argument expressions, as far as `resolve_loaded_symbols` (`tracing/ipyflow_tracer.py`
618-634) tells them apart: a name, an expression for which the tracer notes symbols when it
is evaluated (`node_id_to_loaded_symbols`: attributes, subscripts, calls, literals of
containers, lambdas), a constant, and any expression made of two others, such as `a + b`. -/
inductive Expr (S : Type) where
  | name (x : String)
  | loaded (ss : List S)
  | const
  | pair (a b : Expr S)

/-- A positional argument, `ast.Call.args`: an expression, or `*e`.  The number says how many
values `*e` gives when the call happens; the tracer does not know it.  As told apart in
`_match_call_args_with_definition_args`, `data_model/symbol.py` 857. -/
inductive Arg (S : Type) where
  | plain (e : Expr S)
  | star (e : Expr S) (n : Nat)

/-- A keyword argument, `ast.Call.keywords`: `x=e`, or `**e`.  The names are those which `**e`
gives when the call happens; the tracer does not know them.  As told apart in
`_match_call_args_with_definition_args`, `data_model/symbol.py` 864-866. -/
inductive Kw (S : Type) where
  | named (x : String) (e : Expr S)
  | spread (e : Expr S) (names : List String)

/-- `ast.arguments` of the definition: parameters which are positional only, ordinary ones,
`*args`, keyword only ones, `**kwargs`; `defaults` belong to the last ones of the first two
groups together; `kwDefaults` belong to the keyword only ones.  As used in
`get_definition_args`, `data_model/symbol.py` 819-830. -/
structure Sig (S : Type) where
  posonly : List String
  args : List String
  vararg : Option String
  kwonly : List String
  kwarg : Option String
  defaults : List (Expr S)
  kwDefaults : List (String × Expr S)

/-- `ast.Call`: positional arguments and keyword arguments, as used in
`_match_call_args_with_definition_args`, `data_model/symbol.py` 839-866. -/
structure Call (S : Type) where
  args : List (Arg S)
  keywords : List (Kw S)

variable {S O : Type}

/-- Python's `l[-k:]`, as in `data_model/symbol.py` 844-846 and 873: all of the list if `k` is
zero. -/
def lastN {α : Type} (l : List α) (k : Nat) : List α :=
  if k = 0 then l else l.drop (l.length - k)

/-- `get_definition_args`, `data_model/symbol.py` 819-830: the parameters for which there will
be symbols. -/
def definitionArgs (f : Sig S) : List String :=
  f.args ++ f.kwonly ++ f.vararg.toList ++ f.kwarg.toList

/-- `resolve_loaded_symbols`, `tracing/ipyflow_tracer.py` 618-634, with
`_partial_resolve_ref` (501-508): names are looked up in the scope of the current frame; for
other expressions what was noted for the node itself. -/
def resolve (env : String → Option S) : Expr S → List S
  | .name x => (env x).toList
  | .loaded ss => ss
  | .const => []
  | .pair _ _ => []

/-- `keyword.arg in kwarg_by_name` for one keyword, `data_model/symbol.py` 847: the name of
`**e` is `None` and never there. -/
def known (names : List String) : Kw S → Bool
  | .named x _ => decide (x ∈ names)
  | .spread _ _ => false

/-- The parameters positional arguments are given to, `data_model/symbol.py` 850-855: those
without defaults; the first one is left out if it is called `self`. -/
def positional (f : Sig S) : List String :=
  let ps := if f.defaults.length > 0 then f.args.take (f.args.length - f.defaults.length)
    else f.args
  match ps with
  | p :: rest => if p = "self" then rest else p :: rest
  | [] => []

/-- The loop over positional arguments, `data_model/symbol.py` 856-861: it ends at the first
starred argument. -/
def matchPositional (env : String → Option S) :
    List String → List (Arg S) → List (String × List S)
  | p :: ps, .plain e :: es => (p, resolve env e) :: matchPositional env ps es
  | _, _ => []

/-- The loop over keyword arguments, `data_model/symbol.py` 862-870. -/
def matchKeywords (env : String → Option S) : List (Kw S) → List (String × List S)
  | [] => []
  | .named x e :: ks => (x, resolve env e) :: matchKeywords env ks
  | .spread _ _ :: ks => matchKeywords env ks

/-- The names of keywords seen, `data_model/symbol.py` 867. -/
def seenKeys : List (Kw S) → List String
  | [] => []
  | .named x _ :: ks => x :: seenKeys ks
  | .spread _ _ :: ks => seenKeys ks

/-- The loop over defaults, `data_model/symbol.py` 871-878. -/
def matchDefaults (env : String → Option S) (f : Sig S) (seen : List String) :
    List (String × List S) :=
  (((lastN f.args f.defaults.length).zip f.defaults).filter
    (fun p => decide (p.1 ∉ seen))).map fun p => (p.1, resolve env p.2)

/-- `_match_call_args_with_definition_args`, `data_model/symbol.py` 832-878. -/
def matched (env : String → Option S) (f : Sig S) (caller : Option (Call S)) :
    List (String × List S) :=
  match caller with
  | none => []
  | some c =>
    if c.keywords.all (known (lastN f.args f.defaults.length)) then
      matchPositional env (positional f) c.args ++ matchKeywords env c.keywords
        ++ matchDefaults env f (seenKeys c.keywords)
    else []

/-- The symbol of a parameter: the object it is for (`none` is Python's `None`) and its
dependencies, as given to `upsert_symbol_for_name`, `data_model/symbol.py` 915-922. -/
structure Sym (S O : Type) where
  obj : Option O
  deps : List S
  deriving DecidableEq

/-- `upsert_symbol_for_name` on the scope of the call, `data_model/symbol.py` 915-922: an
earlier symbol of the name is replaced. -/
def upsert (sc : List (String × Sym S O)) (x : String) (y : Sym S O) :
    List (String × Sym S O) :=
  (x, y) :: sc.filter (fun p => decide (p.1 ≠ x))

/-- The first loop of `create_symbols_for_call_args`, `data_model/symbol.py` 913-923: the
object is `call_frame.f_locals.get(name)`. -/
def createMatched (locals : String → Option O) :
    List (String × List S) → List (String × Sym S O) → List (String × Sym S O)
  | [], sc => sc
  | (x, ds) :: ms, sc => createMatched locals ms (upsert sc x ⟨locals x, ds⟩)

/-- The second loop of `create_symbols_for_call_args`, `data_model/symbol.py` 924-934: the
other parameters. -/
def createOthers (seen : List String) :
    List String → List (String × Sym S O) → List (String × Sym S O)
  | [], sc => sc
  | x :: xs, sc =>
    createOthers seen xs (if x ∈ seen then sc else upsert sc x ⟨none, []⟩)

/-- `create_symbols_for_call_args`, `data_model/symbol.py` 909-934, on an empty scope. -/
def create (env : String → Option S) (f : Sig S) (caller : Option (Call S))
    (locals : String → Option O) : List (String × Sym S O) :=
  createOthers ((matched env f caller).map Prod.fst) (definitionArgs f)
    (createMatched locals (matched env f caller) [])

/-- The end of `get_post_call_scope`, `data_model/statement.py` 290-303.  `finished` says
whether the definition itself is a finished statement of the cell that runs, as it is when
the function was defined in this cell (`mark_finished`, 712-715, and
`_get_or_make_trace_stmt`, `tracing/ipyflow_tracer.py` 1665-1672); then the scope is the one
which was there before. -/
def callScope (finished : Bool) (before : List (String × Sym S O)) (env : String → Option S)
    (f : Sig S) (caller : Option (Call S)) (locals : String → Option O) :
    List (String × Sym S O) :=
  if finished then before else create env f caller locals

/-- `lookup_symbol_by_name` within the function, `data_model/scope.py` 128-134: first the
scope of the call, then the scopes around it. -/
def find (outer : String → Option (Sym S O)) (sc : List (String × Sym S O)) (x : String) :
    Option (Sym S O) :=
  match sc.lookup x with
  | some y => some y
  | none => outer x

end Verif.Args
