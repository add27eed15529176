import Verif.Base.Dfs

/-!
# What is recorded for a statement

Models `stmt_contains_lval`, `core/ipyflow/analysis/utils.py` 10-48, `GetSymbolEdges`, `core/ipyflow/analysis/symbol_edges.py` 15-113, the choice of what is
recorded when a statement is done, `core/ipyflow/data_model/statement.py` 571-639, 700-710, and which variables `ResolveRvalSymbols` looks at in a statement,
`core/ipyflow/tracing/symbol_resolver.py` 77-278.

Left out: comprehensions are nodes whose targets are not listed (they are in `Verif.Rval`); that an attribute or an element is found among the saved stores of
the tracer is assumed; a tuple on the left side is unpacked as from a value about whose parts nothing is known (the other way is in `Verif.Literal`). The body
of a function is part of the statement here as it is in the code; the code says of bodies "will have dummy", but the nodes it works on are the original ones. -/

namespace Verif.Bind

variable {X N : Type}

/-- Expressions. Lists of expressions are built with `nil` and `pair`. -/
inductive E (X N : Type) where
  /-- a constant, or nothing -/
  | nil
  | pair (a b : E X N)
  | var (x : X)
  /-- any other expression with its parts -/
  | node (e : E X N)
  /-- `x := v` -/
  | named (n : N) (x : X) (v : E X N)
  /-- `lambda` with defaults and body -/
  | lam (d b : E X N)

/-- Targets. Lists of targets are built with `nil` and `pair`. -/
inductive T (X N : Type) where
  | name (x : X)
  /-- an attribute or element, with the expressions it is made of -/
  | ref (n : N) (e : E X N)
  | nil
  | pair (a b : T X N)
  /-- a tuple or list -/
  | tuple (ts : T X N)
  | star (t : T X N)

/-- A name in an import statement: `a`, `a.b`, `.. as a`, `*`. What the last one binds is not known to the code. -/
inductive Alias (X : Type) where
  | plain (x : X)
  | dotted (x : X)
  | named (x : X)
  | star (xs : List X)

/-- Statements. Bodies are built with `done` and `seq`. -/
inductive S (X N : Type) where
  | done
  | seq (a b : S X N)
  | assign (ts : T X N) (v : E X N)
  /-- target, annotation, value -/
  | annAssign (t : T X N) (ann : E X N) (v : Option (E X N))
  | augAssign (t : T X N) (v : E X N)
  | loop (t : T X N) (i : E X N) (b o : S X N)
  | asyncLoop (t : T X N) (i : E X N) (b o : S X N)
  | cond (c : E X N) (b o : S X N)
  | while (c : E X N) (b o : S X N)
  | with (items : List (E X N × Option (T X N))) (b : S X N)
  | asyncWith (items : List (E X N × Option (T X N))) (b : S X N)
  /-- name, defaults, annotations, decorators, body -/
  | funDef (x : X) (d ann decs : E X N) (b : S X N)
  /-- name, bases, keywords, decorators, body -/
  | classDef (x : X) (bases kws decs : E X N) (b : S X N)
  | imp (as : List (Alias X))
  /-- body, handlers, `else`, `finally` -/
  | try (b hs o f : S X N)
  | handler (type : E X N) (x : Option X) (b : S X N)
  /-- subject, cases -/
  | match (e : E X N) (cs : S X N)
  /-- expressions and bound names of the pattern, guard, body -/
  | case (p : E X N) (xs : List X) (g : E X N) (b : S X N)
  /-- expression statements, `return`, `raise`, `assert` -/
  | expr (e : E X N)
  | del (ts : T X N)
  | other

/-! ## Does it assign? -/

/-- `ContainsNamedExprVisitor`, `utils.py` 10-26, on expressions. -/
def hasE : E X N → Bool
  | .nil => false
  | .pair a b => hasE a || hasE b
  | .var _ => false
  | .node e => hasE e
  | .named _ _ _ => true
  | .lam d b => hasE d || hasE b

/-- `ContainsNamedExprVisitor`, `utils.py` 10-26, on targets. -/
def hasT : T X N → Bool
  | .name _ => false
  | .ref _ e => hasE e
  | .nil => false
  | .pair a b => hasT a || hasT b
  | .tuple ts => hasT ts
  | .star t => hasT t

/-- `ContainsNamedExprVisitor`, `utils.py` 10-26, on the items of `with`. -/
def hasI : List (E X N × Option (T X N)) → Bool
  | [] => false
  | (e, t) :: l => hasE e || (match t with | none => false | some t => hasT t) || hasI l

/-- `ContainsNamedExprVisitor`, `utils.py` 10-26, on statements. -/
def hasS : S X N → Bool
  | .done => false
  | .seq a b => hasS a || hasS b
  | .assign ts v => hasT ts || hasE v
  | .annAssign t ann v => hasT t || hasE ann || (match v with | none => false | some v => hasE v)
  | .augAssign t v => hasT t || hasE v
  | .loop t i b o => hasT t || hasE i || hasS b || hasS o
  | .asyncLoop t i b o => hasT t || hasE i || hasS b || hasS o
  | .cond c b o => hasE c || hasS b || hasS o
  | .while c b o => hasE c || hasS b || hasS o
  | .with items b => hasI items || hasS b
  | .asyncWith items b => hasI items || hasS b
  | .funDef _ d ann decs b => hasE d || hasE ann || hasE decs || hasS b
  | .classDef _ bases kws decs b => hasE bases || hasE kws || hasE decs || hasS b
  | .imp _ => false
  | .try b hs o f => hasS b || hasS hs || hasS o || hasS f
  | .handler e _ b => hasE e || hasS b
  | .match e cs => hasE e || hasS cs
  | .case p _ g b => hasE p || hasE g || hasS b
  | .expr e => hasE e
  | .del ts => hasT ts
  | .other => false

/-- `stmt_contains_lval`, `utils.py` 29-48. -/
def containsLval : S X N → Bool
  | .assign _ _ => true
  | .annAssign _ _ _ => true
  | .augAssign _ _ => true
  | .loop _ _ _ _ => true
  | .asyncLoop _ _ _ _ => true
  | .with _ _ => true
  | .asyncWith _ _ => true
  | .funDef _ _ _ _ _ => true
  | .classDef _ _ _ _ _ => true
  | .imp _ => true
  | s => hasS s

/-! ## Edges -/

/-- The entries of `edges`, `symbol_edges.py` 19: a target or name, and the node it gets its value from. -/
inductive Edge (X N : Type) where
  | tgt (t : T X N) (v : E X N)
  /-- of an annotation without value -/
  | bare (t : T X N)
  /-- of a function or class: with the expressions that `ResolveRvalSymbols` visits in it, `symbol_resolver.py` 235-249 -/
  | defn (x : X) (seen : E X N)
  /-- of a handler of exceptions -/
  | exc (x : X) (e : E X N)
  | alias (a : Alias X)

/-- `visit_NamedExpr` and the generic visits, `symbol_edges.py` 28-46, on expressions; defaults come before the body (`mixins.py` 7-11). -/
def edgesE : E X N → List (Edge X N)
  | .nil => []
  | .pair a b => edgesE a ++ edgesE b
  | .var _ => []
  | .node e => edgesE e
  | .named _ x v => .tgt (.name x) v :: edgesE v
  | .lam d b => edgesE d ++ edgesE b

/-- The generic visits on targets, `symbol_edges.py` 39-46. -/
def edgesT : T X N → List (Edge X N)
  | .name _ => []
  | .ref _ e => edgesE e
  | .nil => []
  | .pair a b => edgesT a ++ edgesT b
  | .tuple ts => edgesT ts
  | .star t => edgesT t

/-- `visit_withitem`, `symbol_edges.py` 87-95. -/
def edgesI : List (E X N × Option (T X N)) → List (Edge X N)
  | [] => []
  | (e, some t) :: l => .tgt t e :: edgesI l
  | (_, none) :: l => edgesI l

/-- The visitor on statements, `symbol_edges.py` 39-113. Where there is no method for the kind of statement, everything in it is visited. -/
def edgesS : S X N → List (Edge X N)
  | .done => []
  | .seq a b => edgesS a ++ edgesS b
  | .assign ts v => edgesT ts ++ edgesE v
  | .annAssign t _ (some v) => .tgt t v :: edgesE v
  | .annAssign t _ none => [.bare t]
  | .augAssign t v => .tgt t v :: edgesE v
  | .loop t i _ _ => .tgt t i :: edgesE i
  | .asyncLoop t i b o => edgesT t ++ edgesE i ++ edgesS b ++ edgesS o
  | .cond c _ _ => edgesE c
  | .while c b o => edgesE c ++ edgesS b ++ edgesS o
  | .with items _ => edgesI items
  | .asyncWith items b => edgesI items ++ edgesS b
  | .funDef x d _ decs _ => .defn x (.pair d decs) :: (edgesE d ++ edgesE decs)
  | .classDef x bases _ decs _ => .defn x (.pair bases decs) :: (edgesE bases ++ edgesE decs)
  | .imp as => as.map .alias
  | .try b hs o f => edgesS b ++ edgesS hs ++ edgesS o ++ edgesS f
  | .handler e (some x) _ => [.exc x e]
  | .handler _ none _ => []
  | .match e cs => edgesE e ++ edgesS cs
  | .case p _ g b => edgesE p ++ edgesE g ++ edgesS b
  | .expr e => edgesE e
  | .del ts => edgesT ts
  | .other => []

/-! ## What is recorded -/

/-- A variable, or an attribute or element. -/
inductive Leaf (X N : Type) where
  | name (x : X)
  | ref (n : N)

/-- Where a value comes from. -/
inductive Src (X N : Type) where
  | expr (e : E X N)
  | nothing
  | self
  | module

/-- What is recorded: a binding (`upsert_symbol_for_name`), a deletion (`delete_symbol_for_name`). -/
inductive Ev (X N : Type) where
  | bind (l : Leaf X N) (src : Src X N)
  | del (l : Leaf X N)

/-- `_resolve_store_data_for_simple_target`, `tracing/ipyflow_tracer.py` 510-542: a variable without a value gives a `KeyError` (`none`). `has` are the
variables that have a value when the statement is dealt with. In which scope the variable is, is left out. -/
def simple (has : X → Bool) (x : X) : Option (Leaf X N) := if has x then some (.name x) else none

/-- `_partial_resolve_ref` and `resolve_store_data_for_target`, `tracing/ipyflow_tracer.py` 500-508, 544-608: `none` is a `KeyError`, as for tuples. -/
def leaf (has : X → Bool) : T X N → Option (Leaf X N)
  | .name x => simple has x
  | .ref n _ => some (.ref n)
  | .star (.name x) => simple has x
  | .star (.ref n _) => some (.ref n)
  | _ => none

/-- `_handle_store_target_tuple_unpack_from_deps`, `statement.py` 424-438, and its use for single targets, 536-569. -/
def unpack (has : X → Bool) : T X N → List (Leaf X N)
  | .name x => (simple has x).toList
  | .ref n _ => [.ref n]
  | .nil => []
  | .pair a b => unpack has a ++ unpack has b
  | .tuple ts => unpack has ts
  | .star t => (leaf has (.star t)).toList

/-- An edge becomes a binding, `statement.py` 611-667; imports 613-638. -/
def bindOf (has : X → Bool) : Edge X N → Option (Ev X N)
  | .tgt t e => (leaf has t).map (.bind · (.expr e))
  | .bare t => (leaf has t).map (.bind · .nothing)
  | .defn x _ => (simple has x).map (.bind · .self)
  | .exc x e => (simple has x).map (.bind · (.expr e))
  | .alias (.plain x) => (simple has x).map (.bind · .module)
  | .alias (.named x) => (simple has x).map (.bind · .module)
  | .alias (.dotted _) => none
  | .alias (.star _) => none

/-- `is_function_def or is_class_def`, `statement.py` 602-607. -/
def isDef : S X N → Bool
  | .funDef _ _ _ _ _ => true
  | .classDef _ _ _ _ _ => true
  | _ => false

/-- `_make_lval_symbols_old`, `statement.py` 599-667, with the assertion of 608. -/
def old (has : X → Bool) (s : S X N) : Except Err (List (Ev X N)) :=
  if isDef s = true ∧ (edgesS s).length ≠ 1 then .error .crash else .ok ((edgesS s).reverse.filterMap (bindOf has))

/-- `resolve_del_data_for_target`, `tracing/ipyflow_tracer.py` 610-617. -/
def delLeaf : T X N → Option (Leaf X N)
  | .name x => some (.name x)
  | .ref n _ => some (.ref n)
  | _ => none

/-- `_handle_delete`, `statement.py` 580-591: the targets one by one. -/
def dels : T X N → List (Ev X N)
  | .pair a b => ((delLeaf a).map .del).toList ++ dels b
  | .nil => []
  | _ => []

/-- `handle_dependencies`, `statement.py` 700-710, and `_make_lval_symbols`, 593-597. -/
def record (has : X → Bool) (s : S X N) : Except Err (List (Ev X N)) :=
  if containsLval s then
    match s with
    | .assign ts v => .ok ((unpack has ts).map (.bind · (.expr v)))
    | .loop t i _ _ => .ok ((unpack has t).map (.bind · (.expr i)))
    | .asyncLoop t i _ _ => .ok ((unpack has t).map (.bind · (.expr i)))
    | s => old has s
  else
    match s with
    | .del ts => .ok (dels ts)
    | _ => .ok []

/-! ## Which variables are looked at -/

/-- The variables that `ResolveRvalSymbols` resolves in an expression, `symbol_resolver.py` 77-226. A lambda is not entered (197-198). -/
def varsE : E X N → List X
  | .nil => []
  | .pair a b => varsE a ++ varsE b
  | .var x => [x]
  | .node e => varsE e
  | .named _ x v => x :: varsE v
  | .lam _ _ => []

/-- The same for targets, where they are visited. -/
def varsT : T X N → List X
  | .name x => [x]
  | .ref _ e => varsE e
  | .nil => []
  | .pair a b => varsT a ++ varsT b
  | .tuple ts => varsT ts
  | .star t => varsT t

/-- The same for the items of `with`, `symbol_resolver.py` 255-256. -/
def varsI : List (E X N × Option (T X N)) → List X
  | [] => []
  | (e, _) :: l => varsE e ++ varsI l

/-- `visit_ExceptHandler`, `symbol_resolver.py` 258-262: only a variable standing alone. -/
def varsTop : E X N → List X
  | .var x => [x]
  | _ => []

/-- The same for statements, `symbol_resolver.py` 106-113, 227-268. -/
def varsS : S X N → List X
  | .done => []
  | .seq a b => varsS a ++ varsS b
  | .assign ts v => varsT ts ++ varsE v
  | .annAssign _ _ (some v) => varsE v
  | .annAssign _ _ none => []
  | .augAssign _ v => varsE v
  | .loop _ i _ _ => varsE i
  | .asyncLoop t i b o => varsT t ++ varsE i ++ varsS b ++ varsS o
  | .cond c _ _ => varsE c
  | .while c b o => varsE c ++ varsS b ++ varsS o
  | .with items _ => varsI items
  | .asyncWith items b => varsI items ++ varsS b
  | .funDef _ d _ decs _ => varsE d ++ varsE decs
  | .classDef _ bases _ decs _ => varsE bases ++ varsE decs
  | .imp _ => []
  | .try b hs o f => varsS b ++ varsS hs ++ varsS o ++ varsS f
  | .handler e _ _ => varsTop e
  | .match e cs => varsE e ++ varsS cs
  | .case p _ g b => varsE p ++ varsE g ++ varsS b
  | .expr e => varsE e
  | .del ts => varsT ts
  | .other => []

/-- `resolve_rval_symbols(dep_node)`, `statement.py` 612, for an edge. -/
def varsEdge : Edge X N → List X
  | .tgt _ e => varsE e
  | .bare _ => []
  | .defn _ e => varsE e
  | .exc _ e => varsE e
  | .alias _ => []

/-- The variables whose use is recorded for a statement, `statement.py` 529, 612, 704-710. -/
def looked (s : S X N) : List X :=
  if containsLval s then
    match s with
    | .assign _ v => varsE v
    | .loop _ i _ _ => varsE i
    | .asyncLoop _ i _ _ => varsE i
    | s => (edgesS s).reverse.flatMap varsEdge
  else
    match s with
    | .del _ => []
    | s => varsS s

end Verif.Bind
