/-!
# Functions that run without being called in the text

Evaluating an expression can run functions of the notebook that are not called in it: getters of properties, `__getitem__`, `__add__`, functions that a builtin calls back. What
such a function returns depends on variables, and the tracer has to attach these to some node of the expression from which `resolve_rval_symbols` takes them up again.

Models `_handle_return_transition`, `core/ipyflow/tracing/ipyflow_tracer.py` 423-473, `_save_node_id`, 828-841, what `attrsub_tracer` clears, 923-926, the counting of arguments
and the stack of calls of a frame, 1126, 1234-1239, 1273-1278, what is reset after a statement, 310; and `ResolveRvalSymbols`, `core/ipyflow/tracing/symbol_resolver.py` 57-78,
114-163, with `resolve_rval_symbols`, 270-293.

Simplified: one frame; all functions that run are traced, have one `return`, and which variables that reads is given; displays, lambdas, comprehensions and starred arguments are
left out; which symbols `attrsub_tracer` finds for a chain of attributes and subscripts is given with the last node of the chain; the static resolution that is used if nothing
else is found gives the symbols of the names and chains.
-/

namespace Verif.Implicit

/-- A function that runs: which one, and the symbols that its `return` reads (`core/ipyflow/tracing/ipyflow_tracer.py` 423-441). -/
structure Fn (S : Type) where
  id : Nat
  reads : List S
  deriving DecidableEq, Repr

/-- Expressions, with the numbers of their nodes and the functions that are run by them, if any. `own` are the symbols that the tracer finds for the chain that ends with the
node (`core/ipyflow/tracing/ipyflow_tracer.py` 966-972, 1059-1064). Arguments are built with `nil` and `cons`. -/
inductive Exp (S : Type) where
  | lit (n : Nat)
  | name (n : Nat) (x : S)
  | attr (n : Nat) (own : List S) (e : Exp S) (h : Option (Fn S))
  | sub (n : Nat) (own : List S) (e i : Exp S) (h : Option (Fn S))
  | bin (n : Nat) (a b : Exp S) (h : Option (Fn S))
  | call (n : Nat) (f args : Exp S) (h : Option (Fn S))
  | nil
  | cons (a r : Exp S)

variable {S : Type}

/-- The number of a node (`id(node)`, `core/ipyflow/tracing/ipyflow_tracer.py` 461-466). -/
def Exp.node : Exp S → Nat
  | .lit n => n
  | .name n _ => n
  | .attr n _ _ _ => n
  | .sub n _ _ _ _ => n
  | .bin n _ _ _ => n
  | .call n _ _ _ => n
  | .nil => 0
  | .cons _ _ => 0

/-- The numbers of the nodes of the arguments (`call_node.args` and `call_node.keywords`, `core/ipyflow/tracing/ipyflow_tracer.py` 453, 461-466). -/
def Exp.argNodes : Exp S → List Nat
  | .cons a r => a.node :: r.argNodes
  | _ => []

/-- A call that is being evaluated: its node, those of its arguments, and `num_args_seen` (`core/ipyflow/tracing/ipyflow_tracer.py` 222-231). -/
structure Level where
  call : Nat
  args : List Nat
  seen : Nat
  deriving DecidableEq, Repr

/-- State of the tracer: `prev_node_id_in_cur_frame`, `lexical_call_stack`, `node_id_to_loaded_symbols` as far as it is filled on returning, and the `return` statements that have
been dealt with (`lambda_call_point_deps_done_once`), `core/ipyflow/tracing/ipyflow_tracer.py` 187, 203, 222-231, 425-426. -/
structure St (S : Type) where
  prev : Option Nat
  stack : List Level
  loaded : Nat → List S
  done : List Nat

/-- The node that what a `return` reads is attached to (`core/ipyflow/tracing/ipyflow_tracer.py` 443-469). -/
def target (s : St S) : Option Nat :=
  match s.stack with
  | [] => s.prev
  | l :: _ => if l.args.length = l.seen then some l.call else l.args[l.seen]?

/-- Attach symbols to a node (`core/ipyflow/tracing/ipyflow_tracer.py` 471-473); to no node if it is `None`, which nobody asks for. -/
def attach (f : Nat → List S) (n : Option Nat) (l : List S) : Nat → List S :=
  match n with
  | none => f
  | some n => fun m => if m = n then f m ++ l else f m

/-- A function has run and returns (`_handle_return_transition`, `core/ipyflow/tracing/ipyflow_tracer.py` 423-473). -/
def ran (s : St S) : Option (Fn S) → St S
  | none => s
  | some f => if f.id ∈ s.done then s else { s with done := f.id :: s.done, loaded := attach s.loaded (target s) f.reads }

/-- `isinstance(node, ast.Call)` (`core/ipyflow/tracing/ipyflow_tracer.py` 924). -/
def Exp.isCall : Exp S → Bool
  | .call _ _ _ _ => true
  | _ => false

/-- `isinstance(node.func, (ast.Attribute, ast.Subscript))` (`core/ipyflow/tracing/symbol_resolver.py` 115). -/
def Exp.isPart : Exp S → Bool
  | .attr _ _ _ _ => true
  | .sub _ _ _ _ _ => true
  | _ => false

/-- Before an attribute or a subscript is read: `_save_node_id`, and the dependency of the call on which it is read is cleared
(`core/ipyflow/tracing/ipyflow_tracer.py` 839-841, 923-926). -/
def before (s : St S) (n : Nat) (e : Exp S) : St S :=
  { s with prev := some n, loaded := if e.isCall then fun m => if m = e.node then [] else s.loaded m else s.loaded }

/-- One more argument has been seen (`core/ipyflow/tracing/ipyflow_tracer.py` 1126). -/
def counted (s : St S) : St S :=
  match s.stack with
  | [] => s
  | l :: r => { s with stack := { l with seen := l.seen + 1 } :: r }

/-- Evaluate an expression: operands first, then the function of the operation. Around the arguments of a call and the call itself the stack has one more entry
(`core/ipyflow/tracing/ipyflow_tracer.py` 828-841, 900-926, 1126, 1234-1239, 1273-1278). -/
def eval (s : St S) : Exp S → St S
  | .lit _ => s
  | .name _ _ => s
  | .attr n _ e h => ran (before (eval s e) n e) h
  | .sub n _ e i h => ran (before (eval (eval s e) i) n e) h
  | .bin _ a b h => ran (eval (eval s a) b) h
  | .call n f args h =>
    let s := eval s f
    let s := eval { s with prev := some n, stack := ⟨n, args.argNodes, 0⟩ :: s.stack } args
    let s := ran s h
    { s with stack := s.stack.tail }
  | .nil => s
  | .cons a r => eval (counted (eval s a)) r

/-- What the visitor takes up from a subscript in brackets: it does not record uses there, and therefore keeps only what subscripts are found to load
(`core/ipyflow/tracing/symbol_resolver.py` 36-43, 57-75, 156-163). -/
def quiet (f : Nat → List S) : Exp S → List S
  | .lit _ => []
  | .name _ _ => []
  | .attr _ _ e _ => if e.isCall then quiet f e else []
  | .sub n own e i _ => (if e.isCall then quiet f e else []) ++ own ++ f n ++ quiet f i
  | .bin _ a b _ => quiet f a ++ quiet f b
  | .call _ g args _ => (if g.isPart then quiet f g else []) ++ quiet f args
  | .nil => []
  | .cons a r => quiet f a ++ quiet f r

/-- `ResolveRvalSymbols` (`core/ipyflow/tracing/symbol_resolver.py` 76-78, 114-163). -/
def visit (f : Nat → List S) : Exp S → List S
  | .lit _ => []
  | .name _ x => [x]
  | .attr n own e _ => (if e.isCall then visit f e else []) ++ own ++ f n
  | .sub n own e i _ => (if e.isCall then visit f e else []) ++ own ++ f n ++ quiet f i
  | .bin _ a b _ => visit f a ++ visit f b
  | .call n g args _ =>
    (if g.isPart then visit f g else []) ++ (match g with | .name _ x => [x] | _ => f g.node) ++ f n ++ visit f args
  | .nil => []
  | .cons a r => visit f a ++ visit f r

/-- Symbols of the names and chains of an expression (`static_resolve_rvals`, `core/ipyflow/tracing/symbol_resolver.py` 284-292). -/
def static : Exp S → List S
  | .lit _ => []
  | .name _ x => [x]
  | .attr _ own e _ => own ++ static e
  | .sub _ own e i _ => own ++ static e ++ static i
  | .bin _ a b _ => static a ++ static b
  | .call _ g args _ => static g ++ static args
  | .nil => []
  | .cons a r => static a ++ static r

/-- `resolve_rval_symbols` (`core/ipyflow/tracing/symbol_resolver.py` 270-293). -/
def resolve (f : Nat → List S) (e : Exp S) : List S :=
  match visit f e with
  | [] => static e
  | l => l

/-- State before a statement: nothing is left of the one before but which `return` statements have been dealt with
(`core/ipyflow/tracing/ipyflow_tracer.py` 295-320). -/
def start (done : List Nat) : St S := ⟨none, [], fun _ => [], done⟩

/-- The dependencies of what a statement `x = e` sets, and the `return` statements dealt with afterwards (`core/ipyflow/data_model/statement.py` 717-733,
`core/ipyflow/tracing/symbol_resolver.py` 270-293). -/
def assign (done : List Nat) (e : Exp S) : List S × List Nat :=
  let s := eval (start done) e
  (resolve s.loaded e, s.done)

/-- The statements of a cell, in order (`core/ipyflow/tracing/ipyflow_tracer.py` 295-320). -/
def cell (done : List Nat) : List (Exp S) → List (List S)
  | [] => []
  | e :: r => (assign done e).1 :: cell (assign done e).2 r

end Verif.Implicit
