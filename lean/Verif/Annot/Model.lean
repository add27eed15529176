import Verif.Base.Dfs

/-!
# Annotations of library code

Stub files say which values a library function changes: `def f(a, b) -> Mutate[b]`. This is a model of how such a stub becomes a handler, of what the
handler does for a call, of how the handler for a call is found and of which stubs apply to which modules (`annotations/compiler.py`,
`tracing/external_calls/__init__.py`).
-/

namespace Verif.Annot

variable {N S : Type} [DecidableEq N]

/-! ## From stubs to handlers -/

/-- The parameters of a stub, `func.args` in `compiler.py` 72-77. Names of `*args` and `**kwargs` are not looked at by the code. -/
structure Sig (N : Type) where
  posonly : List N
  args : List N
  kwonly : List N

/-- The loop of `_arg_position_in_signature`, `compiler.py` 73-77: the first parameter of the given name, counted from `i`. -/
def indexFrom (n : N) : List N → Nat → Option Nat
  | [], _ => none
  | x :: l, i => if x = n then some i else indexFrom n l (i + 1)

/-- `_arg_position_in_signature`, `compiler.py` 69-80. The `ValueError` is `Err.crash`. -/
def position (f : Sig N) (n : N) (method : Bool) : Except Err (Option Int × Bool) :=
  match indexFrom n (f.posonly ++ f.args ++ f.kwonly) 0 with
  | none => .error .crash
  | some i => .ok (if i ≥ f.posonly.length + f.args.length then none else some (i - if method then 1 else 0), decide (i < f.posonly.length))

/-- What stands between the brackets of `Mutate[..]`: `__module__`, `self` or another name, `compiler.py` 86-103. -/
inductive Target (N : Type) where
  | module
  | self
  | name (n : N)

/-- Handlers made from a target, `compiler.py` 86-103; `overwrite` is true for `UpsertSymbol`. `MutateArgument` of 33-55 is `arg`. -/
inductive Handler (N : Type) where
  | module (overwrite : Bool)
  | caller (overwrite : Bool)
  | arg (pos : Option Int) (name : Option N) (overwrite : Bool)

/-- `_make_mutate_name_handler`, `compiler.py` 83-103. For `self` in a function the code falls off the end, and the result is `None`. -/
def nameHandler (f : Sig N) (method : Bool) (overwrite : Bool) : Target N → Except Err (Option (Handler N))
  | .module => .ok (some (.module overwrite))
  | .self => if method then .ok (some (.caller overwrite)) else .ok none
  | .name n =>
    match position f n method with
    | .error e => .error e
    | .ok (pos, posonly) => .ok (some (.arg pos (if posonly then none else some n) overwrite))

/-- What `compile_function_handler` gives for `Mutate[..]` and `UpsertSymbol[..]`: one name, or several in a `MultiHandler` (58-66). -/
inductive Compiled (N : Type) where
  | one (h : Option (Handler N))
  | multi (hs : List (Option (Handler N)))

/-- `compile_function_handler`, `compiler.py` 122-149; the annotation is `Mutate` or `UpsertSymbol` of a name (`inl`) or of a tuple of names. -/
def compile (f : Sig N) (method overwrite : Bool) : Target N ⊕ List (Target N) → Except Err (Compiled N)
  | .inl t => (nameHandler f method overwrite t).map .one
  | .inr ts => (ts.mapM (nameHandler f method overwrite)).map .multi

/-! ## Handling a call -/

/-- A call as the tracer reports it, `ipyflow_tracer.py` 1115-1170: for each argument without a keyword its symbols, in the order in which iteration gives
them, and the number of values it stands for (one, unless it is starred; the code does not look at this); and the symbols of the arguments with a
keyword. -/
structure Call (N S : Type) where
  args : List (Nat × List S)
  kwargs : N → Option (List S)

/-- What a handler does: `update_deps` for a symbol, for the module, for the receiver. -/
inductive Effect (S : Type) where
  | sym (s : S) (overwrite : Bool)
  | module (overwrite : Bool)
  | caller (overwrite : Bool)

/-- `l[i]` for a list in Python. -/
def index {α : Type} (l : List α) (i : Int) : Except Err α :=
  if 0 ≤ i then (match l[i.toNat]? with | some a => .ok a | none => .error .crash)
  else if 0 ≤ i + l.length then (match l[(i + l.length).toNat]? with | some a => .ok a | none => .error .crash)
  else .error .crash

/-- Lines 48-53 of `compiler.py`: the first symbol is updated. -/
def first (overwrite : Bool) : List S → List (Effect S)
  | [] => []
  | s :: _ => [.sym s overwrite]

/-- `MutateArgument.handle`, `compiler.py` 41-53. -/
def handleArg (pos : Option Int) (name : Option N) (overwrite : Bool) (c : Call N S) : Except Err (List (Effect S)) :=
  match name.bind c.kwargs with
  | some syms => .ok (first overwrite syms)
  | none =>
    match pos with
    | none => .ok []
    | some p =>
      if p < c.args.length then
        match index c.args p with
        | .error e => .error e
        | .ok a => .ok (first overwrite a.2)
      else .ok []

/-- `handler.handle(self)`, `compiler.py` 64; `None` has no `handle`. -/
def handleOne (c : Call N S) : Option (Handler N) → Except Err (List (Effect S))
  | none => .error .crash
  | some (.module o) => .ok [.module o]
  | some (.caller o) => .ok [.caller o]
  | some (.arg p n o) => handleArg p n o c

/-- The handler of a call at work. A registered `None` is as good as no handler (`external_calls/__init__.py` 71, 85-87): the call is treated by the default rule,
which is the result `none`. -/
def handle (c : Call N S) : Compiled N → Except Err (Option (List (Effect S)))
  | .one none => .ok none
  | .one (some h) => (handleOne c (some h)).map some
  | .multi hs => (hs.mapM (handleOne c)).map fun l => some l.flatten

/-- A call of an annotated function. -/
def run (f : Sig N) (method overwrite : Bool) (t : Target N ⊕ List (Target N)) (c : Call N S) : Except Err (Option (List (Effect S))) :=
  match compile f method overwrite t with
  | .error e => .error e
  | .ok h => handle c h

/-! ## Finding the handler of a method call -/

variable {C M F H : Type} [DecidableEq C] [DecidableEq M] [DecidableEq F]

/-- The classes of a library: method resolution orders, and what the classes themselves define. -/
structure Lib (C M F : Type) where
  mro : C → List C
  defines : C → M → Option F

/-- `getattr(clazz, method_name, None)`, `compiler.py` 352. -/
def attr (L : Lib C M F) (c : C) (m : M) : Option F := (L.mro c).findSome? fun d => L.defines d m

/-- `REGISTERED_HANDLER_BY_METHOD` and `REGISTERED_HANDLER_BY_FUNCTION`, newest entries first. -/
structure Tables (C M F H : Type) where
  byMethod : List ((C × M) × H)
  byFunction : List (F × H)

/-- `d.get(k)`. -/
def get {K V : Type} [DecidableEq K] (d : List (K × V)) (k : K) : Option V := (d.find? fun e => e.1 = k).map (·.2)

/-- A turn of the inner loop of `compile_and_register_handlers_for_module`, `compiler.py` 350-354. Handlers that are `None` are left out. -/
def register (L : Lib C M F) (t : Tables C M F H) (r : C × M × H) : Tables C M F H where
  byMethod := ((r.1, r.2.1), r.2.2) :: t.byMethod
  byFunction := match attr L r.1 r.2.1 with
    | none => t.byFunction
    | some f => (f, r.2.2) :: t.byFunction

/-- All annotations of methods, in the order in which they are registered. -/
def registerAll (L : Lib C M F) (rs : List (C × M × H)) : Tables C M F H := rs.foldl (register L) ⟨[], []⟩

/-- `resolve_external_call`, `external_calls/__init__.py` 33-42, 67-89, for the call of method `m` on an instance of the class `c`, neither of the notebook:
the function is taken from the class (33-42), then looked up, then the classes are gone through. -/
def choose (L : Lib C M F) (t : Tables C M F H) (c : C) (m : M) : Option H :=
  match (attr L c m).bind (get t.byFunction) with
  | some h => some h
  | none => (L.mro c).findSome? fun d => get t.byMethod (d, m)

/-! ## Which stubs apply -/

/-- An argument of a decorator: a string or something else. -/
inductive DecArg where
  | str (m : Nat)
  | other

/-- A decorator: `@module(..)`, `@handler_for(..)` or something else. -/
inductive Dec where
  | module (args : List DecArg)
  | handlerFor (args : List DecArg)
  | other

/-- The strings among arguments, `compiler.py` 165-169 and 206-210. -/
def strings : List DecArg → List Nat
  | [] => []
  | .str m :: l => m :: strings l
  | .other :: l => strings l

/-- `get_modules_from_decorators`, `compiler.py` 194-211: decorators with exactly one argument. -/
def modules : List Dec → List Nat
  | [] => []
  | .module args :: l => if args.length = 1 then strings args ++ modules l else modules l
  | _ :: l => modules l

/-- The loop of `get_names_for_function`, `compiler.py` 158-169. -/
def handlerNames : List Dec → List Nat
  | [] => []
  | .handlerFor args :: l => strings args ++ handlerNames l
  | _ :: l => handlerNames l

/-- `get_names_for_function`, `compiler.py` 157-173. -/
def namesFor (name : Nat) (ds : List Dec) : List Nat := if handlerNames ds = [] then [name] else handlerNames ds

/-- A stub of a class or a function: its name, its decorators, and its contents. -/
structure Stub (B : Type) where
  name : Nat
  decs : List Dec
  body : B

/-- The modules of a stub, `compiler.py` 303-305: those named by decorators, or else the one the file is named after. -/
def modulesOf {B : Type} (file : Nat) (s : Stub B) : List Nat := if modules s.decs = [] then [file] else modules s.decs

/-- `REGISTERED_CLASS_SPECS.get(module)` after `register_annotations_from_source`, `compiler.py` 287-315 and 340-342, for the files that were registered; the
modules of a stub are a set, so that it is listed once. -/
def specs {B : Type} (files : List (Nat × List (Stub B))) (m : Nat) : List (Stub B) :=
  files.flatMap fun f => f.2.filter fun s => decide (m ∈ modulesOf f.1 s)

/-- `handlers[name] = func_handler`: a dictionary in the order of the last assignments (the order plays no part). -/
def put {K V : Type} [DecidableEq K] (d : List (K × V)) (k : K) (v : V) : List (K × V) := (k, v) :: d.filter fun e => e.1 ≠ k

/-- `compile_class_handler`, `compiler.py` 176-191: the methods that compile (here: `some`), under each of their names. -/
def compileClass (body : List (Stub (Option H))) : List (Nat × H) :=
  body.foldl (fun d f => match f.body with | none => d | some h => (namesFor f.name f.decs).foldl (fun d n => put d n h) d) []

/-- `compile_classes`, `compiler.py` 214-220. -/
def compileClasses (cs : List (Stub (List (Stub (Option H))))) : List (Nat × List (Nat × H)) :=
  cs.foldl (fun d c => put d c.name (compileClass c.body)) []

/-- The handler registered for the method `x` of the class named `c` of module `m`, `compiler.py` 339-351. -/
def inForce (files : List (Nat × List (Stub (List (Stub (Option H)))))) (m c x : Nat) : Option H :=
  (get (compileClasses (specs files m)) c).bind fun d => get d x

end Verif.Annot
