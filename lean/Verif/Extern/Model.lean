import Verif.Base.Dfs

/-!
# Calls of library code and what they are taken to change

Modelled: `resolve_external_call` (`tracing/external_calls/__init__.py` 24-101), the handlers of
`tracing/external_calls/base_handlers.py` that are used for code without annotations and for the
methods of built-in containers (`mutate_caller` 170-192, `mutate_module` 194-197, `mutate_aliases`
199-202, `_mutate_calling_symbol` 204-211, `StandardMutation` 242-275, `CallerMutation` 278-280,
`NamespaceClear` 312-331, `ArgMutate` 338-346), `ListMethod.handle` and `ListExtend.initialize`
(`list_handlers.py` 13-31), the annotations of the built-in containers
(`annotations/builtins.pyi`), and the beginning of `update_deps` (`data_model/symbol.py`
1032-1049) as far as it decides whether anything is recorded, and with which dependencies.

Simplified: objects and symbols are numbers, 0 is `None`; what a recorded change leads to is not
modelled here (Upd, Version, Deps); what list methods do to recorded elements is in ListNs and
left out here; classes are those listed in `Kind` (for subclasses see Annot); the names of
recorded elements are told apart by their type only.
-/

namespace Verif.Extern
open Verif

/-- Classes of objects as far as the code tells them apart: `tracing/external_calls/__init__.py`
44-60, 77, `base_handlers.py` 256-262, `types.py` 11-19. `notebook` is an instance of a class
defined in the notebook, `cls` a class. -/
inductive Kind where
  | list | dict | set | bytearray | frozen
  | logger | notebook | cls | other
  | logging | main | excepted | module
  deriving DecidableEq

/-- `isinstance(obj, ModuleType)`, `tracing/external_calls/__init__.py` 44. -/
def Kind.isModule : Kind → Bool
  | .logging | .main | .excepted | .module => true
  | _ => false

/-- Names of methods: those of the built-in containers and others. -/
inductive Meth where
  | getitem | get | clear | pop | popitem | setdefault | update
  | append | extend | insert | remove | sort | reverse
  | add | discard | differenceUpdate | intersectionUpdate | symmetricDifferenceUpdate
  | other (n : Nat)
  deriving DecidableEq

/-- Handlers. `notYet` is `MutatingMethodEventNotYetImplemented`, `listGrow` is `ListAppend` and
`ListExtend`, `listMeth` the other list methods, `base_handlers.py` 222-335, `list_handlers.py`
11-91. -/
inductive Handler where
  | noop | standard | caller | clear | notYet | listGrow | listMeth
  deriving DecidableEq

/-- The function that is called, after 33-42 of `tracing/external_calls/__init__.py`: a method of
a class, `print`, something that cannot be a key of a dictionary (74), or another function. -/
inductive Func where
  | meth (k : Kind) (m : Meth)
  | print
  | unhashable
  | plain

/-- `annotations/builtins.pyi` as registered by `annotations/compiler.py` 346-354. -/
def registered : Kind → Meth → Option Handler
  | .dict, .getitem => some .noop
  | .dict, .get => some .noop
  | .dict, .clear => some .clear
  | .dict, .pop => some .notYet
  | .dict, .popitem => some .notYet
  | .dict, .setdefault => some .notYet
  | .dict, .update => some .notYet
  | .list, .getitem => some .noop
  | .list, .append => some .listGrow
  | .list, .clear => some .clear
  | .list, .extend => some .listGrow
  | .list, .insert => some .listMeth
  | .list, .remove => some .listMeth
  | .list, .pop => some .listMeth
  | .list, .sort => some .caller
  | .set, .clear => some .notYet
  | .set, .differenceUpdate => some .notYet
  | .set, .discard => some .notYet
  | .set, .intersectionUpdate => some .notYet
  | .set, .pop => some .notYet
  | .set, .remove => some .notYet
  | .set, .symmetricDifferenceUpdate => some .notYet
  | .set, .update => some .notYet
  | _, _ => none

/-- A call. `module` is the module found for the function (`tracing/ipyflow_tracer.py` 1241-1246),
`caller` the object of `obj.method(…)`, `name` the variable if it is written as one
(`base_handlers.py` 179-181), `args` and `kwargs` the arguments with the symbols found for them,
`ret` the value returned. -/
structure Call where
  module : Option Nat
  caller : Option Nat
  func : Func
  method : Option Meth
  name : Option Nat
  args : List (Nat × List Nat)
  kwargs : List (Nat × List Nat)
  ret : Nat

/-- The fields of a symbol used here, `data_model/symbol.py` 119-158, 540-576: `loaded` if it is an
import whose object is still the one imported (1032). -/
structure Sym where
  name : Nat
  obj : Nat
  anonymous : Bool
  loaded : Bool
  parents : List Nat

/-- Types of the names of recorded elements after `n or -1`, `base_handlers.py` 328. -/
inductive Key where
  | int | str | tuple
  deriving DecidableEq

/-- Objects and symbols: the class of an object, its names (`flow().aliases`, `flow.py` 182), the
names of its recorded elements if it has a namespace (`base_handlers.py` 317-325). -/
structure World where
  kind : Nat → Kind
  sym : Nat → Sym
  names : Nat → List Nat
  elems : Nat → Option (List Key)

/-- What has been recorded: the symbols that count as changed, with what they then depend on, and
the objects whose elements have been forgotten. -/
structure Rec where
  marks : List (Nat × List Nat)
  cleared : List Nat

/-- Is the object of the call a module? `tracing/external_calls/__init__.py` 44. -/
def onModule (w : World) (c : Call) : Bool := match c.caller with
  | none => false
  | some o => (w.kind o).isModule

/-- The module of the call, `tracing/external_calls/__init__.py` 44-46. -/
def moduleOf (w : World) (c : Call) : Option Nat :=
  if onModule w c then (match c.module with
    | none => c.caller
    | some m => some m)
  else c.module

/-- The object of the call unless it is a module, `tracing/external_calls/__init__.py` 47. -/
def callerOf (w : World) (c : Call) : Option Nat := if onModule w c then none else c.caller

/-- Calls into `logging` and `__main__`, and of `print`, `tracing/external_calls/__init__.py` 48-53. -/
def silent (w : World) (c : Call) : Bool :=
  (match moduleOf w c with
    | some m => w.kind m = .logging ∨ w.kind m = .main
    | none => false) ||
  (match c.func with
    | .print => true
    | _ => false)

/-- Methods of loggers and of classes of the notebook, `tracing/external_calls/__init__.py` 54-59. -/
def ownCaller (w : World) (c : Call) : Bool := match callerOf w c with
  | some o => w.kind o = .logger ∨ w.kind o = .notebook
  | none => false

/-- The annotation found, by the function and then by the class and the method,
`tracing/external_calls/__init__.py` 67-84. -/
def found (w : World) (c : Call) : Option Handler :=
  let byMethod := match callerOf w c, c.method with
    | some o, some m => if w.kind o = .cls then none else registered (w.kind o) m
    | _, _ => none
  match c.func with
  | .meth k m => (match registered k m with
    | some h => some h
    | none => byMethod)
  | _ => byMethod

/-- `resolve_external_call` up to the choice of a handler, `tracing/external_calls/__init__.py`
44-91. -/
def choose (w : World) (c : Call) : Option Handler :=
  if silent w c then none
  else if ownCaller w c then none
  else if callerOf w c ≠ none ∧ c.method = none then none
  else match c.func with
    | .unhashable => none
    | _ => match found w c with
      | none => some .standard
      | some .noop => none
      | some .notYet => some .standard
      | some h => some h

/-- `update_deps(deps, mutated=True, overwrite=False)`, `data_model/symbol.py` 1032-1059: nothing
for imports and objects of types that count as immutable (1032-1039); the symbol is taken out of
the set that was passed (1049), which is the second result. -/
def mark (w : World) (r : Rec) (deps : List Nat) (s : Nat) : Rec × List Nat :=
  let y := w.sym s
  if y.loaded then (r, deps)
  else if w.kind y.obj = .frozen ∨ w.kind y.obj = .bytearray then (r, deps)
  else ({ r with marks := (s, deps.filter (· ≠ s)) :: r.marks }, deps.filter (· ≠ s))

/-- `_mutate_calling_symbol` for some symbols, `base_handlers.py` 185-186, 199-211: the set
`arg_syms` is the same object each time. -/
def markAll (w : World) (r : Rec) (deps : List Nat) : List Nat → Rec
  | [] => r
  | s :: ss => markAll w (mark w r deps s).1 (mark w r deps s).2 ss

/-- `arg_syms`, `base_handlers.py` 120-126. -/
def argSyms (c : Call) : List Nat := (c.args ++ c.kwargs).flatMap (·.2)

/-- `mutate_caller`, `base_handlers.py` 170-192; `calling_symbol` is never given
(`tracing/ipyflow_tracer.py` 1186-1192). -/
def mutateCaller (w : World) (c : Call) (caller : Option Nat) (r : Rec) : Rec :=
  match caller with
  | none => r
  | some o =>
    let same := match c.name with
      | none => []
      | some n => (w.names o).filter fun s => (w.sym s).name = n
    if same = [] then markAll w r (argSyms c) (w.names o) else markAll w r (argSyms c) same

/-- `ArgMutate.handle`, `base_handlers.py` 338-346: every symbol with an empty set of its own. -/
def argMutate (w : World) (r : Rec) : List Nat → Rec
  | [] => r
  | s :: ss => argMutate w (if (w.sym s).anonymous then r else (mark w r [] s).1) ss

/-- The later arguments that depend on the first one, `base_handlers.py` 264-271. -/
def depending (w : World) (first : List Nat) (args : List (Nat × List Nat)) : List (Nat × List Nat) :=
  (args.map fun a => (a.1, a.2.filter fun s => first.any fun f => f ∈ (w.sym s).parents)).filter (·.2 ≠ [])

/-- `isinstance(first_arg_obj, (list, set, dict) + IMMUTABLE_PRIMITIVE_TYPES)`, `base_handlers.py`
262. -/
def Kind.passedOver : Kind → Bool
  | .list | .set | .dict | .bytearray | .frozen => true
  | _ => false

/-- `StandardMutation.handle`, `base_handlers.py` 242-275. -/
def standard (w : World) (c : Call) (module caller : Option Nat) (r : Rec) : Rec :=
  match caller with
  | some o => if c.ret ≠ 0 ∧ c.ret ≠ o then r else mutateCaller w c caller r
  | none => match module with
    | none => r
    | some m =>
      if c.ret ≠ 0 then r
      else
        let r := markAll w r (argSyms c) (w.names m)
        match c.args with
        | [] => r
        | a :: as =>
          if w.kind m = .excepted then r
          else if (w.kind a.1).passedOver then r
          else argMutate w r (argSyms { c with args := a :: depending w a.2 as })

/-- `get_first_full_symbol`, `flow.py` 388-398, as far as it finds one. -/
def hasFull (w : World) (o : Nat) : Bool := (w.names o).any fun s => !(w.sym s).anonymous

/-- Can the names be sorted? `base_handlers.py` 319-329: comparing names of different types
raises. -/
def sortable : List Key → Bool
  | [] => true
  | k :: ks => ks.all (· = k)

/-- `NamespaceClear.handle`, `base_handlers.py` 312-331. -/
def clear (w : World) (c : Call) (module caller : Option Nat) (r : Rec) : Except Err Rec :=
  let r := standard w c module caller r
  match caller with
  | none => .ok r
  | some o =>
    if hasFull w o then
      match w.elems o with
      | none => .ok r
      | some ks => if sortable ks then .ok { r with cleared := o :: r.cleared } else .error .crash
    else .ok r

/-- A call from the moment the function is known to the end of the statement:
`resolve_external_call` with `create` (`tracing/external_calls/__init__.py` 91-101), where
`ListExtend.initialize` (`list_handlers.py` 30-31) takes `len` of the caller, and `handle`. -/
def call (w : World) (c : Call) (r : Rec) : Except Err Rec :=
  match choose w c with
  | none => .ok r
  | some .listGrow => match callerOf w c with
    | none => .error .crash
    | some o => if w.kind o = .list then .ok (mutateCaller w c (some o) r) else .error .crash
  | some .listMeth => .ok (mutateCaller w c (callerOf w c) r)
  | some .caller => .ok (mutateCaller w c (callerOf w c) r)
  | some .clear => clear w c (moduleOf w c) (callerOf w c) r
  | some _ => .ok (standard w c (moduleOf w c) (callerOf w c) r)

end Verif.Extern
