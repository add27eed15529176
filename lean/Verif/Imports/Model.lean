import Verif.Base.Assoc

/-!
# What import statements do to the variables that are tracked

After an import statement has run, `Statement._make_lval_symbols_old` (`core/ipyflow/data_model/statement.py` 599-700) deals with its names one after the other. For each it first makes
a symbol for the module, with all packages it is in (`tracing/ipyflow_tracer.py` 705-775), and then updates the symbol of the name. Symbols have a kind, which updates do not always
change (`data_model/scope.py` 195-229, 375-386); the exported graph of the notebook lists the symbols of one kind as imports (`experimental/dag.py` 25-57).

Simplified: statements at the top level of cells, one per cell; modules have been loaded before, and an import that fails does nothing; `*` is not imported; no component of the name of a
module begins with `<`; parents and children of symbols are not modelled. -/

namespace Verif.Imports
open Verif

/-- Objects, by identity. -/
abbrev Obj := Nat

/-- Names of symbols: those of variables and attributes, and those in angle brackets that are made for modules, `ipyflow_tracer.py` 744-746. -/
inductive Name where
  | plain (s : String)
  | angle (s : String)
  deriving DecidableEq

/-- Where a symbol is: in the scope of the notebook or in the namespace of an object, with its name (`scope.py` 45-54). -/
abbrev Key := Option Obj × Name

/-- `SymbolType`, `data_model/symbol.py` 85-92, without subscripts and anonymous symbols. -/
inductive Kind where
  | default
  | function
  | class
  | «import»
  | module
  deriving DecidableEq

/-- A symbol: kind, object and when it was last updated, `symbol.py` 107-160. -/
structure Sym where
  kind : Kind
  obj : Obj
  ts : Nat
  deriving DecidableEq

/-- Python, as far as imports are concerned: `sys.modules`, the names of modules, split at dots, and attributes of modules (`statement.py` 615-625, `ipyflow_tracer.py` 731-742). -/
structure World where
  sys : List String → Option Obj
  name : Obj → List String
  isModule : Obj → Bool
  attr : Obj → String → Option Obj

/-- The state: the variables of the notebook (`shell().user_ns`), the symbols (`scope.py` 45-54) and the number of statements that were run (`symbol.py` 143-145). -/
structure St where
  vars : List (String × Obj)
  syms : List (Key × Sym)
  now : Nat
  deriving DecidableEq

/-- Statements and checks: assignments, definitions of functions and classes, deletions, both forms of imports (dotted name and name given with `as`; module, and names with names
given with `as`), uses of something from a module (`ipyflow_tracer.py` 816, 1238-1242), and checks of a cell that reads a variable (`flow.py` 592-594). -/
inductive Stmt where
  | assign (n : String) (o : Obj)
  | define (n : String) (o : Obj) (cls : Bool)
  | del (n : String)
  | imports (xs : List (List String × Option String))
  | froms (p : List String) (xs : List (String × Option String))
  | use (o : Obj)
  | check (n : String)
  deriving DecidableEq

/-- Whether any symbol refers to the object, `flow().aliases.get(id(module))`, `ipyflow_tracer.py` 747-748, 760. -/
def known (syms : List (Key × Sym)) (o : Obj) : Bool := syms.any fun p => p.2.obj == o

/-- The kind of a symbol after an update, `scope.py` 375-386. -/
def newKind (old new : Kind) : Kind := if old ≠ .module ∧ new ≠ .import then new else old

/-- `upsert_symbol_for_name`, `scope.py` 284-324, 366-440; an update of an imported symbol with the object it has is cut short (`symbol.py` 1031-1035), but the time is set as well.
`implicit` leaves the time (`scope.py` 329, `symbol.py` 143-145, 1099-1106). -/
def upsert (syms : List (Key × Sym)) (k : Key) (o : Obj) (kind : Kind) (implicit : Bool) (now : Nat) : List (Key × Sym) :=
  match Assoc.get syms k with
  | some s => Assoc.set syms k ⟨newKind s.kind kind, o, if implicit then s.ts else now⟩
  | none => Assoc.set syms k ⟨kind, o, if implicit then 0 else now⟩

/-- The loop over the components of the name of a module, `ipyflow_tracer.py` 737-770: the components so far, whether this is the first one, those to come, and where the symbol
is put. -/
def chain (w : World) (named implicit : Bool) (now : Nat) : List String → Bool → List String → Option Obj → List (Key × Sym) → List (Key × Sym)
  | _, _, [], _, syms => syms
  | pre, first, c :: cs, scope, syms =>
    match w.sys (pre ++ [c]) with
    | none => syms
    | some m =>
      chain w named implicit now (pre ++ [c]) false cs (some m)
        (if known syms m then syms
         else upsert syms (scope, if first && !named then .angle c else .plain c) m .module implicit now)

/-- `create_if_not_exists_module_symbol`, `ipyflow_tracer.py` 705-775. -/
def moduleSym (w : World) (named implicit : Bool) (now : Nat) (o : Obj) (syms : List (Key × Sym)) : List (Key × Sym) :=
  if w.name o = ["builtins"] ∨ w.name o = ["__main__"] then syms else chain w named implicit now [] true (w.name o) none syms

/-- The module of `import p`, `statement.py` 625. -/
def importedModule (w : World) (p : List String) : Option Obj := w.sys p

/-- The module for a name of `from p import x`, `statement.py` 615-619. -/
def fromModule (w : World) (p : List String) (x : String) : Option Obj :=
  match w.sys (p ++ [x]) with
  | some o => some o
  | none => w.sys p

/-- The symbol for the module, if there is one and it is not `builtins`, `statement.py` 626-635. -/
def maybeModule (w : World) (named : Bool) (now : Nat) (o : Option Obj) (syms : List (Key × Sym)) : List (Key × Sym) :=
  match o with
  | none => syms
  | some o => if w.name o = ["builtins"] then syms else moduleSym w named false now o syms

/-- Updating the symbol of the name that is bound, `statement.py` 643-666, `ipyflow_tracer.py` 510-542. -/
def bindName (vars : List (String × Obj)) (n : String) (now : Nat) (syms : List (Key × Sym)) : List (Key × Sym) :=
  match Assoc.get vars n with
  | none => syms
  | some o => upsert syms (none, .plain n) o .import false now

/-- One name of `import p as a`, `statement.py` 611-666: a target with a dot is skipped (637-638). -/
def importOne (w : World) (vars : List (String × Obj)) (now : Nat) (syms : List (Key × Sym)) (x : List String × Option String) : List (Key × Sym) :=
  let syms := maybeModule w x.2.isNone now (importedModule w x.1) syms
  match x.2, x.1 with
  | some a, _ => bindName vars a now syms
  | none, [c] => bindName vars c now syms
  | none, _ => syms

/-- One name of `from p import x as a`, `statement.py` 611-666. -/
def fromOne (w : World) (vars : List (String × Obj)) (now : Nat) (p : List String) (syms : List (Key × Sym)) (x : String × Option String) : List (Key × Sym) :=
  bindName vars (x.2.getD x.1) now (maybeModule w x.2.isNone now (fromModule w p x.1) syms)

/-- What Python binds for one name of `import p as a`: the module, or the outermost package if there is no `as`. -/
def importValue (w : World) (x : List String × Option String) : Option (String × Obj) :=
  match x.2, x.1 with
  | some a, c :: cs => (w.sys (c :: cs)).map fun o => (a, o)
  | none, c :: cs => (w.sys (c :: cs)).bind fun _ => (w.sys [c]).map fun o => (c, o)
  | _, [] => none

/-- What Python binds for one name of `from p import x as a`: the attribute of the module, or else the module inside it. -/
def fromValue (w : World) (p : List String) (x : String × Option String) : Option (String × Obj) :=
  match w.sys p with
  | none => none
  | some m =>
    match w.attr m x.1 with
    | some o => some (x.2.getD x.1, o)
    | none => (w.sys (p ++ [x.1])).map fun o => (x.2.getD x.1, o)

/-- All values of a statement, if there are all of them. -/
def values {α : Type} (f : α → Option (String × Obj)) : List α → Option (List (String × Obj))
  | [] => some []
  | x :: xs => (f x).bind fun b => (values f xs).map (b :: ·)

/-- Binding names one after the other. -/
def bindAll (vars : List (String × Obj)) (bs : List (String × Obj)) : List (String × Obj) := bs.foldl (fun v b => Assoc.set v b.1 b.2) vars

/-- The kind of a symbol for an assigned value, `scope.py` 195-229. -/
def assignKind (w : World) (o : Obj) : Kind := if w.isModule o then .module else .default

/-- Running a statement, `statement.py` 593-710; the deletion of a variable is `scope.py` 442-450, `statement.py` 580-591; the check of a cell is `symbol.py` 1404-1440. -/
def step (w : World) (st : St) : Stmt → St
  | .assign n o => ⟨Assoc.set st.vars n o, upsert st.syms (none, .plain n) o (assignKind w o) false (st.now + 1), st.now + 1⟩
  | .define n o cls => ⟨Assoc.set st.vars n o, upsert st.syms (none, .plain n) o (if cls then .class else .function) false (st.now + 1), st.now + 1⟩
  | .del n => ⟨Assoc.erase st.vars n, Assoc.erase st.syms (none, .plain n), st.now + 1⟩
  | .imports xs =>
    match values (importValue w) xs with
    | none => ⟨st.vars, st.syms, st.now + 1⟩
    | some bs => ⟨bindAll st.vars bs, xs.foldl (importOne w (bindAll st.vars bs) (st.now + 1)) st.syms, st.now + 1⟩
  | .froms p xs =>
    match values (fromValue w p) xs with
    | none => ⟨st.vars, st.syms, st.now + 1⟩
    | some bs => ⟨bindAll st.vars bs, xs.foldl (fromOne w (bindAll st.vars bs) (st.now + 1) p) st.syms, st.now + 1⟩
  | .use o => ⟨st.vars, moduleSym w false true (st.now + 1) o st.syms, st.now + 1⟩
  | .check n =>
    match Assoc.get st.vars n, Assoc.get st.syms (none, .plain n) with
    | some o, some s => ⟨st.vars, Assoc.set st.syms (none, .plain n) { s with obj := o }, st.now⟩
    | _, _ => st

/-- A session: the statements that were run, newest first. -/
def run (w : World) : List Stmt → St
  | [] => ⟨[], [], 0⟩
  | s :: h => step w (run w h) s

/-- What is recorded for a variable. -/
def recorded (st : St) (n : String) : Option Sym := Assoc.get st.syms (none, .plain n)

/-- Whether the exported graph lists a variable as an import for the cells that use it, `dag.py` 43-44. -/
def listed (st : St) (n : String) : Bool :=
  match recorded st n with
  | some s => s.kind == .import
  | none => false

end Verif.Imports
