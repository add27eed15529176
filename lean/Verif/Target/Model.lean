/-!
# In which scope a variable assigned or deleted in a function is recorded

Modelled: `_resolve_store_data_for_simple_target` (`tracing/ipyflow_tracer.py` 510-542),
`resolve_del_data_for_target` for names (609-614), `lookup_symbol_by_name`
(`data_model/scope.py` 128-134) with `non_namespace_parent_scope` (92-100), for one name and
one chain of scopes: the scope of the code that runs, the scope around it, and so on to the
global scope.

Simplified: one activation of each function; scopes are numbered from the innermost one, so
that `chain.length - 1` is the global scope; a symbol is represented by the value it was
recorded with.
-/

namespace Verif.Target

/-- What the code of a scope says about the name: it binds it, or declares it `global` or
`nonlocal`, or just uses it.  As told apart by the table of symbols,
`tracing/ipyflow_tracer.py` 518-534. -/
inductive Decl where
  | binds
  | isGlobal
  | isNonlocal
  | uses
  deriving DecidableEq

/-- A scope: whether it is the body of a class (a namespace, `data_model/scope.py` 92-100),
what its code says about the name, and whether a table of symbols is known for it
(`scope.symtab`, `data_model/scope.py` 102-114). -/
structure Block where
  isClass : Bool
  decl : Decl
  hasTab : Bool

/-- Whether the name is in `frame.f_locals` right after it was bound by code of the scope, as
looked up in `tracing/ipyflow_tracer.py` 537-541: variables declared global are not, and those
declared nonlocal are not in the body of a class. -/
def inLocals (b : Block) : Bool :=
  match b.decl with
  | .binds => true
  | .isGlobal => false
  | .isNonlocal => !b.isClass
  | .uses => false

/-- `_resolve_store_data_for_simple_target`, `tracing/ipyflow_tracer.py` 510-542, for a scope
with number `j` and the global scope `top`: the number of the scope for the symbol, or `none`
for a `KeyError`.  `inGlobals` says whether there is a global variable of the name. -/
def storeScope (b : Block) (j top : Nat) (inGlobals : Bool) : Option Nat :=
  if b.hasTab = true ∧ b.decl = .isGlobal then some top
  else
    let scope := if b.hasTab = true ∧ b.decl = .isNonlocal then (if j = top then top else j + 1)
      else j
    if inLocals b then some scope
    else if inGlobals then some top
    else none

/-- The symbols of the name in the scopes (`_symbol_by_name`, `data_model/scope.py` 54), given
by the values they were recorded with. -/
abbrev Tab (V : Type) := Nat → Option V

variable {V : Type}

/-- `put` and `pop` for one scope, `data_model/scope.py` 116-118 and 446. -/
def set (t : Tab V) (i : Nat) (v : Option V) : Tab V := fun k => if k = i then v else t k

/-- An assignment to the name by code of scope `j` is recorded, `upsert_symbol_for_name` on the
scope found (`data_model/statement.py` 653-670). -/
def store (chain : List Block) (j : Nat) (v : V) (inGlobals : Bool) (t : Tab V) : Tab V :=
  match chain[j]? with
  | none => t
  | some b =>
    match storeScope b j (chain.length - 1) inGlobals with
    | none => t
    | some i => set t i (some v)

/-- A deletion of the name by code of scope `j` is recorded: `resolve_del_data_for_target`,
`tracing/ipyflow_tracer.py` 609-614, gives the scope of the code that runs, and
`delete_symbol_for_name`, `data_model/scope.py` 442-449, removes the symbol there. -/
def delete (j : Nat) (t : Tab V) : Tab V := set t j none

/-- `lookup_symbol_by_name`, `data_model/scope.py` 128-134, from a scope around the code:
bodies of classes are passed over (`non_namespace_parent_scope`, 92-100). -/
def lookupFrom (t : Tab V) : List Block → Nat → Option V
  | [], _ => none
  | b :: bs, j =>
    if b.isClass then lookupFrom t bs (j + 1)
    else match t j with
      | some v => some v
      | none => lookupFrom t bs (j + 1)

/-- `lookup_symbol_by_name`, `data_model/scope.py` 128-134, from the scope of the code that
runs. -/
def lookup (chain : List Block) (t : Tab V) (j : Nat) : Option V :=
  match t j with
  | some v => some v
  | none => lookupFrom t (chain.drop (j + 1)) (j + 1)

end Verif.Target
