import Mathlib.Tactic.Basic

/-!
# References

Models `resolve_slice_to_constant`, `Atom`, `SymbolRefVisitor`, `SymbolRef.__eq__`/`__hash__` and `SymbolRef.gen_resolved_symbols` of
`core/ipyflow/analysis/symbol_ref.py` 32-413, 428-484.

Names are numbers. The marks that the visitor puts on atoms are left out. Of the constants that may be subscripts there are text, whole numbers, other numbers (given
by an index) and tuples of these. `scope` says what a name used as a subscript stands for: the object of its symbol if there is one and
it may be a subscript. -/

namespace Verif.Ref

/-- Constants used as subscripts. -/
inductive Const where
  /-- text that does not spell a whole number, such as a name -/
  | str (n : Nat)
  /-- the text that spells a whole number -/
  | digits (z : Int)
  | int (z : Int)
  | num (q : Nat) (neg : Bool)
deriving DecidableEq

/-- The expression in the brackets. -/
inductive Index where
  | const (c : Const)
  | neg (c : Const)
  | name (x : Nat)
  | negName (x : Nat)
  /-- a tuple display of constants -/
  | tuple (cs : List Const)
  /-- anything else: slices, calls, arithmetic, tuples with such elements -/
  | other
deriving DecidableEq

/-- Expressions that references are made of. -/
inductive Exp where
  | name (x : Nat)
  | attr (e : Exp) (a : Nat)
  | sub (e : Exp) (i : Index)
  | call (f : Exp)
  /-- displays, constants, formatted strings -/
  | lit
  /-- lambda expressions, conditional expressions, arithmetic, ... -/
  | other
deriving DecidableEq

/-- The value of an atom. -/
inductive Val where
  | one (c : Const)
  | tup (cs : List Const)
deriving DecidableEq

/-- `Atom`, `symbol_ref.py` 87-102, without the marks. -/
structure Atom where
  value : Val
  callpoint : Bool := false
  subscript : Bool := false
deriving DecidableEq

/-- The result of `resolve_slice_to_constant`. -/
inductive Res where
  | none
  | name (x : Nat)
  | val (v : Val)

/-- `-slc` if that is an `int`, 82-83. -/
def negate : Const → Const
  | .int z => .int (-z)
  | c => c

/-- `resolve_slice_to_constant`, 32-84, in Python 3.8 and later. -/
def resolveSlice : Index → Res
  | .tuple cs => .val (.tup cs)
  | .const c => .val (.one c)
  | .neg c => .val (.one (negate c))
  | .name x => .name x
  | .negName x => .name x
  | .other => .none

/-- `str(sliceval)`, 229. Texts stay as they are. The text of other numbers is left out: they stay as they are, too. -/
def str : Const → Const
  | .int z => .digits z
  | c => c

/-- `visit_Subscript`, 251-270: what is appended before the object is visited. `scope` is `none` for the static checker. -/
def subAtoms (scope : Option (Nat → Option Const)) (i : Index) : List Atom :=
  match resolveSlice i with
  | .none => []
  | .name x =>
    match scope with
    | none => []
    | some look =>
      match look x with
      | some c => [{ value := .one c, subscript := true }]
      | none => []
  | .val v => [{ value := v, subscript := true }]

/-- `SymbolRefVisitor.visit`, 218-319; the chain is built from the end, here it is put in order at once. `none`: `ValueError`. -/
def visit (scope : Option (Nat → Option Const)) : Exp → Option (List Atom)
  | .name x => some [{ value := .one (.str x) }]
  | .attr e a => (visit scope e).map (· ++ [{ value := .one (.str a) }])
  | .sub e i => (visit scope e).map (· ++ subAtoms scope i)
  | .call (.attr e a) => (visit scope e).map (· ++ [{ value := .one (.str a), callpoint := true }])
  | .call (.sub e (.const c)) => (visit scope e).map (· ++ [{ value := .one (str c), callpoint := true, subscript := true }])
  | .call (.sub e _) => visit scope e
  | .call (.name x) => some [{ value := .one (.str x), callpoint := true }]
  | .call _ => some []
  | .lit => none
  | .other => some []

/-- `SymbolRefVisitor.__call__`, 168-192: the chain of an expression. -/
def chain (scope : Option (Nat → Option Const)) (e : Exp) : List Atom := (visit scope e).getD []

/-- `SymbolRef`, 325-360: chain, scope (an id), source range (an id). -/
structure SymRef where
  chain : List Atom
  scope : Option Nat := none
  range : Option Nat := none
deriving DecidableEq

/-- `SymbolRef.__eq__`, 393-413. -/
def SymRef.eq (r s : SymRef) : Bool :=
  if r.range.isSome && s.range.isSome && r.range != s.range then false
  else if r.scope.isSome && s.scope.isSome && r.scope != s.scope then false
  else r.chain == s.chain

/-- The marks of an atom, 93-102. -/
structure Marks where
  reactive : Bool := false
  cascading : Bool := false
  blocking : Bool := false
deriving DecidableEq

/-- `Atom.reactive`, 114-122. -/
def Marks.toReactive (m : Marks) : Marks := { reactive := true, cascading := m.cascading, blocking := false }

/-- `Atom.cascading_reactive`, 124-132. -/
def Marks.toCascading (m : Marks) : Marks := { reactive := m.reactive, cascading := true, blocking := false }

/-- `Atom.blocking`, 134-142. -/
def Marks.toBlocking (_ : Marks) : Marks := { blocking := true }

/-- The variables of the loop of `gen_resolved_symbols`, 438-441. `all` is `yield_all_intermediate_symbols`. Nothing sets `blockingSeen`. -/
structure Seen where
  all : Bool
  reactiveSeen : Bool := false
  cascadingSeen : Bool := false
  blockingSeen : Bool := false

/-- The marks an atom is given, 463-473. -/
def inherit (v : Seen) (m : Marks) : Marks :=
  let m1 := if v.reactiveSeen && !v.blockingSeen && !m.reactive then m.toReactive else m
  let m2 := if v.cascadingSeen && !v.blockingSeen && !m1.cascading then m1.toCascading else m1
  if v.blockingSeen && !m2.blocking then m2.toBlocking else m2

/-- One turn of the loop, 455-473: the variables, and the marks of the symbol. -/
def turn (v : Seen) (m : Marks) : Seen × Marks :=
  let v1 : Seen := { v with
    reactiveSeen := v.reactiveSeen || m.reactive
    cascadingSeen := v.cascadingSeen || m.cascading
    all := v.all || (v.reactiveSeen || m.reactive) }
  (v1, inherit v1 m)

/-- `gen_resolved_symbols`, 428-484, with `inherit_reactivity` and not `yield_in_reverse`, from what `gen_symbols_for_attrsub_chain` gives: symbols,
marks of their atoms, and whether the chain goes on (`next_atom` is not `None`). `last`: symbol and marks of the turn before, 437. -/
def resolveFrom {σ : Type} (only : Bool) (v : Seen) (last : Option (σ × Marks × Bool)) : List (σ × Marks × Bool) → List (σ × Marks)
  | [] =>
    if v.all then [] else
      match last with
      | none => []
      | some (s, m, more) => if !more || !only then [(s, m)] else []
  | (s, m, more) :: l =>
    let (v1, m1) := turn v m
    if v1.all then (s, m1) :: resolveFrom only v1 (some (s, m1, more)) l
    else resolveFrom only v1 (some (s, m1, more)) l

/-- `gen_resolved_symbols`, 428-484. -/
def resolve {σ : Type} (only all : Bool) (l : List (σ × Marks × Bool)) : List (σ × Marks) := resolveFrom only { all := all } none l

end Verif.Ref
