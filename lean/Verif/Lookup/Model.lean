import Mathlib.Tactic.Basic

/-!
# Looking up names and chains

Models `Scope.non_namespace_parent_scope`, `lookup_symbol_by_name`, `lookup_symbol_by_qualified_name`, `gen_symbols_for_attrsub_chain`,
`get_most_specific_symbol_for_attrsub_chain`, `try_fully_resolve_attrsub_chain` of `core/ipyflow/data_model/scope.py` 93-192 and the overrides
`Namespace._lookup_subscript`, `lookup_symbol_by_name_this_indentation`, `lookup_symbol_by_name` of `namespace.py` 234-281.

Names are numbers. `σ` are symbols. Scopes and class namespaces are given as trees rather than as objects in a heap: none of the functions
changes them, and links to parents and to the namespace cloned from do not form cycles. -/

namespace Verif.Lookup

/-- A key of the tables of a namespace, `types.py` `SupportedIndexType`: text or a whole number. -/
inductive Key where
  | str (n : Nat)
  | int (z : Int)
deriving DecidableEq

/-- A `Namespace`: `_symbol_by_name`, `_subscript_symbol_by_name`, the length of the object if it is a sequence, the names in the
`__dict__` of the object, `cloned_from`, `namespace.py` 41-88. -/
inductive Ns (σ : Type) where
  | mk (attrs : Nat → Option σ) (subs : Key → Option σ) (len : Option Nat) (dict : Nat → Bool) (base : Option (Ns σ))

variable {σ : Type}

/-- `Namespace._lookup_subscript`, `namespace.py` 234-245. -/
def lookupSubscript (subs : Key → Option σ) (len : Option Nat) (k : Key) : Option σ :=
  match subs k with
  | some s => some s
  | none =>
    match len, k with
    | some n, .int z => if z < 0 then subs (.int (n + z)) else none
    | _, _ => none

/-- `_symbol_by_name.get`, for any key. -/
def attrAt (attrs : Nat → Option σ) : Key → Option σ
  | .str n => attrs n
  | .int _ => none

/-- `Namespace.lookup_symbol_by_name_this_indentation`, `namespace.py` 252-280, without `skip_cloned_lookup`. -/
def Ns.here : Ns σ → Key → Option Bool → Option σ
  | .mk attrs subs len dict base, k, isSub =>
    let ret := match isSub with
      | none => (attrAt attrs k).or (lookupSubscript subs len k)
      | some true => lookupSubscript subs len k
      | some false => attrAt attrs k
    match ret, base, isSub, k with
    | some s, _, _, _ => some s
    | none, none, _, _ => none
    | none, some _, some true, _ => none
    | none, some b, isSub, .str n => if dict n then none else b.here (.str n) isSub
    | none, some _, _, .int _ => none

/-- A scope on the way from the current one to the global one: a plain `Scope` with its table, or a `Namespace`. -/
inductive Frame (σ : Type) where
  | plain (tab : Nat → Option σ)
  | ns (n : Ns σ)

/-- `is_namespace_scope`, `scope.py` 468-470 and `namespace.py` 90-92. -/
def Frame.isNs : Frame σ → Bool
  | .plain _ => false
  | .ns _ => true

/-- `non_namespace_parent_scope`, `scope.py` 92-100: from the enclosing scopes, innermost first. `[]` is `None`. -/
def nonNsParents : List (Frame σ) → List (Frame σ)
  | [] => []
  | f :: fs => if f.isNs then nonNsParents fs else f :: fs

theorem nonNsParents_length (fs : List (Frame σ)) : (nonNsParents fs).length ≤ fs.length := by
  induction fs with
  | nil => simp [nonNsParents]
  | cons f fs ih => unfold nonNsParents; split <;> simp <;> omega

/-- `lookup_symbol_by_name_this_indentation`, `scope.py` 120-123, `namespace.py` 252-280. -/
def Frame.here (f : Frame σ) (k : Key) : Option σ :=
  match f with
  | .plain tab => attrAt tab k
  | .ns n => n.here k none

/-- `Scope.lookup_symbol_by_name`, `scope.py` 128-134, and the override `namespace.py` 282-286. The list is the scope itself and those
that enclose it. -/
def lookup : List (Frame σ) → Key → Option σ
  | [], _ => none
  | .ns n :: _, k => n.here k none
  | .plain tab :: fs, k =>
    match attrAt tab k with
    | some s => some s
    | none => lookup (nonNsParents fs) k
  termination_by fs => fs.length
  decreasing_by
    have := nonNsParents_length fs
    simp
    omega

/-- `Atom`, `symbol_ref.py` 87-100, without the marks. -/
structure Atom where
  value : Key
  callpoint : Bool := false
  subscript : Bool := false
deriving DecidableEq

/-- `gen_symbols_for_attrsub_chain`, `scope.py` 150-175, from an object on: the namespace it is looked up in. `nsOf` is `Symbol.namespace`. -/
def genFrom (nsOf : σ → Option (Ns σ)) (find : Key → Option σ) : List Atom → List (σ × Atom × Option Atom)
  | [] => []
  | a :: rest =>
    match find a.value with
    | none => []
    | some s =>
      (s, a, rest.head?) :: if a.callpoint then [] else
        match nsOf s with
        | none => []
        | some n => genFrom nsOf (fun k => n.here k none) rest

/-- `gen_symbols_for_attrsub_chain`, `scope.py` 150-175. -/
def gen (nsOf : σ → Option (Ns σ)) (scope : List (Frame σ)) (chain : List Atom) : List (σ × Atom × Option Atom) :=
  genFrom nsOf (lookup scope) chain

/-- `get_most_specific_symbol_for_attrsub_chain`, `scope.py` 177-186. -/
def mostSpecific (nsOf : σ → Option (Ns σ)) (scope : List (Frame σ)) (chain : List Atom) : Option (σ × Atom × Option Atom) :=
  (gen nsOf scope chain).getLast?

/-- `try_fully_resolve_attrsub_chain`, `scope.py` 188-192. -/
def fully (nsOf : σ → Option (Ns σ)) (scope : List (Frame σ)) (chain : List Atom) : Option σ :=
  match (gen nsOf scope chain).getLast? with
  | none => none
  | some (s, _, next) => if next.isNone then some s else none

/-- `lookup_symbol_by_qualified_name`, `scope.py` 136-148: parts after the first, from a symbol. -/
def qualifiedFrom (nsOf : σ → Option (Ns σ)) (s : σ) : List Nat → Option σ
  | [] => some s
  | n :: rest =>
    match nsOf s with
    | none => none
    | some m =>
      match m.here (.str n) (some false) with
      | none => none
      | some s' => qualifiedFrom nsOf s' rest

/-- `lookup_symbol_by_qualified_name`, `scope.py` 136-148, of a plain scope; the list of parts is not empty. -/
def qualified (nsOf : σ → Option (Ns σ)) (tab : Nat → Option σ) : List Nat → Option σ
  | [] => none
  | n :: rest =>
    match tab n with
    | none => none
    | some s => qualifiedFrom nsOf s rest

end Verif.Lookup
