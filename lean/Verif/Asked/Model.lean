import Verif.Base.Dfs

/-!
# What commands answer about: model

`_resolve_symbol` (`core/ipyflow/line_magics.py` 212-229), used by `%flow deps` and `%flow code`, with `SymbolRef.from_string`, `to_symbol` and `resolve`
(`core/ipyflow/analysis/symbol_ref.py` 363-387), the visitor of references (163-310) and `gen_symbols_for_attrsub_chain` (`core/ipyflow/data_model/scope.py` 150-175). Simplified:
no classes behind objects, no tuples and negative numbers as subscripts, everything is looked up from the cells (the global scope). Symbols are numbers. -/

namespace Verif.Asked
open Verif

/-- A name of a variable or attribute, or a string. -/
abbrev Name := Nat

/-- Keys of the tables of a namespace: strings, numbers, and numbers written as strings (`symbol_ref.py` 229). -/
inductive Key where
  | name (n : Name)
  | index (i : Nat)
  | digits (i : Nat)
  deriving DecidableEq, Repr

/-- What stands between square brackets, `symbol_ref.py` 32-80: a constant, a name, anything else. -/
inductive Sub where
  | const (k : Key)
  | var (n : Name)
  | other
  deriving DecidableEq, Repr

/-- Expressions, as far as the visitor tells them apart, `symbol_ref.py` 218-310. -/
inductive Expr where
  | name (n : Name)
  | attr (e : Expr) (n : Name)
  | sub (e : Expr) (s : Sub)
  | call (f : Expr)
  | literal
  | display
  | other
  deriving DecidableEq, Repr

/-- The text behind the command, as `ast.parse` sees it (`line_magics.py` 214-222): nothing, not Python, only a comment, one expression, or other statements (with the value of the
first, if it has one). -/
inductive Text where
  | none
  | broken
  | comment
  | expr (e : Expr)
  | stmts (v : Option Expr)

/-- `Atom`, `symbol_ref.py` 87-100. -/
structure Atom where
  key : Key
  callpoint : Bool
  deriving DecidableEq, Repr

/-- `str(sliceval)`, `symbol_ref.py` 229. -/
def asText : Key → Key
  | .index i => .digits i
  | k => k

/-- The visitor, `symbol_ref.py` 218-310, in the order of the chain; nothing for the `ValueError` of literals. The scope is not given (`from_string`, 363-366), so names in brackets
are passed over (254-258). -/
def visit : Expr → Option (List Atom)
  | .name n => some [⟨.name n, false⟩]
  | .attr e n => (visit e).map (· ++ [⟨.name n, false⟩])
  | .sub e (.const k) => (visit e).map (· ++ [⟨k, false⟩])
  | .sub e _ => visit e
  | .call (.attr e n) => (visit e).map (· ++ [⟨.name n, true⟩])
  | .call (.sub e (.const k)) => (visit e).map (· ++ [⟨asText k, true⟩])
  | .call (.sub e _) => visit e
  | .call (.name n) => some [⟨.name n, true⟩]
  | .call _ => some []
  | .literal => none
  | .display => none
  | .other => some []

/-- The tables of a namespace, `namespace.py` 252-267. -/
structure Ns where
  attrs : Name → Option Nat
  subs : Key → Option Nat

/-- The global scope and the namespaces of symbols, `scope.py` 118-134, 171. -/
structure World where
  root : Name → Option Nat
  nsOf : Nat → Option Ns

/-- `lookup_symbol_by_name_this_indentation` of a namespace without `is_subscript`, `namespace.py` 260-263. -/
def Ns.here (ns : Ns) (k : Key) : Option Nat :=
  match k with
  | .name n =>
    match ns.attrs n with
    | some s => some s
    | none => ns.subs k
  | _ => ns.subs k

/-- `lookup_symbol_by_name` of the global scope, `scope.py` 118-134. -/
def World.top (w : World) (k : Key) : Option Nat :=
  match k with
  | .name n => w.root n
  | _ => none

/-- `gen_symbols_for_attrsub_chain`, `scope.py` 150-175. -/
def gen (w : World) (find : Key → Option Nat) : List Atom → List Nat
  | [] => []
  | a :: rest =>
    match find a.key with
    | none => []
    | some s =>
      s :: if a.callpoint then [] else
        match w.nsOf s with
        | none => []
        | some ns => gen w ns.here rest

/-- `SymbolRef.resolve`, `symbol_ref.py` 363-387: nodes of other kinds are a `TypeError` (341-359); of the symbols along the chain the last one is taken (`yield_in_reverse`, 442-453). -/
def resolve (w : World) (e : Expr) : Except Err (Option Nat) :=
  match e with
  | .literal => .error .crash
  | .display => .error .crash
  | .other => .error .crash
  | e => .ok (gen w w.top ((visit e).getD [])).getLast?

/-- `_resolve_symbol`, `line_magics.py` 212-229. Nothing stands for a warning. The text is parsed a second time as an expression (`symbol_ref.py` 366): a `SyntaxError` for other
statements. The first statement is taken for an expression (217): an `IndexError` if there is none, an `AttributeError` if it has no value. -/
def answer (w : World) : Text → Except Err (Option Nat)
  | .none => .ok none
  | .broken => .ok none
  | .comment => .error .crash
  | .stmts none => .error .crash
  | .stmts (some v) => if v = .display then .ok none else .error .crash
  | .expr e => if e = .display then .ok none else resolve w e

end Verif.Asked
