import Verif.Fails.Model

/-! What an access gives when it is run, said without chains. -/

namespace Verif.Fails.Spec

open Ref (Const Index Exp Val Atom)

/-- What is there when the access is run. -/
structure Env where
  /-- the variables -/
  var : Nat → Option Obj
  /-- the attributes that lists, tuples and dicts have -/
  method : Nat → Option Obj
  /-- the value of an index that is not a constant -/
  index : Index → Option Val
  /-- what a call, or an expression that is not an access, gives -/
  result : Exp → Option Obj

/-- `o.a`, if it does not raise. -/
def attr (r : Env) (a : Nat) : Obj → Option Obj
  | .seq _ => r.method a
  | .dict _ _ => r.method a
  | .inst cls attrs _ => match Assoc.get attrs a with
    | some o => some o
    | none => (Assoc.get cls a).join

/-- The element of a sequence with this index: from the end, if it is negative. -/
def element (es : List Obj) (z : Int) : Option Obj :=
  if 0 ≤ z then es[z.toNat]? else if 0 ≤ z + es.length then es[(z + es.length).toNat]? else none

/-- `o[v]`, if it does not raise. -/
def item (v : Val) : Obj → Option Obj
  | .seq es => match v with
    | .one (.int z) => element es z
    | _ => none
  | .dict dflt items => match Assoc.get items v with
    | some o => some o
    | none => if dflt then some (.inst [] [] []) else none
  | .inst _ _ items => Assoc.get items v

/-- The value of an index. -/
def idx (r : Env) : Index → Option Val
  | .const c => some (.one c)
  | .neg (.int z) => some (.one (.int (-z)))
  | .neg (.num q b) => some (.one (.num q (!b)))
  | .neg _ => none
  | .tuple cs => some (.tup cs)
  | i => r.index i

/-- What an expression gives; `none` if it raises. -/
def value (r : Env) : Exp → Option Obj
  | .name x => r.var x
  | .attr e a => (value r e).bind (attr r a)
  | .sub e i => (value r e).bind fun o => (idx r i).bind fun v => item v o
  | .call f => (value r f).bind fun _ => r.result f
  | e => r.result e

/-- The key that an index spells out. -/
def key : Index → Option Val
  | .const c => some (.one c)
  | .neg (.int z) => some (.one (.int (-z)))
  | .tuple cs => some (.tup cs)
  | _ => none

/-- The variable that an access starts with and the names of the attributes and keys that follow, if all is spelled out and nothing is called. -/
def way : Exp → Option (List Val)
  | .name x => some [.one (.str x)]
  | .attr e a => (way e).map (· ++ [.one (.str a)])
  | .sub e i => (way e).bind fun p => (key i).map fun v => p ++ [v]
  | _ => none

/-- `p` is a proper part that `e` starts with: one of the objects on the way. -/
def Before (p : Exp) : Exp → Prop
  | .attr e _ => p = e ∨ Before p e
  | .sub e _ => p = e ∨ Before p e
  | _ => False

/-- `e` is one step further than `p`. -/
def Next (p e : Exp) : Prop := (∃ a, e = .attr p a) ∨ ∃ i, e = .sub p i

/-- The symbols that there are for the parts of an access are up to date. -/
def Current (w : World) (r : Env) (e : Exp) : Prop :=
  ∀ p, p = e ∨ Before p e → ∀ q o o', way p = some q → w.sym q = some o → value r p = some o' → o = o'

/-- There are symbols for an access and everything on the way. -/
def Known (w : World) (e : Exp) : Prop := ∀ p, p = e ∨ Before p e → ∀ q, way p = some q → (w.sym q).isSome

/-- A step that is never taken for a failing one if it does not fail: an attribute of something that is not a dict; an element of a list or tuple; a key of a dict that
does not make up values; an element of something else that is not named by a text, or by one that is the name of an attribute, too. -/
def Kept (o : Obj) : Exp → Prop
  | .attr _ _ => ∀ b l, o ≠ .dict b l
  | .sub _ i => match o with
    | .seq _ => True
    | .dict dflt _ => dflt = false
    | .inst cls attrs _ => ∀ c, key i = some (.one c) → (∃ a, c = .str a ∧ (a ∈ Assoc.keys cls ∨ a ∈ Assoc.keys attrs)) ∨ ∀ n z, c ≠ .str n ∧ c ≠ .digits z
  | _ => True

/-- A step that is taken for a failing one if it fails: an attribute of something that is not a list, tuple or dict, and not a property; a number that is not negative, for a
list or tuple; a key of a dict. -/
def Dropped (o : Obj) : Exp → Prop
  | .attr _ a => match o with
    | .inst cls _ _ => Assoc.get cls a ≠ some none
    | _ => False
  | .sub _ i => match o with
    | .seq _ => ∃ z : Nat, key i = some (.one (.int z))
    | .dict _ _ => True
    | .inst _ _ _ => False
  | _ => False

end Verif.Fails.Spec
