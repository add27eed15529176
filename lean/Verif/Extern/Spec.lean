import Verif.Extern.Model

/-!
# Vocabulary for C114
-/

namespace Verif.Extern
open Verif

/-- The methods of built-in containers that change the container (Python library reference). -/
inductive Changes : Kind → Meth → Prop
  | listAppend : Changes .list .append
  | listExtend : Changes .list .extend
  | listInsert : Changes .list .insert
  | listRemove : Changes .list .remove
  | listPop : Changes .list .pop
  | listClear : Changes .list .clear
  | listSort : Changes .list .sort
  | listReverse : Changes .list .reverse
  | dictClear : Changes .dict .clear
  | dictPop : Changes .dict .pop
  | dictPopitem : Changes .dict .popitem
  | dictSetdefault : Changes .dict .setdefault
  | dictUpdate : Changes .dict .update
  | setAdd : Changes .set .add
  | setClear : Changes .set .clear
  | setDiscard : Changes .set .discard
  | setRemove : Changes .set .remove
  | setPop : Changes .set .pop
  | setUpdate : Changes .set .update
  | setDifferenceUpdate : Changes .set .differenceUpdate
  | setIntersectionUpdate : Changes .set .intersectionUpdate
  | setSymmetricDifferenceUpdate : Changes .set .symmetricDifferenceUpdate

/-- Those of them that return an element or a value; the others return `None`. -/
inductive Gives : Kind → Meth → Prop
  | listPop : Gives .list .pop
  | dictPop : Gives .dict .pop
  | dictPopitem : Gives .dict .popitem
  | dictSetdefault : Gives .dict .setdefault
  | setPop : Gives .set .pop

/-- The call is `o.m(…)` for a list, dictionary or set. -/
structure OnContainer (w : World) (c : Call) (o : Nat) (m : Meth) : Prop where
  caller : c.caller = some o
  method : c.method = some m
  func : c.func = .meth (w.kind o) m
  module : c.module = none
  kind : w.kind o = .list ∨ w.kind o = .dict ∨ w.kind o = .set
  returns : Changes (w.kind o) m → ¬ Gives (w.kind o) m → c.ret = 0

/-- The call is `o.m(…)` for an object of a class of a library that is not annotated. -/
structure OnOther (w : World) (c : Call) (o : Nat) (m : Meth) : Prop where
  caller : c.caller = some o
  method : c.method = some m
  func : c.func = .plain
  module : ∀ k, c.module = some k → w.kind k = .module ∨ w.kind k = .excepted
  kind : w.kind o = .other

/-- The call is `f(…)` for a function of a module, or `module.f(…)`, that is not annotated. -/
structure OfModule (w : World) (c : Call) (k : Nat) : Prop where
  caller : c.caller = none ∨ c.caller = some k
  module : c.module = some k
  func : c.func = .plain
  kind : w.kind k = .module

/-- The names in the table name the object. -/
def Wf (w : World) : Prop := ∀ o s, s ∈ w.names o → (w.sym s).obj = o

/-- A variable by which the object is called in the call, if it is called by a variable at all:
`s` has the name written there, or nothing with a name is written there. -/
def CalledBy (w : World) (c : Call) (o s : Nat) : Prop :=
  s ∈ w.names o ∧ (w.sym s).loaded = false ∧ ∀ n, c.name = some n → (w.sym s).name = n

/-- The change of `s` is recorded, with what it depends on then. -/
def Marked (r : Rec) (s : Nat) (d : List Nat) : Prop := (s, d) ∈ r.marks

/-- The variable is found in an argument. -/
def InArgs (c : Call) (s : Nat) : Prop := ∃ a, (a ∈ c.args ∨ a ∈ c.kwargs) ∧ s ∈ a.2

end Verif.Extern
