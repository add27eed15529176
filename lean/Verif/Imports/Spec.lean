import Verif.Imports.Model

/-!
# What is asked of imports

The names a statement binds, read off its text, and whether an import finds everything it asks for; independent of how the statements are dealt with. -/

namespace Verif.Imports
open Verif

/-- The name that `import p as a` binds. -/
def importName (x : List String × Option String) : Option String :=
  match x.2 with
  | some a => some a
  | none => x.1.head?

/-- The name that `from p import x as a` binds. -/
def fromName (x : String × Option String) : String :=
  match x.2 with
  | some a => a
  | none => x.1

/-- The names that a statement binds: names given with `as`, or else the name itself, or the first part of a dotted one. -/
def boundNames : Stmt → List String
  | .assign n _ => [n]
  | .define n _ _ => [n]
  | .imports xs => xs.filterMap importName
  | .froms _ xs => xs.map fromName
  | _ => []

/-- Whether a statement is an import. -/
def IsImport : Stmt → Prop
  | .imports _ => True
  | .froms _ _ => True
  | _ => False

/-- An import finds everything it asks for. Other statements do not fail. -/
def Succeeds (w : World) : Stmt → Prop
  | .imports xs => ∀ x ∈ xs, x.1 ≠ [] ∧ (∃ o, w.sys x.1 = some o) ∧ (x.2 = none → ∀ c, x.1.head? = some c → ∃ o, w.sys [c] = some o)
  | .froms p xs => ∀ x ∈ xs, ∃ m, w.sys p = some m ∧ ((∃ o, w.attr m x.1 = some o) ∨ ∃ o, w.sys (p ++ [x.1]) = some o)
  | _ => True

/-- A statement binds or deletes a variable. -/
def Changes (w : World) (s : Stmt) (n : String) : Prop := (n ∈ boundNames s ∧ Succeeds w s) ∨ s = .del n

/-- The variable was last bound by an import (statements newest first). -/
inductive LastImport (w : World) (n : String) : List Stmt → Prop
  | here {s : Stmt} {h : List Stmt} : IsImport s → n ∈ boundNames s → Succeeds w s → LastImport w n (s :: h)
  | later {s : Stmt} {h : List Stmt} : ¬ Changes w s n → LastImport w n h → LastImport w n (s :: h)

/-- Names of packages that an import mentions without `as`: the outermost package of each module, by the name that the module has itself. For `from p import x` the module is `p.x` or
else `p`. -/
def mentioned (w : World) : Stmt → String → Prop
  | .imports xs, n => ∃ x ∈ xs, x.2 = none ∧ ∃ o, w.sys x.1 = some o ∧ (w.name o).head? = some n
  | .froms p xs, n => ∃ x ∈ xs, x.2 = none ∧ ∃ o, (w.sys (p ++ [x.1]) = some o ∨ (w.sys (p ++ [x.1]) = none ∧ w.sys p = some o)) ∧ (w.name o).head? = some n
  | _, _ => False

/-- An import of several names as imports of one name each. -/
def parts : Stmt → List Stmt
  | .imports xs => xs.map fun x => .imports [x]
  | .froms p xs => xs.map fun x => .froms p [x]
  | _ => []

/-- `import a.b`, which binds `a`. -/
def Dotted (s : Stmt) : Prop := ∃ c d cs, s = .imports [(c :: d :: cs, none)]

/-- What is recorded for the variable: that it has its value, and was updated when the last statement ran. -/
def Right (st : St) (n : String) : Prop := ∃ s o, recorded st n = some s ∧ Assoc.get st.vars n = some o ∧ s.obj = o ∧ s.ts = st.now

/-- Some symbol, whatever its name, refers to the object. -/
def Referred (st : St) (o : Obj) : Prop := ∃ k s, (k, s) ∈ st.syms ∧ s.obj = o

end Verif.Imports
