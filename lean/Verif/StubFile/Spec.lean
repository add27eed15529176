import Verif.StubFile.Model
import Verif.Annot.Stubs

/-!
# Files of annotations: what is promised

C149: a stub file registers the stubs outside of strings and those in strings with a condition that holds; other strings are comments; nothing but comparisons of the
version with numbers is evaluated. C150: the annotations of functions of modules that are or will be imported are in force.
-/

namespace Verif.StubFile
open Annot (Stub Applies OneArg Final)

variable {C F H G : Type}

/-! ## Conditions -/

/-- A literal number. -/
inductive Number : Expr → Rat → Prop where
  | int (n : Int) : Number (.const (.int n)) n
  | yes : Number (.const (.bool true)) 1
  | no : Number (.const (.bool false)) 0
  | float (q : Rat) : Number (.const (.float q)) q

/-- What the sides of a condition mean: the version with something after it, or up to three numbers. -/
inductive Means (p : Python) : Expr → List Rat → Prop where
  | version : Means p (.attr (.name .sys) .versionInfo) [(p.major : Rat), p.minor, p.micro, 0]
  | tuple {es qs} : List.Forall₂ Number es qs → qs.length ≤ 3 → Means p (.tuple es) qs

/-- What the operators mean for versions: `<` is the order of dictionaries. -/
def Rel : Op → List Rat → List Rat → Prop
  | .lt, a, b => a < b
  | .le, a, b => a < b ∨ a = b
  | .gt, a, b => b < a
  | .ge, a, b => b < a ∨ a = b
  | .eq, a, b => a = b
  | .ne, a, b => a ≠ b
  | _, _, _ => False

/-- The six operators that compare. -/
def Compares (op : Op) : Prop := op ∈ [Op.lt, .le, .gt, .ge, .eq, .ne]

/-- A condition: comparisons between the version and tuples of up to three numbers. -/
inductive Condition (p : Python) : Expr → Prop where
  | compare {l cs a} : Means p l a → (∀ c ∈ cs, Compares c.1 ∧ ∃ b, Means p c.2 b) → Condition p (.compare l cs)

/-- All comparisons hold, each side with the next one. -/
inductive AllHold (p : Python) : Expr → List (Op × Expr) → Prop where
  | nil {l} : AllHold p l []
  | cons {l op r cs a b} : Means p l a → Means p r b → Rel op a b → AllHold p r cs → AllHold p l ((op, r) :: cs)

/-- The condition holds. -/
def Holds (p : Python) : Expr → Prop
  | .compare l cs => AllHold p l cs
  | _ => False

/-- Nothing but `sys.version_info`, numbers and tuples of numbers stands on this side. -/
inductive Harmless : Expr → Prop where
  | version : Harmless (.attr (.name .sys) .versionInfo)
  | int (n : Int) : Harmless (.const (.int n))
  | tuple {es} : (∀ e ∈ es, ∃ q, Number e q) → Harmless (.tuple es)

/-! ## Files -/

/-- A comment whose first line is an expression, but not a comparison. -/
def Remark : Option Expr → Prop
  | some (.compare _ _) => False
  | some _ => True
  | none => False

mutual
/-- Every string is a condition, after a colon, with stubs that can be read, or a remark. -/
def TidyNode (p : Python) : Node C F → Prop
  | .line => False
  | .block mark header parses body => (mark = some ':' ∧ (∃ e, header = some e ∧ Condition p e) ∧ parses = true ∧ Tidy p body) ∨ Remark header
  | _ => True

/-- The same for a list of statements. -/
def Tidy (p : Python) : List (Node C F) → Prop
  | [] => True
  | n :: l => TidyNode p n ∧ Tidy p l
end

open Classical in
mutual
/-- The stubs of classes that apply: outside of strings, or under a condition that holds. -/
noncomputable def classesOf (p : Python) : Node C F → List (Stub C)
  | .cls s => [s]
  | .block mark header _ body => if mark = some ':' ∧ ∃ e, header = some e ∧ Holds p e then allClasses p body else []
  | _ => []

/-- The same for a list of statements. -/
noncomputable def allClasses (p : Python) : List (Node C F) → List (Stub C)
  | [] => []
  | n :: l => classesOf p n ++ allClasses p l
end

open Classical in
mutual
/-- The stubs of functions that apply. -/
noncomputable def functionsOf (p : Python) : Node C F → List (Stub F)
  | .fn s => [s]
  | .block mark header _ body => if mark = some ':' ∧ ∃ e, header = some e ∧ Holds p e then allFunctions p body else []
  | _ => []

/-- The same for a list of statements. -/
noncomputable def allFunctions (p : Python) : List (Node C F) → List (Stub F)
  | [] => []
  | n :: l => functionsOf p n ++ allFunctions p l
end

/-- The stub `n` stands in the file, inside of strings with harmless comparisons only. -/
inductive Inside (n : Node C F) : List (Node C F) → Prop where
  | here {l} : n ∈ l → Inside n l
  | block {l mark lhs cs parses body} : .block mark (some (.compare lhs cs)) parses body ∈ l → Harmless lhs → (∀ c ∈ cs, Harmless c.2) → Inside n body → Inside n l

open Classical in
/-- Those of a list of stubs in the file for `file` that are for module `m`. -/
noncomputable def forModule {B : Type} (file m : Nat) (l : List (Stub B)) : List (Stub B) := l.filter fun s => decide (Applies file s m)

/-- Decorators `@module` have one argument. -/
def OneModule {B : Type} (l : List (Stub B)) : Prop := ∀ s ∈ l, ∀ args, .module args ∈ s.decs → args.length = 1

/-! ## Sessions -/

/-- The modules that were imported. -/
def Imported (m : Nat) (hist : List (Act C (Option H))) : Prop := Act.imp m ∈ hist

/-- The files that an act registers. -/
def filesOf : Act C F → List (File C F)
  | .imp _ => []
  | .file f => [f]
  | .dir fs => fs.filter (·.pyi)

/-- The stubs of functions for module `m` that were registered, in their order. -/
noncomputable def stubs (p : Python) (m : Nat) : List (Act C (Option H)) → List (Stub (Option H))
  | [] => []
  | a :: h => stubs p m h ++ (filesOf a).flatMap fun f => forModule f.name m (allFunctions p f.nodes)

/-- All files are well-formed. -/
def AllTidy (p : Python) (hist : List (Act C (Option H))) : Prop :=
  ∀ a ∈ hist, ∀ f ∈ filesOf a, f.parses = true ∧ Tidy p f.nodes ∧ OneModule (allFunctions p f.nodes)

/-- Files that are registered on their own have stubs for modules only that have not been imported yet. -/
def InTime (p : Python) : List (Act C (Option H)) → Prop
  | [] => True
  | .file f :: h => (∀ m, Imported m h → forModule f.name m (allFunctions p f.nodes) = []) ∧ InTime p h
  | .imp _ :: h => InTime p h
  | .dir _ :: h => InTime p h

/-- `g` is the attribute `x` of module `m`, and of no other module or name. -/
def OnlyAt (exports : Nat → Nat → Option G) (m x : Nat) (g : G) : Prop := ∀ m' x', exports m' x' = some g ↔ m' = m ∧ x' = x

end Verif.StubFile
