import Verif.Funct.Model

/-! What running a slice gives. -/

namespace Verif.Funct.Spec

/-- The value of an expression, if it has one. -/
inductive Has (g : Nat → Option Val) : Exp → Val → Prop
  | none : Has g .none .none
  | num (z : Int) : Has g (.num z) (.num z)
  | var {x : Nat} {v : Val} : g x = some v → Has g (.var x) v
  | add {a b : Exp} {x y : Int} : Has g a (.num x) → Has g b (.num y) → Has g (.add a b) (.num (x + y))

/-- Running statements one after the other in the notebook, without an error: the variables change from `g`, and the value of the last statement, if it is an expression, is shown. -/
inductive Runs : (Nat → Option Val) → List Stmt → Val → Prop
  | done (g) : Runs g [] .none
  | assign {g x e v l r} : Has g e v → Runs (fun y => if y = x then some v else g y) l r → Runs g (.assign x e :: l) r
  | last {g e v} : Has g e v → Runs g [.expr e] v
  | expr {g e v s l r} : Has g e v → Runs g (s :: l) r → Runs g (.expr e :: s :: l) r

/-- What is in a line. -/
def parts : Line → List Stmt
  | .simple ss => ss
  | .wide s _ => [s]

/-- Running the slice. -/
def RunsAll (g : Nat → Option Val) (ls : List Line) (r : Val) : Prop := Runs g (ls.flatMap parts) r

/-- The global variables, but those that are given have the values given. -/
def over (g kw : List (Nat × Val)) (x : Nat) : Option Val := (Assoc.get kw x).or (Assoc.get g x)

/-- `x` occurs in `e`. -/
def In (x : Nat) : Exp → Prop
  | .var y => x = y
  | .add a b => In x a ∨ In x b
  | _ => False

/-- The statements need `x`: it is read before it is assigned. -/
def Needs (x : Nat) : List Stmt → Prop
  | [] => False
  | .assign y e :: l => In x e ∨ (x ≠ y ∧ Needs x l)
  | .expr e :: l => In x e ∨ Needs x l

/-- The slice needs `x`. -/
def NeedsAll (x : Nat) (ls : List Line) : Prop := Needs x (ls.flatMap parts)

/-- The slice assigns `x`. -/
def Assigns (x : Nat) (ls : List Line) : Prop := ∃ l ∈ ls, ∃ e, Stmt.assign x e ∈ parts l

/-- The last line is one statement and no more; if it takes more than one line, it is an assignment, and its last line is not an expression by itself. -/
def Neat (ls : List Line) : Prop := ∃ init s, ls = init ++ [.simple [s]] ∨ (∃ x e, s = .assign x e ∧ ls = init ++ [.wide s false])

end Verif.Funct.Spec
