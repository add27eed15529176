import Verif.Pending.Model

/-! Which library calls a piece of code makes, said without the tracer. -/

namespace Verif.Pending.Spec

variable {N V : Type}

/-- A library call that was made: with all its arguments, and what it returned, or `none` if it raised. -/
structure Made (N V : Type) where
  call : N
  args : List V
  res : Option V

/-- The call that is made at the top of an expression, if its arguments can be evaluated. -/
def here (c : N) (k : Kind) (vs : Option (List V)) (res : Option V) : List (Made N V) := match k, vs with
  | .lib, some vs => [⟨c, vs, res⟩]
  | _, _ => []

mutual
/-- The library calls an expression makes. -/
def made : Expr N V → List (Made N V)
  | .leaf _ => []
  | .op _ args => madeAll args
  | .call c k _ args res => madeAll args ++ here c k (values args) res
/-- The library calls that some expressions make, one after the other up to the first that raises. -/
def madeAll : List (Expr N V) → List (Made N V)
  | [] => []
  | e :: es => made e ++ (if e.value.isSome then madeAll es else [])
end

mutual
/-- The library calls a statement makes. -/
def stmtMade : Stmt N V → List (Made N V)
  | .simple e => made e
  | .for e _ => made e
  | .try b h => blockMade b ++ (if okAll b then [] else blockMade h)
/-- The library calls that statements make. -/
def blockMade : List (Stmt N V) → List (Made N V)
  | [] => []
  | s :: ss => stmtMade s ++ (if s.ok then blockMade ss else [])
end

mutual
/-- No call in the expression turns tracing off. -/
def strict : Expr N V → Bool
  | .leaf _ => true
  | .op _ args => strictAll args
  | .call _ k off args _ => k ≠ .odd && !off && strictAll args
/-- The same for each of some expressions. -/
def strictAll : List (Expr N V) → Bool
  | [] => true
  | e :: es => strict e && strictAll es
end

mutual
/-- There is no call in the expression. -/
def plain : Expr N V → Bool
  | .leaf _ => true
  | .op _ args => plainAll args
  | .call .. => false
/-- The same for each of some expressions. -/
def plainAll : List (Expr N V) → Bool
  | [] => true
  | e :: es => plain e && plainAll es
end

mutual
/-- Tracing is not turned off while the arguments of a library call are evaluated, nor by what raises; methods of the shell are given no calls as arguments. -/
def quiet : Expr N V → Bool
  | .leaf _ => true
  | .op _ args => quietAll args
  | .call _ .lib off args res => strictAll args && (!off || res.isSome)
  | .call _ .own off args res => quietAll args && (!off || res.isSome)
  | .call _ .odd _ args res => plainAll args && res.isSome
/-- The same for each of some expressions. -/
def quietAll : List (Expr N V) → Bool
  | [] => true
  | e :: es => quiet e && quietAll es
end

mutual
/-- The same for the expressions of a statement. -/
def stmtQuiet : Stmt N V → Bool
  | .simple e => quiet e
  | .for e _ => quiet e
  | .try b h => blockQuiet b && blockQuiet h
/-- The same for the expressions of some statements. -/
def blockQuiet : List (Stmt N V) → Bool
  | [] => true
  | s :: ss => stmtQuiet s && blockQuiet ss
end

/-- A record is of the call, with its arguments, and with its result if it has one. -/
def Of (r : Rec N V) (m : Made N V) : Prop := r.call = m.call ∧ r.args = m.args ∧ (m.res ≠ none → r.ret = m.res)

end Verif.Pending.Spec
