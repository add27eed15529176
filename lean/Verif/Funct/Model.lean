import Verif.Base.Assoc
import Mathlib.Data.List.Dedup

/-!
# Functions made from slices

Models `Slice.to_function`, `core/ipyflow/slicing/mixin.py` 165-197, and calls of what it returns.

The text of a slice is given by its lines. Statements are assignments and expressions; expressions are numbers, `None`, variables and sums. A statement may take several lines; what matters
then is whether the last one of them is an expression by itself. Text in quotes over several lines, which is indented together with the code (193), is left out, and so are statements in blocks.
Names are numbers. The live references of a text without blocks are the names that are read before they are assigned (`Verif.Live`). -/

namespace Verif.Funct

/-- Values. -/
inductive Val where
  | none
  | num (z : Int)
  deriving DecidableEq, Repr

/-- Expressions. -/
inductive Exp where
  | none
  | num (z : Int)
  | var (x : Nat)
  | add (a b : Exp)
  deriving DecidableEq, Repr

/-- Statements. -/
inductive Stmt where
  | assign (x : Nat) (e : Exp)
  | expr (e : Exp)
  deriving DecidableEq, Repr

/-- Lines: `s; t; ..`, where no statement stands for a comment, or a statement over several lines; `alone`: the last one is an expression by itself, as in `x = 1 + \` and then `y`. -/
inductive Line where
  | simple (ss : List Stmt)
  | wide (s : Stmt) (alone : Bool)
  deriving DecidableEq, Repr

/-- Statements in the body of the function. -/
inductive FStmt where
  | stmt (s : Stmt)
  | ret (e : Exp)
  deriving DecidableEq, Repr

/-- The statements of a line. -/
def stmts : Line → List Stmt
  | .simple ss => ss
  | .wide s _ => [s]

/-- The last statement is an expression: `isinstance(last_stmt.body[-1], ast.Expr)`, `mixin.py` 170. -/
def endsInExpr (ss : List Stmt) : Bool := match ss.getLast? with
  | some (.expr _) => true
  | _ => false

/-- `return` is put before the line, `mixin.py` 171. `none`: that is no statement. -/
def prefixed : List Stmt → Option (List FStmt)
  | .expr e :: ss => some (.ret e :: ss.map .stmt)
  | _ => none

/-- The last line, `mixin.py` 168-173. `none`: an error, an `IndexError` if it is a comment, or what the line becomes has no meaning. -/
def lastLine : Line → Option (List FStmt)
  | .simple [] => none
  | .simple ss => if endsInExpr ss then prefixed ss else some (ss.map .stmt)
  | .wide s alone => if alone then none else some [.stmt s]

/-- The body, `mixin.py` 167-174. -/
def body (ls : List Line) : Option (List FStmt) := match ls.getLast? with
  | none => none
  | some l => (lastLine l).map fun b => (ls.dropLast.flatMap stmts).map .stmt ++ b

/-- Names that an expression reads. -/
def reads : Exp → List Nat
  | .none => []
  | .num _ => []
  | .var x => [x]
  | .add a b => reads a ++ reads b

/-- `compute_live_dead_symbol_refs`, `mixin.py` 176-178: names that are read and not in `killed`. -/
def live (killed : List Nat) : List FStmt → List Nat
  | [] => []
  | .stmt (.assign x e) :: l => (reads e).filter (· ∉ killed) ++ live (x :: killed) l
  | .stmt (.expr e) :: l => (reads e).filter (· ∉ killed) ++ live killed l
  | .ret e :: l => (reads e).filter (· ∉ killed) ++ live killed l

/-- What `to_function` makes. -/
structure Fn where
  params : List Nat
  body : List FStmt
  deriving DecidableEq, Repr

/-- `to_function`, `mixin.py` 165-197. `taken`: names of builtins and of modules that are loaded (179-181). `order`: how the set of names becomes a list (182). -/
def toFunction (taken : Nat → Bool) (order : List Nat → List Nat) (ls : List Line) : Option Fn :=
  (body ls).map fun b => ⟨order ((live [] b).dedup.filter fun x => !taken x), b⟩

/-- Names that the body assigns; Python makes these and the parameters local to the function that is defined in `mixin.py` 191-196. -/
def assigned : List FStmt → List Nat
  | [] => []
  | .stmt (.assign x _) :: l => x :: assigned l
  | _ :: l => assigned l

/-- Python: evaluation of an expression in the function of `mixin.py` 191-196; `none`: it raises. -/
def eval (look : Nat → Option Val) : Exp → Option Val
  | .none => some .none
  | .num z => some (.num z)
  | .var x => look x
  | .add a b => match eval look a, eval look b with
    | some (.num x), some (.num y) => some (.num (x + y))
    | _, _ => none

/-- Python: what a name is in the function of `mixin.py` 191-196, where `env` are the local variables that have a value and `g` is `global_env` (195). -/
def look (locals : List Nat) (g env : List (Nat × Val)) (x : Nat) : Option Val := if x ∈ locals then Assoc.get env x else Assoc.get g x

/-- Python: execution of the body of the function of `mixin.py` 191-196. -/
def exec (locals : List Nat) (g : List (Nat × Val)) : List FStmt → List (Nat × Val) → Option Val
  | [], _ => some .none
  | .ret e :: _, env => eval (look locals g env) e
  | .stmt (.expr e) :: l, env => match eval (look locals g env) e with
    | none => none
    | some _ => exec locals g l env
  | .stmt (.assign x e) :: l, env => match eval (look locals g env) e with
    | none => none
    | some v => exec locals g l (Assoc.set env x v)

/-- The lines that are put in front, `mixin.py` 183-189: parameters that are `None` get the value of the global variable of the caller. `none`: a `KeyError`. -/
def fill (caller kw : List (Nat × Val)) : List Nat → Option (List (Nat × Val))
  | [] => some []
  | x :: xs => match (match Assoc.get kw x with
      | some (.num z) => some (.num z)
      | _ => Assoc.get caller x), fill caller kw xs with
    | some v, some env => some ((x, v) :: env)
    | _, _ => none

/-- A call with keywords, by code whose global variables are `caller`; `g`: those of the notebook, `mixin.py` 191-197. `none`: it raises, for example because there is no such parameter. -/
def call (f : Fn) (caller g kw : List (Nat × Val)) : Option Val :=
  if (Assoc.keys kw).all (· ∈ f.params) then (fill caller kw f.params).bind (exec (f.params ++ assigned f.body) g f.body) else none

/-- A call with arguments without names, `mixin.py` 193. -/
def callPos (f : Fn) (caller g : List (Nat × Val)) (vs : List Val) : Option Val :=
  if vs.length ≤ f.params.length then call f caller g (f.params.zip vs) else none

end Verif.Funct
