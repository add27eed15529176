import Verif.Inplace.Model

/-! What the program does, without any bookkeeping. -/

namespace Verif.Inplace.Spec
open Verif Verif.Inplace

/-- No variables. -/
def empty : Py := ⟨fun _ => none, fun _ => none⟩

/-- The variables after the statements `h` (last first); `none` if one raises. -/
def run : List Stmt → Option Py
  | [] => some empty
  | s :: h => (run h).bind (exec h.length s)

/-- The same, if only the statements with numbers in `C` are run. -/
def only (C : List Nat) : List Stmt → Option Py
  | [] => some empty
  | s :: h => (only C h).bind fun p => if h.length ∈ C then exec h.length s p else some p

/-- What the program sees when it looks at a variable. -/
inductive View where
  | num (n : Int)
  | set (l : List Int)
  deriving DecidableEq, Repr

/-- What `x` is. -/
def view (p : Py) (x : Nat) : Option View :=
  match p.env x with
  | some (.num n) => some (.num n)
  | some (.ref o) => (p.heap o).map .set
  | none => none

/-- The set that `x` is after `h`. -/
def obj (h : List Stmt) (x : Nat) : Option Nat :=
  match (run h).bind (fun p => p.env x) with
  | some (.ref o) => some o
  | _ => none

/-- The variable that a statement binds. -/
def binds : Stmt → Option Nat
  | .num x _ _ => some x
  | .fresh x => some x
  | .same y _ => some y
  | .change .. => none

/-- The variables that a statement reads. -/
def reads : Stmt → List Nat
  | .num _ ops _ => ops.map Op.var
  | .fresh _ => []
  | .same _ x => [x]
  | .change x _ ops _ => x :: ops.map Op.var

/-- The set has been changed by a method. -/
def Changed (o : Nat) : List Stmt → Prop
  | [] => False
  | s :: h => Changed o h ∨ ∃ x put ops c, s = .change x put ops c ∧ obj h x = some o

/-- `m` was passed on until `n` got its value from it (`w = m; n = w`), and `m` has not been bound again. -/
def From (m : Nat) : Nat → List Stmt → Prop
  | _, [] => False
  | n, s :: h =>
    if binds s = some n then m = n ∨ m ≠ n ∧ ∃ w, s = .same n w ∧ From m w h
    else if binds s = some m then False
    else From m n h

/-- The name `n` was given to a set before any method was called on it, and the first method was called through a name that did not get the set
through `n`. -/
def Lost (n : Nat) : List Stmt → Prop
  | [] => False
  | s :: h =>
    binds s ≠ some n ∧ (Lost n h ∨
      ∃ x put ops c o, s = .change x put ops c ∧ obj h x = some o ∧ obj h n = some o ∧ ¬ Changed o h ∧ ¬ From n x h)

/-- No statement reads such a name. -/
def Fine : List Stmt → Prop
  | [] => True
  | s :: h => Fine h ∧ ∀ n ∈ reads s, ¬ Lost n h

/-- Names are given to a set only after a method has changed it. -/
def Late : List Stmt → Prop
  | [] => True
  | s :: h => Late h ∧ ∀ y x o, s = .same y x → obj h x = some o → Changed o h

end Verif.Inplace.Spec
