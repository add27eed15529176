import Verif.Versions.Model

/-! What the versions of a variable should be, in terms of what Python does only. -/

namespace Verif.Versions.Spec
open Verif Verif.Versions

/-- What the program sees when it looks at a variable. -/
inductive View where
  | num (n : Int)
  | dict (d : List (Nat × Int))
  deriving DecidableEq, Repr

/-- Equal in the sense of Python's `==`: the order of the elements of a dictionary does not matter. -/
def Same : View → View → Prop
  | .num n, .num m => n = m
  | .dict d, .dict e => ∀ k, Assoc.get d k = Assoc.get e k
  | _, _ => False

/-- The variables after the statements `h` (last first); `none` if one raises. -/
def run : List Stmt → Option Py
  | [] => some ⟨[], []⟩
  | s :: h => (run h).bind (exec h.length s)

/-- What `x` is. -/
def view (p : Py) (x : Nat) : Option View :=
  match Assoc.get p.env x with
  | some (.num n) => some (.num n)
  | some (.ref o) => (Assoc.get p.heap o).map .dict
  | none => none

/-- What `x` is after the statements `h`. -/
def now (h : List Stmt) (x : Nat) : Option View := (run h).bind fun p => view p x

/-- The variable that a statement binds. -/
def binds : Stmt → Option Nat
  | .num x _ _ => some x
  | .dict x _ => some x
  | .put .. => none
  | .same y _ => some y

/-- What `x` was right after the last statement that bound it. -/
def lastBound (x : Nat) : List Stmt → Option View
  | [] => none
  | s :: h => if binds s = some x then now (s :: h) x else lastBound x h

/-- `x` is a dictionary after `h`. -/
def isDict (h : List Stmt) (x : Nat) : Bool :=
  match now h x with
  | some (.dict _) => true
  | _ => false

/-- `x` and `y` are the same dictionary after `h`: `x is y`. -/
def shared (h : List Stmt) (x y : Nat) : Bool :=
  match run h with
  | some p => match Assoc.get p.env x, Assoc.get p.env y with
    | some (.ref o), some (.ref o') => decide (o = o')
    | _, _ => false
  | none => false

/-- The changes of `x`: what it was after each statement that bound it or changed the dictionary that it was. -/
def changes (x : Nat) : List Stmt → List (Option View)
  | [] => []
  | s :: h => changes x h ++
    match s with
    | .put y _ _ _ => if shared h x y then [now (s :: h) x] else []
    | _ => if binds s = some x then [now (s :: h) x] else []

/-- What is counted as a version of `x`, and what its code gives. A statement that binds `x` makes a version, and its code gives that value. One that
changes the dictionary makes a version, but the code gives what `x` was when it was bound. A statement that gives the dictionary another name makes a
version of `x`, though nothing changed; and it makes two versions of the new name, of which the first has no code (`none`). -/
def versions (x : Nat) : List Stmt → List (Option View)
  | [] => []
  | s :: h => versions x h ++
    match s with
    | .put y _ _ _ => if shared h x y then [lastBound x h] else []
    | .same y z =>
      if y = x then (if isDict h z then [none, now (s :: h) x] else [now (s :: h) x])
      else if shared h x z then [lastBound x h] else []
    | _ => if binds s = some x then [now (s :: h) x] else []

/-- No statement gives a dictionary another name. -/
def NoNames (h : List Stmt) : Prop := ∀ s ∈ h, ∀ y x, s ≠ .same y x

/-- The last statement that bound `y` was `y = {…}`. -/
def ownDict (y : Nat) : List Stmt → Bool
  | [] => false
  | s :: h => if binds s = some y then (match s with | .dict .. => true | _ => false) else ownDict y h

/-- What a statement adds up. -/
def operands : Stmt → List Operand
  | .num _ ops _ => ops
  | .dict _ items => items.flatMap fun i => i.2.1
  | .put _ _ ops _ => ops
  | .same .. => []

/-- Elements are read through the name that a dictionary was given when it was made, not through one that it was given later. -/
def Direct : List Stmt → Prop
  | [] => True
  | s :: h => Direct h ∧ ∀ y k, Operand.elt y k ∈ operands s → ownDict y h = true

/-- Links lead to earlier statements. -/
def Earlier (stat : Nat → List Nat) : Prop := ∀ t, ∀ u ∈ stat t, u < t

/-- The number of the last statement that bound `x` or changed the dictionary that it was. -/
def lastChange (x : Nat) : List Stmt → Option Nat
  | [] => none
  | s :: h =>
    match s with
    | .put y _ _ _ => if shared h x y then some h.length else lastChange x h
    | _ => if binds s = some x then some h.length else lastChange x h

/-- `x` is only ever bound: no statement changes the dictionary that it is at that moment or gives it another name, and `x` is not itself such
a name. -/
def Untouched (x : Nat) : List Stmt → Prop
  | [] => True
  | s :: h => Untouched x h ∧
    match s with
    | .put y _ _ _ => shared h x y = false
    | .same y z => shared h x z = false ∧ (y = x → isDict h z = false)
    | _ => True

/-- The number of the last statement that bound `x`, changed the dictionary that it was or gave it another name. -/
def lastTouched (x : Nat) : List Stmt → Option Nat
  | [] => none
  | s :: h =>
    match s with
    | .put y _ _ _ => if shared h x y then some h.length else lastTouched x h
    | .same y z => if y = x then some h.length else if shared h x z then some h.length else lastTouched x h
    | _ => if binds s = some x then some h.length else lastTouched x h

end Verif.Versions.Spec
