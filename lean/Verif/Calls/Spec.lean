import Verif.Calls.Model

/-! What Python does, without any bookkeeping. -/

namespace Verif.Calls.Spec
open Verif.Calls

/-- Values. -/
inductive PV where
  | int (n : Int)
  | fn (c : Int) (ys : List Nat)
  deriving DecidableEq, Repr

/-- Global variables. -/
abbrev PEnv := Nat → Option PV

/-- The sum of variables; an unset variable or a function raises. -/
def sum (ρ : PEnv) : List Nat → Option Int
  | [] => some 0
  | y :: r =>
    match ρ y, sum ρ r with
    | some (.int n), some m => some (n + m)
    | _, _ => none

/-- The value of `y` or `f()`. -/
def value (ρ : PEnv) : Op → Option Int
  | .name y =>
    match ρ y with
    | some (.int n) => some n
    | _ => none
  | .call f =>
    match ρ f with
    | some (.fn c ys) => (sum ρ ys).map (c + ·)
    | _ => none

/-- The value of a sum. -/
def total (ρ : PEnv) : List Op → Option Int
  | [] => some 0
  | o :: r =>
    match value ρ o, total ρ r with
    | some n, some m => some (n + m)
    | _, _ => none

/-- A statement. -/
def exec (ρ : PEnv) : Stmt → Option PEnv
  | .set x c e => (total ρ e).map fun n => upd ρ x (some (.int (c + n)))
  | .defn f c ys => some (upd ρ f (some (.fn c ys)))

/-- A program; `none` if it raises. -/
def runAll (ρ : PEnv) : List Stmt → Option PEnv
  | [] => some ρ
  | s :: r =>
    match exec ρ s with
    | some ρ' => runAll ρ' r
    | none => none

/-- A cell: what a statement that raises leaves behind is kept. -/
def cell (ρ : PEnv) : List Stmt → PEnv
  | [] => ρ
  | s :: r =>
    match exec ρ s with
    | some ρ' => cell ρ' r
    | none => ρ

/-- The variables after the cells, newest first. -/
def notebook : List (List Stmt) → PEnv
  | [] => fun _ => none
  | c :: h => cell (notebook h) c

/-- The statement sets the variable. -/
def Sets : Stmt → Nat → Prop
  | .set x _ _, y => x = y
  | .defn f _ _, y => f = y

/-- The statement calls the function. -/
def CallsFn : Stmt → Nat → Prop
  | .set _ _ e, f => .call f ∈ e
  | .defn _ _ _, _ => False

/-- The function as it is now was called in `pre`. -/
def Called (pre : List Stmt) (f : Nat) : Prop :=
  ∃ p₁ s p₂, pre = p₁ ++ s :: p₂ ∧ CallsFn s f ∧ ∀ w ∈ s :: p₂, ¬ Sets w f

/-- In the cell, no function is called a second time to read a variable that the cell has set. -/
def QuietCell (ρ : PEnv) (c : List Stmt) : Prop :=
  ∀ pre s post, c = pre ++ s :: post → ∀ ρ', runAll ρ pre = some ρ' → ∀ f d ys, CallsFn s f → Called pre f →
    ρ' f = some (.fn d ys) → ∀ y ∈ ys, ∀ w ∈ pre, ¬ Sets w y

/-- Every cell is like this. -/
def Quiet : List (List Stmt) → Prop
  | [] => True
  | c :: h => QuietCell (notebook h) c ∧ Quiet h

end Verif.Calls.Spec
