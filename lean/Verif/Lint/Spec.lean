import Verif.Lint.Model

/-!
# What is to be listed

Stated about the executions of cells: which variables they read where, and which execution had set them. -/

namespace Verif.Lint

/-- A use of a variable: the statement, the variable, the place, and the execution that had set it. -/
structure Use where
  stmt : Nat
  name : Nat
  place : Nat
  setter : Nat
  deriving DecidableEq, Repr

/-- Which execution has set each variable. -/
abbrev Env := Nat → Option Nat

/-- The uses of a statement, if all that it reads is set. -/
def readAll (env : Env) (i : Nat) : List (Nat × Nat) → Option (List Use)
  | [] => some []
  | (x, p) :: rs =>
    match env x, readAll env i rs with
    | some s, some us => some (⟨i, x, p, s⟩ :: us)
    | _, _ => none

/-- The variables after a statement of execution `k`. -/
def assign (env : Env) (k : Nat) : Option Nat → Env
  | none => env
  | some x => fun y => if y = x then some k else env y

/-- The statements of execution `k`, from number `i` on, up to the first that reads a variable that is not set: the variables afterwards, and the uses. -/
def trace (k : Nat) : Nat → List Stmt → Env → Env × List Use
  | _, [], env => (env, [])
  | i, s :: ss, env =>
    match readAll env i s.reads with
    | none => (env, [])
    | some us =>
      let r := trace k (i + 1) ss (assign env k s.write)
      (r.1, us ++ r.2)

/-- An execution. -/
structure Exec where
  num : Nat
  id : Nat
  uses : List Use

/-- The variables and the executions after a session, newest first. -/
def replay : List Event → Env × List Exec
  | [] => (fun _ => none, [])
  | .run id code :: h =>
    let r := replay h
    let t := trace (r.2.length + 1) 0 code r.1
    (t.1, ⟨r.2.length + 1, id, t.2⟩ :: r.2)
  | .order _ :: h => replay h
  | .direction _ :: h => replay h

/-- The executions of a session. -/
def execs (h : List Event) : List Exec := (replay h).2

/-- The last execution of its cell. -/
def Latest (h : List Event) (e : Exec) : Prop := e ∈ execs h ∧ ∀ e' ∈ execs h, e'.id = e.id → e'.num ≤ e.num

/-- The order of cells that the client told last. -/
def lastOrder : List Event → List Nat
  | [] => []
  | .order ids :: _ => ids
  | .run _ _ :: h => lastOrder h
  | .direction _ :: h => lastOrder h

/-- `d` stands below `c`. -/
def Below (l : List Nat) (c d : Nat) : Prop := ∃ a b e, l = a ++ c :: b ++ d :: e

/-- The last execution of cell `c` used `x` at `p`, when execution `s` of a cell that now stands below had set it. -/
def Flagged (h : List Event) (v : Entry) : Prop :=
  ∃ e, Latest h e ∧ e.id = v.cell ∧ (∃ i, ⟨i, v.name, v.place, v.setter⟩ ∈ e.uses) ∧
    ∃ d ∈ execs h, d.num = v.setter ∧ Below (lastOrder h) v.cell d.id

/-- Every cell that was run is in the order that the client told last. -/
def AllPlaced (h : List Event) : Prop := ∀ e ∈ execs h, e.id ∈ lastOrder h

/-- The client names each cell once. -/
def Distinct (h : List Event) : Prop := ∀ ids, .order ids ∈ h → ids.Nodup

/-- No statement reads a variable at two places. -/
def ReadsOnce (h : List Event) : Prop := ∀ id code, .run id code ∈ h → ∀ s ∈ code, (s.reads.map (·.1)).Nodup

/-- The user has last asked for the order of the notebook. -/
def InOrder : List Event → Prop
  | [] => False
  | .direction b :: _ => b = true
  | .run _ _ :: h => InOrder h
  | .order _ :: h => InOrder h

/-- The last execution of cell `c` used `x`, when execution `s` of cell `d` had set it. -/
def UsedOf (h : List Event) (c x s d : Nat) : Prop :=
  ∃ e, Latest h e ∧ e.id = c ∧ (∃ i p, ⟨i, x, p, s⟩ ∈ e.uses) ∧ ∃ e' ∈ execs h, e'.num = s ∧ e'.id = d

end Verif.Lint
