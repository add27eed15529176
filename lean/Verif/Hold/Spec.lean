import Verif.Hold.Model

/-! # What is expected of cells that are held back

Only the histories of the model are used here. -/

namespace Verif.Hold.Spec

/-- Whether warnings are on. -/
def warned : List Event → Bool
  | [] => false
  | .warn on :: _ => on
  | .run _ :: h => warned h
  | .place _ :: h => warned h

/-- The position of a cell in the notebook, as last told; cells not in it come first. -/
def place : List Event → Nat → Int
  | [], _ => -1
  | .place pos :: _, k => match Assoc.get pos k with
    | none => -1
    | some p => p
  | .run _ :: h, k => place h k
  | .warn _ :: h, k => place h k

/-- The cell and code of the last run. -/
def latest : List Event → Option (Nat × Nat)
  | [] => none
  | .run r :: _ => some (r.cell, r.code)
  | .place _ :: h => latest h
  | .warn _ :: h => latest h

/-- The code reads a variable that was set by a cell further down; `setter` tells who set a variable. -/
def fromBelow (setter : Nat → Option Nat) (h : List Event) (r : Run) : Bool := r.reads.any fun v => match setter v with
  | none => false
  | some k => decide (place h r.cell < place h k)

/-- Such a run is held back if warnings are on, unless it repeats the run right before it. -/
def heldBack (setter : Nat → Option Nat) (h : List Event) (r : Run) : Bool :=
  warned h && fromBelow setter h r && decide (latest h ≠ some (r.cell, r.code))

/-- The cell that set a variable last; runs that are held back set nothing. -/
def setter : List Event → Nat → Option Nat
  | [], _ => none
  | .run r :: h, v => if heldBack (setter h) h r then setter h v else if v ∈ r.sets.map Prod.fst then some r.cell else setter h v
  | .place _ :: h, v => setter h v
  | .warn _ :: h, v => setter h v

/-- The run would be held back after the history. -/
def held (h : List Event) (r : Run) : Bool := heldBack (setter h) h r

/-- The run would use a value from further down. -/
def below (h : List Event) (r : Run) : Bool := fromBelow (setter h) h r

/-- The value of a variable after assignments, the last of which counts. -/
def assigned (old : Option Nat) (v : Nat) : List (Nat × Nat) → Option Nat
  | [] => old
  | (v', x) :: l => assigned (if v' = v then some x else old) v l

/-- The values of variables if runs that are held back do nothing and all others do what their code does. -/
def value : List Event → Nat → Option Nat
  | [], _ => none
  | .run r :: h, v => if held h r then value h v else assigned (value h v) v r.sets
  | .place _ :: h, v => value h v
  | .warn _ :: h, v => value h v

/-- The last run of a cell that was not held back. -/
def executed : List Event → Nat → Option Run
  | [], _ => none
  | .run r :: h, k => if r.cell = k ∧ held h r = false then some r else executed h k
  | .place _ :: h, k => executed h k
  | .warn _ :: h, k => executed h k

/-- That run used no value from further down, or warnings were off. -/
def clean : List Event → Nat → Bool
  | [], _ => true
  | .run r :: h, k => if r.cell = k ∧ held h r = false then !(warned h && below h r) else clean h k
  | .place _ :: h, k => clean h k
  | .warn _ :: h, k => clean h k

/-- What a run shows. -/
def output (r : Run) : List Item := r.texts.map .text ++ (r.result.map Item.result).toList

/-- How many runs there were. -/
def runs : List Event → Nat
  | [] => 0
  | .run _ :: h => runs h + 1
  | .place _ :: h => runs h
  | .warn _ :: h => runs h

/-- When the last run of a cell was, in number of runs, and what it read; held back or not (`all`), or not held back. -/
def lastRun (all : Bool) : List Event → Nat → Option (Nat × List Nat)
  | [], _ => none
  | .run r :: h, k => if r.cell = k ∧ (all || !held h r) then some (runs h + 1, r.reads) else lastRun all h k
  | .place _ :: h, k => lastRun all h k
  | .warn _ :: h, k => lastRun all h k

/-- When a variable was last set, in number of runs. -/
def setAt : List Event → Nat → Option Nat
  | [], _ => none
  | .run r :: h, v => if held h r = false ∧ v ∈ r.sets.map Prod.fst then some (runs h + 1) else setAt h v
  | .place _ :: h, v => setAt h v
  | .warn _ :: h, v => setAt h v

/-- A variable that the last execution of the cell read has been set since by a cell that is not further down. -/
def Outdated (h : List Event) (k : Nat) : Prop :=
  ∃ c reads v w k', lastRun false h k = some (c, reads) ∧ v ∈ reads ∧ setAt h v = some w ∧ c < w ∧ setter h v = some k' ∧ place h k' ≤ place h k

end Verif.Hold.Spec
