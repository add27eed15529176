/-
What an execution ran, and what has been heard of its cell since.
-/
import Verif.Shown.Model

namespace Verif.Shown
open Verif

variable {C : Type}

/-- How many cells have been run. -/
def runs : List (Event C) → Nat
  | [] => 0
  | .run _ _ _ :: past => runs past + 1
  | .heard _ _ :: past => runs past

/-- `IsRun id e`: the cell `id` is run. -/
def IsRun (id : Nat) : Event C → Prop
  | .run i _ _ => i = id
  | .heard _ _ => False

instance (id : Nat) (e : Event C) : Decidable (IsRun id e) := by
  cases e <;> unfold IsRun <;> infer_instance

/-- The events, oldest first, until the cell is run again. -/
def reign (id : Nat) (newer : List (Event C)) : List (Event C) :=
  newer.reverse.takeWhile fun e => ¬ IsRun id e

/-- What an event tells of the code of a cell: messages during a reactive execution tell nothing,
and code that does not parse is not taken over. -/
def tells (L : Lang C) (id : Nat) : Event C → List C
  | .run _ _ _ => []
  | .heard true _ => []
  | .heard false msg => (msg.filter fun p => p.1 == id && L.parses p.2).map Prod.snd

/-- The code of the cell in the editor, told while the execution was the last of its cell. -/
def edits (L : Lang C) (id : Nat) (newer : List (Event C)) : List C :=
  (reign id newer).flatMap (tells L id)

/-- The code that is run when the code of a cell is run: all but the line `%%memoize`. -/
def Lang.body (L : Lang C) (c : C) : C := (L.memo c).getD c

/-- The code that is displayed for a content: without the line `%%memoize`, unless there is no
other. -/
def Lang.visible [DecidableEq C] (L : Lang C) (c : C) : C :=
  if L.memo c = some L.empty then c else L.body c

/-- The numbers of the executions of a cell, the newest first. -/
def execs (id : Nat) : List (Event C) → List Nat
  | [] => []
  | .run i _ _ :: past => if i = id then (runs past + 1) :: execs id past else execs id past
  | .heard _ _ :: past => execs id past

/-- The cell has been heard of before it was first run. -/
def HeardFirst (id : Nat) (past : List (Event C)) : Prop :=
  ∃ newer older reactively msg c, past = newer ++ .heard reactively msg :: older ∧
    (∀ e ∈ older, ¬ IsRun id e) ∧ (id, c) ∈ msg

/-- The execution `n` ran the code `c` of the cell `id`. -/
def Ran (past : List (Event C)) (n : Nat) (id : Nat) (c : C) (refused : Bool) : Prop :=
  ∃ newer older, past = newer ++ .run id c refused :: older ∧ runs older + 1 = n

end Verif.Shown
