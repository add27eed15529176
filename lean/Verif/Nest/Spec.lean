import Verif.Nest.Model

/-!
# Runs of code inside runs of cells: what is expected

Everything here is said of histories alone (newest event first): which cell is running, which cell set a variable last, which code was given last for a cell. -/

namespace Verif.Nest

/-- The event is no run inside a run. -/
def Plain : Ev → Prop
  | .enter _ _ => False
  | _ => True

/-- The event begins no run of a cell. -/
def NoStart : Ev → Prop
  | .start _ _ => False
  | _ => True

/-- The event is not a direct call of `run_cell`. -/
def NoCall : Ev → Prop
  | .enter false _ => False
  | _ => True

/-- No cell was run after the first run inside a run. -/
def Late : List Ev → Prop
  | [] => True
  | .start _ _ :: h => ∀ e ∈ h, Plain e
  | _ :: h => Late h

/-- The statement does not set the variable. -/
def Keeps (v : Var) : Ev → Prop
  | .stmt _ ds => v ∉ ds
  | _ => True

/-- The statement does not read the variable. -/
def Ignores (v : Var) : Ev → Prop
  | .stmt us _ => v ∉ us
  | _ => True

/-- The cell that is running, or ran last. -/
def cellOf : List Ev → Option Id
  | [] => none
  | .start i _ :: _ => some i
  | _ :: h => cellOf h

/-- The cell whose run set the variable last: what the user expects to be named. -/
def setBy (v : Var) : List Ev → Option Id
  | [] => none
  | .stmt us ds :: h => if v ∈ ds then cellOf (.stmt us ds :: h) else setBy v h
  | _ :: h => setBy v h

/-- The code that the user gave last for a cell. -/
def givenCode (i : Id) : List Ev → Option Code
  | [] => none
  | .start j c :: h => if j = i then some c else givenCode i h
  | _ :: h => givenCode i h

/-- The cells run in a history, oldest first. -/
def cellsRun : List Ev → List Id
  | [] => []
  | .start i _ :: h => cellsRun h ++ [i]
  | _ :: h => cellsRun h

/-- How many runs inside runs there are. -/
def inner : List Ev → Nat
  | [] => 0
  | .enter _ _ :: h => inner h + 1
  | _ :: h => inner h

/-- The code of the last run inside a run. -/
def innerCode : List Ev → Option Code
  | [] => none
  | .enter _ c :: _ => some c
  | _ :: h => innerCode h

/-- How many runs inside the run had begun when the variable was set last; nothing if it was not set. -/
def setIn (v : Var) : List Ev → Option Nat
  | [] => none
  | .stmt _ ds :: h => if v ∈ ds then some (inner h) else setIn v h
  | _ :: h => setIn v h

/-- A cell read a variable that another cell had set last. -/
def Used (reader writer : Id) : List Ev → Prop
  | [] => False
  | .stmt us ds :: h => (cellOf (.stmt us ds :: h) = some reader ∧ ∃ v ∈ us, setBy v h = some writer) ∨ Used reader writer h
  | _ :: h => Used reader writer h

/-- The cell has not been run again since it set the variable last. -/
def SetByLatest (v : Var) (i : Id) : List Ev → Prop
  | [] => False
  | .stmt us ds :: h => if v ∈ ds then cellOf (.stmt us ds :: h) = some i else SetByLatest v i h
  | .start j _ :: h => j ≠ i ∧ SetByLatest v i h
  | _ :: h => SetByLatest v i h

/-- A word of the line of `%%capture` that is an option. `IPython` takes the word that is none as the name of the variable. -/
def IsOption (w : List Char) : Prop := w.head? = some '-'

/-- Words put together with single blanks. -/
def line : List (List Char) → List Char
  | [] => []
  | [w] => w
  | w :: ws => w ++ ' ' :: line ws

/-- Something that can be a word of a line: not empty and without blanks. -/
def Word (w : List Char) : Prop := w ≠ [] ∧ ' ' ∉ w

end Verif.Nest
