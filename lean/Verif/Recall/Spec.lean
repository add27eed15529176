import Verif.Recall.Model

/-!
# What looking back should give -/

namespace Verif.Recall

/-- All runs are kept in the history of IPython. -/
def Kept (h : List Run) : Prop := ∀ r ∈ h, r.hist = true

/-- A run is recorded exactly if it is traced. -/
def Recorded (h : List Run) : Prop := ∀ r ∈ h, r.recorded = r.traced

/-- More was written than is kept for former versions of cells. -/
def TooMuch (limit : Nat) (c : Capture) : Prop := limit < c.shown + c.out.length + c.err.length

/-- The next run of a cell among later runs, newest first. -/
def next (i : Id) : List Run → Option Run
  | [] => none
  | r :: later =>
    match next i later with
    | some q => some q
    | none => if r.id = i then some r else none

/-- The output of a run is let go of: it is large, and the cell was run again, with tracking on. -/
def LetGo (limit : Nat) (r : Run) (later : List Run) : Prop := TooMuch limit r.wrote ∧ ∃ q, next r.id later = some q ∧ q.traced = true

/-- What the last recorded run wrote, newest first. -/
def lastRecorded : List Run → Option Capture
  | [] => none
  | r :: h => if r.recorded then some r.wrote else lastRecorded h

end Verif.Recall
