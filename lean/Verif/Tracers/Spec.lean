import Verif.Tracers.Model

/-!
# Which tracers should see the statements of cells -/

namespace Verif.Tracers

/-- All that the cells of a session have done, newest first. -/
def log : List Event → List Act
  | [] => []
  | .cell _ acts :: h => acts.reverse ++ log h
  | .attach :: h => log h
  | .disconnect :: h => log h

/-- A class is registered: it was the last to be registered under its name, and none of this name were deregistered since. -/
def Registered : List Act → Cls → Prop
  | [], c => c = recorder ∨ c = dataflow ∨ c = interrupt
  | .register d :: l, c => c = d ∨ (c.name ≠ d.name ∧ Registered l c)
  | .deregister d :: l, c => c.name ≠ d.name ∧ Registered l c
  | .deregisterAll :: _, _ => False
  | .stmt :: l, c => Registered l c
  | .on :: l, c => Registered l c
  | .off :: l, c => Registered l c
  | .only :: l, c => Registered l c

/-- Whether a list of acts, newest first, leaves tracking on, if it was `b` before. -/
def onAfter (b : Bool) : List Act → Bool
  | [] => b
  | .on :: _ => true
  | .off :: _ => false
  | .stmt :: l => onAfter b l
  | .register _ :: l => onAfter b l
  | .deregister _ :: l => onAfter b l
  | .deregisterAll :: l => onAfter b l
  | .only :: l => onAfter b l

/-- Tracking has last been switched on: by the user, or by a debugger that was disconnected. -/
def tracking : List Event → Bool
  | [] => true
  | .attach :: _ => false
  | .disconnect :: _ => true
  | .cell _ acts :: h => onAfter (tracking h) acts.reverse

/-- The user has last asked for transformations of syntax only. -/
def OnlySyntax : List Act → Prop
  | [] => False
  | .only :: _ => True
  | .on :: _ => False
  | .off :: l => OnlySyntax l
  | .stmt :: l => OnlySyntax l
  | .register _ :: l => OnlySyntax l
  | .deregister _ :: l => OnlySyntax l
  | .deregisterAll :: l => OnlySyntax l

/-- A cell that is run now is traced. -/
def Traced (h : List Event) : Prop := tracking h = true ∧ ¬ OnlySyntax (log h)

/-- An act that changes which tracers are registered. -/
def Changes : Act → Prop
  | .register _ => True
  | .deregister _ => True
  | .deregisterAll => True
  | _ => False

/-- Tracers were registered and deregistered in cells that were traced only. -/
def InTraced : List Event → Prop
  | [] => True
  | .cell _ acts :: h => (Traced h ∨ ∀ a ∈ acts, ¬ Changes a) ∧ InTraced h
  | .attach :: h => InTraced h
  | .disconnect :: h => InTraced h

open Classical in
/-- The first cell that was traced since the last traced cell that changed which tracers are registered: whether it began with `%%capture`. -/
noncomputable def firstSince : List Event → Option Bool
  | [] => none
  | .cell capture acts :: h =>
    if Traced h then
      if ∃ a ∈ acts, Changes a then none
      else
        match firstSince h with
        | none => some capture
        | some b => some b
    else firstSince h
  | .attach :: h => firstSince h
  | .disconnect :: h => firstSince h

/-- The tracer should see a statement: the cell is traced, the tracer was registered before it began and is still, and, if it is the recorder of output, the cell does
not capture its output itself. -/
def Should (h : List Event) (capture : Bool) (pre : List Act) (c : Cls) : Prop :=
  Traced h ∧ Registered (log h) c ∧ Registered (pre.reverse ++ log h) c ∧ (c = recorder → capture = false)

/-! ### Debuggers -/

/-- What the user asked for last. -/
def wish : List Event → Bool
  | [] => true
  | .cell _ acts :: h => onAfter (wish h) acts.reverse
  | .attach :: h => wish h
  | .disconnect :: h => wish h

/-- A debugger is attached. -/
def attached : List Event → Bool
  | [] => false
  | .attach :: _ => true
  | .disconnect :: _ => false
  | .cell _ _ :: h => attached h

/-- Tracking is not switched on while a debugger is attached, and has not been switched off by the user when one is disconnected. -/
def Orderly : List Event → Prop
  | [] => True
  | .cell _ acts :: h => (attached h = true → onAfter false acts.reverse = false) ∧ Orderly h
  | .attach :: h => Orderly h
  | .disconnect :: h => wish h = true ∧ Orderly h

/-- The session has only its own three tracers, and more than transformations of syntax was always asked for. -/
def Plain (h : List Event) : Prop := ∀ a ∈ log h, ¬ Changes a ∧ a ≠ .only

end Verif.Tracers
