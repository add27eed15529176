import Verif.Content.Model

/-! What is meant, told from the history alone. Histories are lists of events, the newest first. -/

namespace Verif.Content.Spec

variable {S : Type}

/-- The notebook on the screen. -/
def screen : List (Event S) → Screen
  | [] => []
  | .edit s :: _ => s
  | .settle :: past => screen past
  | .ask _ _ :: past => screen past
  | .run _ _ :: past => screen past

/-- The notebook as it was when it last came to rest. -/
def rested : List (Event S) → Option Screen
  | [] => none
  | .settle :: past => some (screen past)
  | .edit _ :: past => rested past
  | .ask _ _ :: past => rested past
  | .run _ _ :: past => rested past

/-- A code cell with this code is in the notebook. -/
def Shows (s : Screen) (id : Nat) (c : String) : Prop := (⟨id, .code, c⟩ : Item) ∈ s

/-- No two cells of a notebook ever had the same id. -/
def Distinct (es : List (Event S)) : Prop :=
  ∀ s, Event.edit s ∈ es → (s.map (·.id)).Nodup

/-- Python can parse the code. -/
def Parses (check : String → Outcome S) (c : String) : Prop := ∃ live mods, check c = .ok live mods

/-- Looking at code never fails in another way than with a syntax error. -/
def Tame (check : String → Outcome S) : Prop := ∀ c, check c ≠ .crash

/-- The kernel works with this code for this cell. -/
def Has (k : Kernel S) (id : Nat) (c : String) : Prop := ∃ cell, Assoc.get k.cells id = some cell ∧ cell.content = c

/-- The kernel works with the code on the screen, as far as it can be parsed. -/
def Agrees (check : String → Outcome S) (y : Sys S) : Prop :=
  ∀ id c, Shows y.screen id c → Parses check c → Has y.kernel id c

/-- After this history, this event makes the client send what is on the screen and the kernel take it in: a request
for a schedule, or coming to rest with something else on the screen than the last time. -/
def Heard (past : List (Event S)) (e : Event S) : Prop :=
  e = .ask false false ∨ (e = .settle ∧ rested past ≠ some (screen past))

/-- The cell is not run in this part of the history. -/
def NotRun (id : Nat) (es : List (Event S)) : Prop := ∀ w, Event.run id w ∉ es

/-- Only edits. -/
def OnlyEdits (es : List (Event S)) : Prop := ∀ e ∈ es, ∃ s, e = Event.edit s

end Verif.Content.Spec
