import Verif.Bumps.Model

/-!
# Which slices run -/

namespace Verif.Bumps.Spec
open Verif.Bumps

/-- No answer puts the notebook into the mode in which cells run reactively one at a time. -/
def Keeps : Ev → Prop
  | .answer a => a.lazy = true ∨ a.batch = true
  | _ => True

/-- A slice consists of code cells, one of them the active cell. -/
def Proper : Ev → Prop
  | .slice active closure => active = true ∧ closure ≠ [] ∧ ∀ c ∈ closure, c.2 = true
  | _ => True

/-- The user runs cells and the kernel answers, several times. -/
def rounds : List Answer → List Ev
  | [] => []
  | a :: as => .run :: .answer a :: rounds as

/-- A slice is run `n` times. -/
def presses : Nat → Bool → List (Nat × Bool) → List Ev
  | 0, _, _ => []
  | n + 1, active, closure => .slice active closure :: presses n active closure

/-- Nothing but forced cells would run after the answer. -/
def OnlyForced (a : Answer) : Prop := a.lazy = true ∨ a.ready = []

/-- Nothing is ever computed to depend on no cells. -/
def Grounded (a : Answer) : Prop := a.after [] = []

end Verif.Bumps.Spec
