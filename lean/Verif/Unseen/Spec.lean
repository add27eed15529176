import Verif.Unseen.Model

/-!
# When an element was last changed -/

namespace Verif.Unseen.Spec
open Verif.Unseen

/-- The run of the newest event of a history. -/
def now (h : List Ev) : Nat := h.length + 1

/-- The last run that may have changed element `k`: it stored the element, changed the object as a whole, or made it. -/
def changed (k : Nat) : List Ev → Nat
  | [] => 1
  | .store j :: h => if j = k then now (.store j :: h) else changed k h
  | .change :: h => now (.change :: h)
  | _ :: h => changed k h

/-- The element was neither stored nor read so far. -/
def New (k : Nat) (h : List Ev) : Prop := Ev.store k ∉ h ∧ Ev.read k ∉ h

/-- The variable is one of the object. -/
def Names (v0 : Nat) : List Ev → Nat → Prop
  | [], v => v = v0
  | .bind u :: h, v => v = u ∨ Names v0 h v
  | .unbind u :: h, v => v ≠ u ∧ Names v0 h v
  | _ :: h, v => Names v0 h v

/-- Neither stores nor new variables. -/
def Calm (h : List Ev) : Prop := ∀ e ∈ h, (∃ v, e = .unbind v) ∨ (∃ k, e = .read k)

end Verif.Unseen.Spec
