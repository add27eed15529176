import Verif.Listen.Model

/-! # What is expected of those who listen to widgets -/

namespace Verif.Listen.Spec

/-- The widget that a name is bound to. -/
def bound : List Event → Nat → Option Nat
  | [], _ => none
  | .bind n o _ :: h, m => if n = m then o else bound h m
  | .add _ _ :: h, m => bound h m

/-- The last assignment to the name bound it to the widget and did not use the name itself, and no other name was bound to the widget then. -/
def Sole : List Event → Nat → Nat → Prop
  | [], _, _ => False
  | .bind m o self :: h, n, w => if m = n then o = some w ∧ self = false ∧ ∀ k, k ≠ n → bound h k ≠ some w else Sole h n w
  | .add _ _ :: h, n, w => Sole h n w

/-- Among the later events (newest first), a name is bound that was bound to the widget. -/
def Rebound (w : Nat) : List Event → List Event → Prop
  | [], _ => False
  | .bind n _ _ :: more, past => bound (more ++ past) n = some w ∨ Rebound w more past
  | .add _ _ :: more, past => Rebound w more past

end Verif.Listen.Spec
