import Verif.Resend.Model

/-!
# What messages should reach the kernel -/

namespace Verif.Resend.Spec
open Verif.Resend

/-- Nothing happens but that the client has messages to send and the kernel takes what is on the way. -/
def Plain (h : List Event) : Prop := ∀ e ∈ h, e = .deliver ∨ ∃ m, e = .send m

/-- The messages the client had to send, in order; histories have their newest event first. -/
def sends : List Event → List Nat
  | [] => []
  | .send m :: h => sends h ++ [m]
  | _ :: h => sends h

/-- A message is not to be sent again. -/
def Unsent (p : Nat) (h : List Event) : Prop := ∀ e ∈ h, e ≠ .send p ∧ ∀ a r, e = .answer a r → a ≠ p ∧ r ≠ p

/-- All messages that were to be sent since the running kernel started and before the connection was given up. -/
def due : List Event → List Nat
  | [] => []
  | .lost :: _ => []
  | .send m :: h => if .disconnect ∈ h then due h else m :: due h
  | .answer a r :: h => if .disconnect ∈ h then due h else a :: r :: due h
  | _ :: h => due h

end Verif.Resend.Spec
