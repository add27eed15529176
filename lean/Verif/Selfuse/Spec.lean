import Verif.Selfuse.Model

/-! What the code of a variable or attribute should do, in terms of what Python does only. -/

namespace Verif.Selfuse.Spec
open Verif Verif.Selfuse

/-- The variables and attributes after the statements `h` (last first); `none` if one raises. -/
def run : List Stmt → Option Env
  | [] => some fun _ => none
  | s :: h => (run h).bind (exec s)

/-- No plain assignment sets an attribute to something computed from itself. -/
def SelfFree (h : List Stmt) : Prop := ∀ o a ops c, Stmt.put o a ops c ∈ h → Key.attr o a ∉ ops

/-- Links made by static analysis do not lead to later statements. -/
def NotLater (stat : Nat → List Nat) : Prop := ∀ t, ∀ u ∈ stat t, u ≤ t

/-- What is seen of `k` is the same: its value and, if it is a variable, all its attributes. -/
def SameAt (k : Key) (e e' : Env) : Prop :=
  e k = e' k ∧ ∀ x, k = .var x → ∀ a, e (.attr x a) = e' (.attr x a)

end Verif.Selfuse.Spec
