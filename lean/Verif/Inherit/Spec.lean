import Verif.Inherit.Model

/-!
# Where the value of an attribute comes from in Python -/

namespace Verif.Inherit.Spec
open Verif.Inherit

/-- The class was given the attribute. -/
def Given (h : List Ev) (c a : Nat) : Prop := Ev.setC c a ∈ h

/-- The object has the attribute itself. -/
def Own : List Ev → Nat → Nat → Prop
  | [], _, _ => False
  | .setO p b :: h, o, a => (o = p ∧ a = b) ∨ Own h o a
  | .hidden p b :: h, o, a => (o = p ∧ a = b) ∨ Own h o a
  | .delO p b :: h, o, a => ¬ (o = p ∧ a = b) ∧ Own h o a
  | _ :: h, o, a => Own h o a

/-- The value of `o.a` is the one of the attribute of class `d`: the object does not have it, and `d` is the first of its classes that was given it. -/
def From (w : World) (h : List Ev) (o a d : Nat) : Prop :=
  ¬ Own h o a ∧ ∃ l r, w.cls o :: w.above (w.cls o) = l ++ d :: r ∧ Given h d a ∧ ∀ c ∈ l, ¬ Given h c a

/-- No class inherits from itself. -/
def Proper (w : World) : Prop := ∀ c, c ∉ w.above c

/-- `o.a` was neither read nor assigned, at all or since the object had it and it was deleted. -/
def Fresh (h : List Ev) (o a : Nat) : Prop :=
  ∃ l k, h = l ++ k ∧ Ev.read o a ∉ l ∧ Ev.setO o a ∉ l ∧ (k = [] ∨ ∃ k', k = Ev.delO o a :: k' ∧ Own k' o a)

/-- `o.a` is neither assigned nor deleted. -/
def Quiet (h : List Ev) (o a : Nat) : Prop := Ev.setO o a ∉ h ∧ Ev.delO o a ∉ h

end Verif.Inherit.Spec
