import Verif.Dirty.Model

/-!
# Which cells were edited since they were run -/

namespace Verif.Dirty.Spec
open Verif.Dirty

/-- The text of a cell. -/
def text : List Ev → Nat → Nat
  | [], _ => 0
  | .edit d t :: h, c => if c = d then t else text h c
  | _ :: h, c => text h c

/-- The text with which a cell was run last. -/
def ranWith : List Ev → Nat → Option Nat
  | [], _ => none
  | .run d :: h, c => if c = d then some (text h c) else ranWith h c
  | _ :: h, c => ranWith h c

/-- The cell was run and has another text now. -/
def Edited (h : List Ev) (c : Nat) : Prop := ∃ t, ranWith h c = some t ∧ t ≠ text h c

/-- Nothing was edited since the notebook last came to rest, or since it was connected. -/
def atRest : List Ev → Prop
  | [] => True
  | .edit _ _ :: _ => False
  | .run _ :: h => atRest h
  | .settle :: _ => True
  | .connect :: _ => True

/-- Cells are only run half a second or more after the last edit. -/
def Calm : List Ev → Prop
  | [] => True
  | .run _ :: h => atRest h ∧ Calm h
  | _ :: h => Calm h

/-- The text of a cell when the notebook last came to rest since it was connected. -/
def restedText : List Ev → Nat → Option Nat
  | [], _ => none
  | .settle :: h, c => some (text h c)
  | .connect :: _, _ => none
  | _ :: h, c => restedText h c

end Verif.Dirty.Spec
