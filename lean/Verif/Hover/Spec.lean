import Verif.Hover.Model

/-!
# What pointing at a bar is to show

Stated about schedules and what has happened, without listeners. -/

namespace Verif.Hover

/-- The colour in which a linked cell is to be lit: by whether it is waiting. -/
def Tint (d : Data) (l : Nat) (c : Colour) : Prop := (c = .waiting ∧ d.waiting l = true) ∨ (c = .readyMaker ∧ d.waiting l = false)

/-- `Shows d i p j q c`: by the schedule `d`, pointing at the bar `p` of cell `i` is to light the bar `q` of cell `j` in colour `c`. A cell whose
output is out of date has its two bars linked; in lazy mode both bars of a cell light the inputs of the cells it waits for, and the bar of its
input lights both bars of the cells that would make it ready. -/
inductive Shows (d : Data) : Nat → Part → Nat → Part → Colour → Prop
  | output (i) : d.marked = true → (d.waiting i = true ∨ d.ready i = true) → Shows d i .input i .output .waiting
  | waits (i) : d.marked = true → d.waiting i = true → Shows d i .output i .input .waiting
  | ready (i) : d.marked = true → d.waiting i = false → d.ready i = true → Shows d i .output i .input .readyMaker
  | waiter (i p j c ls) : d.marked = true → d.reactive = false → d.waiters i = some ls → j ∈ ls → Tint d j c → Shows d i p j .input c
  | maker (i j q c ls) : d.marked = true → d.reactive = false → d.makers i = some ls → j ∈ ls → Tint d j c → Shows d i .input j q c

/-- `j` is linked with `i` by the schedule. -/
def Linked (d : Data) (i j : Nat) : Prop := (∃ ls, d.waiters i = some ls ∧ j ∈ ls) ∨ (∃ ls, d.makers i = some ls ∧ j ∈ ls)

/-- The events after which the client refreshes what is shown. -/
def Refreshes : Event → Prop
  | .schedule _ r => r = true
  | .select => True
  | .insert _ _ => False
  | .render _ => False
  | .delete _ => False
  | .over _ _ => False
  | .out => False

instance (e : Event) : Decidable (Refreshes e) := by cases e <;> unfold Refreshes <;> infer_instance

/-- The history up to the last time that the client refreshed what is shown. -/
def upToRefresh : List Event → List Event
  | [] => []
  | e :: h => if Refreshes e then e :: h else upToRefresh h

/-- The pointer is on a bar of cell `i`. -/
def PointsAt (w : World) (i : Nat) : Prop := ∃ v ∈ w.widgets, v.id = i ∧ ∃ p, w.pointer = some (v.node, p)

/-- Since the last refresh no cell was removed while the pointer was on one of its bars. -/
def Undisturbed : List Event → Prop
  | [] => True
  | .delete i :: h => ¬ PointsAt (run h) i ∧ Undisturbed h
  | .select :: _ => True
  | .schedule _ r :: h => r = true ∨ Undisturbed h
  | .insert _ _ :: h => Undisturbed h
  | .render _ :: h => Undisturbed h
  | .over _ _ :: h => Undisturbed h
  | .out :: h => Undisturbed h

/-- The bar `p` of the cell `i` is lit in colour `c`, as the user sees it. -/
def Lights (w : World) (i : Nat) (p : Part) (c : Colour) : Prop := ∃ v ∈ w.widgets, v.id = i ∧ w.lit v.node p c = true

/-- The code cell `i` has been in the notebook, with its bars, since the notebook was `r`. -/
def ThereSince (r w : World) (i : Nat) : Prop :=
  ∃ v, v ∈ r.widgets ∧ v ∈ w.widgets ∧ v.id = i ∧ v.code = true ∧ r.made v.node .input = true

/-- The code cell `i` has been in the notebook since it was `r`, and has its bars now. -/
def ThereNow (r w : World) (i : Nat) : Prop :=
  ∃ v, v ∈ r.widgets ∧ v ∈ w.widgets ∧ v.id = i ∧ v.code = true ∧ w.made v.node .input = true

end Verif.Hover
